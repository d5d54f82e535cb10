import Verif.Lemmas.Render.Wp
import Verif.Spec.Kept
set_option autoImplicit false
/-!
# What the functions of the renderer write, and which items they take

`Tells m P`: when `m` returns, it has written a text with `P` and at most looked ahead. `Eats m R`: it has taken items and written a text that are
related by `R`.
-/
namespace PL.Mathml
open W (boom get modify out)
open Spec

section
variable {α β : Type}

/-- See the head of the file. -/
structure Tells (m : W α) (P : Str → Prop) : Prop where
  run : ∀ s a s', s.budget = none → m s = .ok a s' → s'.budget = none ∧ s.peeked <+: s'.peeked ∧
    s'.peeked ++ s'.rest = s.peeked ++ s.rest ∧ ∃ t, s'.out = s.out ++ t ∧ P t

/-- Any text. -/
def Any (_ : Str) : Prop := True

/-- A part has the property. -/
def Has (P : Str → Prop) (t : Str) : Prop := ∃ u x v, t = u ++ x ++ v ∧ P x

/-- A text at the beginning has the property. -/
def Heads (P : Str → Prop) (t : Str) : Prop := ∃ x v, t = x ++ v ∧ P x

theorem Tells.mono {m : W α} {P Q : Str → Prop} (h : Tells m P) (hpq : ∀ t, P t → Q t) : Tells m Q :=
  ⟨fun s a s' hb e => by
    obtain ⟨h1, h2, h3, t, h4, h5⟩ := h.run s a s' hb e
    exact ⟨h1, h2, h3, t, h4, hpq _ h5⟩⟩

theorem Tells.any {m : W α} {P : Str → Prop} (h : Tells m P) : Tells m Any := h.mono fun _ _ => trivial

theorem ok_bind {m : W α} {f : α → W β} {s s' : RSt} {b : β} (h : (m >>= f) s = .ok b s') : ∃ a s1, m s = .ok a s1 ∧ f a s1 = .ok b s' := by
  rw [run_bind] at h
  cases e : m s with
  | ok a s1 => rw [e] at h; exact ⟨a, s1, rfl, h⟩
  | io w => rw [e] at h; cases h
  | panic p => rw [e] at h; cases h

theorem Tells.bind {m : W α} {f : α → W β} {P R : Str → Prop} (h : Tells m P) (hf : ∀ a x, P x → Tells (f a) fun y => R (x ++ y)) :
    Tells (m >>= f) R := by
  refine ⟨fun s b s' hb e => ?_⟩
  obtain ⟨a, s1, e1, e2⟩ := ok_bind e
  obtain ⟨h1, h2, h3, t, h4, h5⟩ := h.run s a s1 hb e1
  obtain ⟨g1, g2, g3, u, g4, g5⟩ := (hf a t h5).run s1 b s' h1 e2
  exact ⟨g1, h2.trans g2, g3.trans h3, t ++ u, by rw [g4, h4, List.append_assoc], g5⟩

theorem Tells.pure (a : α) : Tells (Pure.pure a : W α) (· = []) := ⟨fun s a s' hb e => by
  cases e
  exact ⟨hb, List.prefix_refl _, rfl, [], by simp, rfl⟩⟩

theorem Tells.boom {P : Str → Prop} (p : Panic) : Tells (boom p : W α) P := ⟨fun s a s' hb e => by cases e⟩

theorem Tells.out (t : Str) : Tells (out t) (· = t) := ⟨fun s a s' hb e => by
  unfold W.out at e
  rw [hb] at e
  cases e
  exact ⟨rfl, List.prefix_refl _, rfl, t, rfl, rfl⟩⟩

theorem Tells.get : Tells W.get (· = []) := ⟨fun s a s' hb e => by
  cases e
  exact ⟨hb, List.prefix_refl _, rfl, [], by simp, rfl⟩⟩

theorem Tells.modify {f : RSt → RSt} (h : ∀ s, (f s).peeked = s.peeked ∧ (f s).rest = s.rest ∧ (f s).out = s.out ∧ (f s).budget = s.budget) :
    Tells (modify f) (· = []) := ⟨fun s a s' hb e => by
  cases e
  obtain ⟨h1, h2, h3, h4⟩ := h s
  exact ⟨h4.trans hb, by rw [h1]; exact List.prefix_refl _, by rw [h1, h2], [], by rw [h3, List.append_nil], rfl⟩⟩

/-! ## Rules for texts that contain a piece -/

theorem Tells.skip {m : W α} {f : α → W β} {P : Str → Prop} (h : Tells m Any) (hf : ∀ a, Tells (f a) (Has P)) : Tells (m >>= f) (Has P) :=
  h.bind fun a x _ => (hf a).mono fun _ ⟨u, y, v, e, hy⟩ => ⟨x ++ u, y, v, by rw [e]; simp, hy⟩

theorem Tells.start {m : W α} {P : Str → Prop} (h : Tells m (Heads P)) : Tells m (Has P) :=
  h.mono fun _ ⟨x, v, e, hx⟩ => ⟨[], x, v, e, hx⟩

theorem Tells.next {m : W α} {f : α → W β} {P R : Str → Prop} (h : Tells m R) (hf : ∀ a x, R x → Tells (f a) (Heads fun y => P (x ++ y))) :
    Tells (m >>= f) (Heads P) :=
  h.bind fun a x hx => (hf a x hx).mono fun _ ⟨y, v, e, hy⟩ => ⟨x ++ y, v, by rw [e]; simp, hy⟩

theorem Tells.quiet {m : W α} {f : α → W β} {P : Str → Prop} (h : Tells m (· = [])) (hf : ∀ a, Tells (f a) (Heads P)) : Tells (m >>= f) (Heads P) :=
  h.next fun a x hx => by subst hx; exact hf a

theorem Tells.put {t : Str} {f : PUnit → W β} {P : Str → Prop} (hf : ∀ a, Tells (f a) (Heads fun y => P (t ++ y))) : Tells (W.out t >>= f) (Heads P) :=
  (Tells.out t).next fun a x hx => by subst hx; exact hf a

theorem Tells.cut {t : Str} {f : PUnit → W β} {P : Str → Prop} (a x : Str) (e : t = a ++ x)
    (hf : ∀ b, Tells (f b) (Heads fun y => P (x ++ y))) : Tells (W.out t >>= f) (Has P) :=
  (Tells.out t).bind fun b z hz => (hf b).mono fun _ ⟨y, v, e', hy⟩ => ⟨a, x ++ y, v, by subst hz; rw [e, e']; simp, hy⟩

theorem Tells.last {t : Str} {P : Str → Prop} (h : P t) : Tells (W.out t) (Heads P) :=
  (Tells.out t).mono fun x hx => ⟨x, [], by simp, by subst hx; exact h⟩

theorem Tells.final {t : Str} {f : PUnit → W β} {P : Str → Prop} (h : P t) (hf : ∀ a, Tells (f a) Any) : Tells (W.out t >>= f) (Heads P) :=
  (Tells.out t).bind fun a x hx => (hf a).mono fun y _ => ⟨x, y, rfl, by subst hx; exact h⟩
end

/-- One step in showing that something is written and at most looked ahead. -/
macro "tells1" : tactic => `(tactic| with_reducible first
  | assumption
  | exact Tells.any (Tells.pure _)
  | exact Tells.boom _
  | exact Tells.any (Tells.out _)
  | exact Tells.any (Tells.modify (fun _ => by with_unfolding_all exact ⟨rfl, rfl, rfl, rfl⟩))
  | exact Tells.any Tells.get
  | (refine Tells.bind (P := Any) ?_ (fun _ _ _ => Tells.any (P := Any) ?_))
  | split
  | (dsimp only; split))

theorem tells_state : Tells state (· = []) := by
  unfold state
  refine Tells.get.bind fun s x hx => ?_
  subst hx
  split
  · exact Tells.boom _
  · exact Tells.pure _

theorem tells_updState (f : RState → RState) : Tells (updState f) (· = []) := by
  unfold updState
  refine Tells.get.bind fun s x hx => ?_
  subst hx
  split
  · exact Tells.boom _
  · exact Tells.modify fun _ => ⟨rfl, rfl, rfl, rfl⟩

theorem tells_openTag (tag : Str) (c : Option Str) : Tells (openTag tag c) Any := by
  have := tells_state.any
  unfold openTag
  repeat' tells1

theorem tells_setPrev (a : Atom) : Tells (setPrev a) (· = []) := by
  refine ⟨fun s b s' hb e => ?_⟩
  rw [setPrev_eq] at e
  cases e
  exact ⟨hb, List.prefix_refl _, rfl, [], by simp, rfl⟩

theorem tells_forcePrev (a : Option Atom) : Tells (forcePrev a) (· = []) := Tells.modify fun _ => ⟨rfl, rfl, rfl, rfl⟩

theorem tells_peekNext : Tells peekNext (· = []) := ⟨fun s a s' hb e => by
  unfold peekNext at e
  split at e <;> cases e
  · exact ⟨hb, List.prefix_refl _, rfl, [], by simp, rfl⟩
  · rename_i h
    exact ⟨hb, List.prefix_append _ _, by simp [h], [], by simp, rfl⟩⟩

theorem tells_peekFirst : Tells peekFirst (· = []) := by
  unfold peekFirst
  refine Tells.get.bind fun s x hx => ?_
  subst hx
  split
  · exact tells_peekNext
  · exact Tells.pure _

theorem tells_nextAtomLoop : ∀ n i, Tells (nextAtomLoop n i) Any
  | 0, _ => Tells.boom _
  | n + 1, i => by
    have h1 := tells_nextAtomLoop n i
    have h2 := tells_nextAtomLoop n (i + 1)
    have h3 := tells_peekNext.any
    unfold nextAtomLoop
    repeat' tells1

theorem tells_nextAtom : Tells nextAtom Any := by
  have h := tells_nextAtomLoop
  unfold nextAtom
  repeat' first | exact h _ _ | tells1

theorem tells_mapChar (f : Font) (c : Char) : Tells (mapChar f c) Any := by unfold mapChar; repeat' tells1

theorem tells_applyFunction : Tells applyFunction Any := by
  have := tells_nextAtom
  unfold applyFunction
  repeat' tells1

/-! ## Contents -/

theorem tells_forChars {f : Char → W PUnit} (g : Char → Str) (h : ∀ c, Tells (f c) fun x => ∃ d, Variant c d ∧ x = g d) :
    ∀ s, Tells (forChars f s) fun t => ∃ y, Variants s y ∧ t = y.flatMap g
  | [] => (Tells.pure _).mono fun _ e => ⟨[], trivial, e⟩
  | c :: s => (h c).bind fun _ _ ⟨d, hd, e⟩ => (tells_forChars g h s).mono fun _ ⟨y, hy, e'⟩ => ⟨d :: y, ⟨hd, hy⟩, by rw [e, e']; rfl⟩

theorem variants_refl : ∀ s, Variants s s
  | [] => trivial
  | _ :: s => ⟨.inl rfl, variants_refl s⟩

theorem escapeChar_eq (c : Char) : escapeChar c = escapedChar c := by
  unfold escapeChar escapedChar
  split
  · rename_i h; subst h; rfl
  · split
    · rename_i h; subst h; rfl
    · split
      · rename_i h; subst h; rfl
      · split <;> first | contradiction | rfl

theorem flatMap_single (y : Str) : (y.flatMap fun c => [c]) = y := by
  induction y with
  | nil => rfl
  | cons c y ih => rw [List.flatMap_cons, ih]; rfl

theorem tells_edge {β : Type} {f : PUnit → W β} {P : Str → Prop} (c : Option Char) (hf : ∀ a, Tells (f a) (Heads fun y => P (edge c ++ y))) :
    Tells (if (c.map isWs).getD false then W.out c!"&nbsp;" >>= f else f ⟨⟩) (Heads P) := by
  unfold edge at hf
  split <;> rename_i h
  · simp only [h, if_true] at hf
    exact Tells.put hf
  · simp only [h] at hf
    exact hf _

theorem mapChar_variant {f : Font} {c : Char} {β : Type} {k : Char → W β} {P : Str → Prop} (h : ∀ d, Variant c d → Tells (k d) P) :
    Tells (mapChar f c >>= k) P := by
  unfold mapChar
  split
  · rename_i d e
    exact h d (.inr ⟨f, e⟩)
  · exact ⟨fun s a s' hb e => by cases e⟩

theorem stroke_or (b : Bool) : stroke b = [] ∨ stroke b = c!"̸" := by cases b <;> simp [stroke]

theorem tells_writeContent (cfg : RCfg) (neg : Bool) (c : Content) : Tells (writeContent cfg neg c) (Has fun x => ContentPiece x c) := by
  have ot := tells_openTag
  have st := tells_state
  have sp := tells_setPrev
  have na := tells_nextAtom
  have af := tells_applyFunction
  cases c with
  | text t =>
    unfold writeContent
    have fin : ∀ y, Variants (trim t) y → Tells (do
        if (t.getLast?.map isWs).getD false then out c!"&nbsp;"
        setPrev .ord
        out c!"</mtext>" : W PUnit) (Heads fun z => ContentPiece (c!">" ++ (edge t.head? ++ (y.flatMap escapedChar ++ z))) (.text t)) := fun y hy =>
      tells_edge _ fun _ => Tells.quiet (sp _) fun _ => Tells.last ⟨y, hy, by simp [inside]⟩
    refine Tells.skip (ot _ _) fun _ => Tells.start (Tells.put fun _ => tells_edge _ fun _ => Tells.quiet st fun r => ?_)
    dsimp only
    split
    · refine Tells.put fun _ => ?_
      have e : escape (trim t) = (trim t).flatMap escapedChar := by
        unfold escape
        congr 1
        funext c
        exact escapeChar_eq c
      rw [e]
      exact fin _ (variants_refl _)
    · exact Tells.next (tells_forChars escapedChar (fun c => mapChar_variant fun d hd => (Tells.out _).mono fun _ e =>
        ⟨d, hd, e.trans (escapeChar_eq d)⟩) (trim t)) fun _ x ⟨y, hy, e⟩ => by rw [e]; exact fin y hy
  | number t =>
    unfold writeContent
    refine Tells.skip (ot _ _) fun _ => Tells.start (Tells.put fun _ => ?_)
    refine Tells.next (tells_forChars (fun c => [c]) (fun c => ?_) t) fun _ x ⟨y, hy, e⟩ => Tells.quiet (sp _) fun _ => Tells.last ?_
    · refine st.bind fun r x hx => ?_
      subst hx
      split
      · exact mapChar_variant fun d hd => (Tells.out _).mono fun _ e => ⟨d, hd, e⟩
      · exact mapChar_variant fun d hd => (Tells.out _).mono fun _ e => ⟨d, hd, e⟩
      · exact (Tells.out _).mono fun _ e => ⟨c, .inl rfl, e⟩
    · rw [flatMap_single] at e
      exact ⟨y, hy, by rw [e]; simp [inside]⟩
  | function t =>
    unfold writeContent
    have tail : Tells (do
        match (← get).env with
        | .script ty a n _ :: es => modify fun s => { s with env := .script ty a n true :: es }
        | _ => applyFunction : W PUnit) Any := by
      refine Tells.get.any.bind fun s x hx => Tells.any (P := Any) ?_
      split
      · refine (Tells.modify ?_).any
        exact fun _ => ⟨rfl, rfl, rfl, rfl⟩
      · exact af
    have main : Tells (do
        openTag c!"mi" none
        out (if t.length = 1 then c!" mathvariant=\"normal\">" else c!">")
        out t
        setPrev .op
        out c!"</mi>"
        match (← get).env with
        | .script ty a n _ :: es => modify fun s => { s with env := .script ty a n true :: es }
        | _ => applyFunction : W PUnit) (Has fun x => ContentPiece x (.function t)) := by
      refine Tells.skip (ot _ _) fun _ => Tells.cut (if t.length = 1 then c!" mathvariant=\"normal\"" else []) c!">" (by split <;> rfl) fun _ => ?_
      exact Tells.put fun _ => Tells.quiet (sp _) fun _ => Tells.final (by simp [ContentPiece, inside]) fun _ => tail
    refine Tells.skip Tells.get.any fun s => ?_
    have key : ∀ (b : Bool) (m n : W PUnit), Tells m (Has fun x => ContentPiece x (.function t)) →
        Tells n (Has fun x => ContentPiece x (.function t)) → Tells (if b then m else n) (Has fun x => ContentPiece x (.function t)) := by
      intro b m n hm hn
      cases b
      · exact hn
      · exact hm
    exact key _ _ _ (Tells.skip (Tells.out _).any fun _ => main) main
  | ordinary c stretchy =>
    unfold writeContent
    cases stretchy with
    | true =>
      refine Tells.cut c!"<mo stretchy=\"true\"" c!">" rfl fun _ => Tells.put fun _ => Tells.last ?_
      exact ⟨c, [], .inl rfl, .inl rfl, by simp [inside]⟩
    | false =>
      have fin : ∀ d, Variant c d → Tells (do
          out (stroke neg)
          setPrev .ord
          out c!"</mi>" : W PUnit) (Heads fun y => ContentPiece (c!">" ++ ([d] ++ y)) (.ordinary c false)) := fun d hd =>
        Tells.put fun _ => Tells.quiet (sp _) fun _ => Tells.last ⟨d, _, hd, stroke_or neg, by simp [inside]⟩
      refine Tells.skip (ot _ _) fun _ => Tells.skip st.any fun r => ?_
      dsimp only
      split
      · exact Tells.cut c!" mathvariant=\"normal\"" c!">" rfl fun _ => Tells.put fun _ => fin c (.inl rfl)
      · split
        · exact Tells.cut c!" mathvariant=\"normal\"" c!">" rfl fun _ => Tells.put fun _ => fin c (.inl rfl)
        · exact Tells.cut [] c!">" rfl fun _ => Tells.put fun _ => fin c (.inl rfl)
      · exact Tells.cut [] c!">" rfl fun _ => mapChar_variant fun d hd => Tells.put fun _ => fin d hd
  | binaryOp c small =>
    unfold writeContent
    refine Tells.skip Tells.get.any fun s => ?_
    dsimp only
    refine Tells.skip ?_ fun b => Tells.skip (sp _).any fun _ => Tells.skip (ot _ _) fun _ => Tells.start (Tells.put fun _ => Tells.put fun _ => Tells.put fun _ => Tells.last ?_)
    · split
      · refine na.bind fun a x hx => Tells.any (P := Any) ?_
        split <;> exact (Tells.pure _).any
      · exact (Tells.pure _).any
    · refine ⟨_, _, ?_, stroke_or neg, by simp [inside]; rfl⟩
      split <;> simp
  | relation c d small =>
    unfold writeContent
    refine Tells.skip (ot _ _) fun _ => Tells.start (Tells.put fun _ => Tells.put fun _ => Tells.put fun _ => Tells.quiet (sp _) fun _ => Tells.last ?_)
    exact ⟨_, stroke_or neg, by simp [inside]⟩
  | largeOp c small =>
    unfold writeContent
    refine Tells.skip (ot _ _) fun _ => ?_
    have main : Tells (do
        out c!" movablelimits=\"false\">"
        out [c]
        out (stroke neg)
        setPrev .op
        out c!"</mo>" : W PUnit) (Has fun x => ContentPiece x (.largeOp c small)) :=
      Tells.cut c!" movablelimits=\"false\"" c!">" rfl fun _ => Tells.put fun _ => Tells.put fun _ => Tells.quiet (sp _) fun _ =>
        Tells.last ⟨_, stroke_or neg, by simp [inside]⟩
    split
    · exact Tells.skip (Tells.out _).any fun _ => main
    · exact main
  | delimiter c size ty =>
    unfold writeContent
    refine Tells.skip (ot _ _) fun _ => ?_
    have main : ∀ a, Tells (do
        out c!">"
        out [c]
        out (stroke neg)
        setPrev a
        out c!"</mo>" : W PUnit) (Has fun x => ContentPiece x (.delimiter c size ty)) :=
      fun a => Tells.start <| Tells.put fun _ => Tells.put fun _ => Tells.put fun _ => Tells.quiet (sp _) fun _ => Tells.last ⟨_, stroke_or neg, by simp [inside]⟩
    have main' : ∀ a, Tells (do
        match size with
        | some z => out (c!"minsize=\"" ++ emStr z ++ c!"em\" maxsize=\"" ++ emStr z ++ c!"em\"")
        | none => pure ⟨⟩
        out c!">"
        out [c]
        out (stroke neg)
        setPrev a
        out c!"</mo>" : W PUnit) (Has fun x => ContentPiece x (.delimiter c size ty)) := by
      intro a
      cases size
      · exact main a
      · exact Tells.skip (Tells.out _).any fun _ => main a
    have key : ∀ (p : Prop) [Decidable p] (m n : W PUnit), Tells m (Has fun x => ContentPiece x (.delimiter c size ty)) →
        Tells n (Has fun x => ContentPiece x (.delimiter c size ty)) → Tells (if p then m else n) (Has fun x => ContentPiece x (.delimiter c size ty)) := by
      intro b _ m n hm hn
      split
      · exact hm
      · exact hn
    exact key _ _ _ (Tells.skip (Tells.out _).any fun _ => main' _) (Tells.skip (Tells.out _).any fun _ => main' _)
  | punctuation c =>
    unfold writeContent
    refine Tells.skip (ot _ _) fun _ => Tells.start (Tells.put fun _ => Tells.put fun _ => Tells.put fun _ => Tells.quiet (sp _) fun _ => Tells.last ?_)
    exact ⟨_, stroke_or neg, by simp [inside]⟩

end PL.Mathml
