import Verif.Lemmas.Render.Tells
set_option autoImplicit false
/-!
# Which items the functions of the renderer take

`Takes m P`: when `m` returns, it has taken some items that need no piece and written a text with `P`. `Keeps m i`: together with the item `i`,
taken before, the items taken have their pieces in the text.
-/
namespace PL.Mathml
open W (boom get modify out)
open Spec

/-- An item that needs no piece. -/
def Mute (i : RItem) : Prop := Piece i []

theorem inOrder_mute : ∀ {d : List RItem} (_ : ∀ i ∈ d, Mute i) (t : Str), InOrder d t
  | [], _, t => .nil t
  | i :: d, h, t => by
    have := InOrder.cons (x := []) [] (h i (.head _)) (inOrder_mute (fun j hj => h j (.tail _ hj)) t)
    simpa using this

theorem _root_.PL.Spec.InOrder.more {d : List RItem} {t : Str} (h : InOrder d t) (u : Str) : InOrder d (t ++ u) := by
  induction h with
  | nil t => exact .nil _
  | cons t h1 _ ih => rw [List.append_assoc]; exact .cons t h1 ih

theorem _root_.PL.Spec.InOrder.before {d : List RItem} {t : Str} (h : InOrder d t) (u : Str) : InOrder d (u ++ t) := by
  cases h with
  | nil t => exact .nil _
  | cons t h1 h2 => rw [← List.append_assoc, ← List.append_assoc]; exact .cons _ h1 h2

theorem _root_.PL.Spec.InOrder.append {d e : List RItem} {t u : Str} (h : InOrder d t) (h' : InOrder e u) : InOrder (d ++ e) (t ++ u) := by
  induction h with
  | nil t => exact h'.before t
  | cons t h1 _ ih => rw [List.append_assoc]; exact .cons t h1 ih

theorem inOrder_has {i : RItem} {d : List RItem} {t : Str} (hd : ∀ i ∈ d, Mute i) (h : Has (Piece i) t) : InOrder (i :: d) t := by
  obtain ⟨u, x, v, rfl, hx⟩ := h
  exact .cons u hx (inOrder_mute hd v)

section
variable {α β : Type}

/-- The items taken and the text written between two states. -/
structure Between (s s' : RSt) (d : List RItem) (t : Str) : Prop where
  budget : s'.budget = none
  items : s.peeked ++ s.rest = d ++ (s'.peeked ++ s'.rest)
  out : s'.out = s.out ++ t

theorem Between.trans {s s1 s' : RSt} {d d' : List RItem} {t t' : Str} (h : Between s s1 d t) (h' : Between s1 s' d' t') :
    Between s s' (d ++ d') (t ++ t') :=
  ⟨h'.budget, by rw [h.items, h'.items, List.append_assoc], by rw [h'.out, h.out, List.append_assoc]⟩

/-- See the head of the file. -/
structure Takes (m : W α) (P : Str → Prop) : Prop where
  run : ∀ s a s', s.budget = none → m s = .ok a s' → ∃ d t, Between s s' d t ∧ (∀ i ∈ d, Mute i) ∧ P t

theorem Tells.takes {m : W α} {P : Str → Prop} (h : Tells m P) : Takes m P := ⟨fun s a s' hb e => by
  obtain ⟨h1, -, h3, t, h4, h5⟩ := h.run s a s' hb e
  exact ⟨[], t, ⟨h1, h3.symm, h4⟩, by simp, h5⟩⟩

theorem Takes.mono {m : W α} {P Q : Str → Prop} (h : Takes m P) (hpq : ∀ t, P t → Q t) : Takes m Q := ⟨fun s a s' hb e => by
  obtain ⟨d, t, h1, h2, h3⟩ := h.run s a s' hb e
  exact ⟨d, t, h1, h2, hpq _ h3⟩⟩

theorem Takes.any {m : W α} {P : Str → Prop} (h : Takes m P) : Takes m Any := h.mono fun _ _ => trivial

theorem Takes.bind {m : W α} {f : α → W β} {P R : Str → Prop} (h : Takes m P) (hf : ∀ a x, P x → Takes (f a) fun y => R (x ++ y)) :
    Takes (m >>= f) R := by
  refine ⟨fun s b s' hb e => ?_⟩
  obtain ⟨a, s1, e1, e2⟩ := ok_bind e
  obtain ⟨d, t, h1, h2, h3⟩ := h.run s a s1 hb e1
  obtain ⟨d', t', g1, g2, g3⟩ := (hf a t h3).run s1 b s' h1.budget e2
  refine ⟨d ++ d', t ++ t', h1.trans g1, fun i hi => ?_, g3⟩
  rcases List.mem_append.1 hi with hi | hi
  · exact h2 i hi
  · exact g2 i hi

theorem Takes.skip {m : W α} {f : α → W β} {P : Str → Prop} (h : Takes m Any) (hf : ∀ a, Takes (f a) (Has P)) : Takes (m >>= f) (Has P) :=
  h.bind fun a x _ => (hf a).mono fun _ ⟨u, y, v, e, hy⟩ => ⟨x ++ u, y, v, by rw [e]; simp, hy⟩

theorem Takes.hit {m : W α} {f : α → W β} {P : Str → Prop} (h : Takes m (Has P)) (hf : ∀ a, Takes (f a) Any) : Takes (m >>= f) (Has P) :=
  h.bind fun a _ ⟨u, y, v, e, hy⟩ => (hf a).mono fun z _ => ⟨u, y, v ++ z, by rw [e]; simp, hy⟩

theorem peeked_first {s s1 : RSt} {o : Option RItem} (e1 : peekFirst s = .ok o s1) (i : RItem) (hi : o = some i) : ∃ l, s1.peeked = i :: l := by
  unfold peekFirst at e1
  rw [run_bind] at e1
  simp only [W.get] at e1
  cases hp : s.peeked with
  | nil =>
    rw [hp] at e1
    simp only [peekNext] at e1
    split at e1
    · cases e1; cases hi
    · cases e1
      cases hi
      exact ⟨[], by rw [hp]; rfl⟩
  | cons j l =>
    rw [hp] at e1
    cases e1
    cases hi
    exact ⟨l, hp⟩

/-- Looking at the first item and then, after writing, taking it. -/
theorem Takes.peek {f : Option RItem → W β} {P : Str → Prop}
    (h : ∀ o s b s', s.budget = none → (∀ i, o = some i → ∃ l, s.peeked = i :: l) → f o s = .ok b s' →
      ∃ d t, Between s s' d t ∧ (∀ i ∈ d, Mute i) ∧ P t) : Takes (peekFirst >>= f) P := by
  refine ⟨fun s b s' hb e => ?_⟩
  obtain ⟨o, s1, e1, e2⟩ := ok_bind e
  obtain ⟨h1, -, h3, t, h4, h5⟩ := tells_peekFirst.run s o s1 hb e1
  subst h5
  obtain ⟨d, t, g1, g2, g3⟩ := h o s1 b s' h1 (peeked_first e1) e2
  exact ⟨d, t, ⟨g1.budget, by rw [← h3]; exact g1.items, by rw [g1.out, h4]; simp⟩, g2, g3⟩

/-- The item that was seen is taken after something has been written. -/
theorem pop {k : W PUnit} {s s' : RSt} {i : RItem} {l : List RItem} {o : Option RItem} {P : Str → Prop} (hk : Tells k P) (hb : s.budget = none)
    (hp : s.peeked = i :: l) (e : (k >>= fun _ => next) s = .ok o s') : ∃ t, Between s s' [i] t ∧ P t := by
  obtain ⟨a, s1, e1, e2⟩ := ok_bind e
  obtain ⟨h1, ⟨q, h2⟩, h3, t, h4, h5⟩ := hk.run s a s1 hb e1
  have hq : s1.peeked = i :: (l ++ q) := by rw [← h2, hp]; rfl
  unfold next at e2
  rw [hq] at e2
  cases e2
  refine ⟨t, ⟨h1, ?_, h4⟩, h5⟩
  rw [← h3, hq]
  rfl
end

theorem takes_groupChanges : ∀ n, Takes (groupChanges n) Any
  | 0 => (Tells.boom _).takes
  | n + 1 => by
    unfold groupChanges
    refine Takes.peek fun o s b s' hb hp e => ?_
    split at e
    · rename_i sc
      obtain ⟨l, hl⟩ := hp _ rfl
      rw [show (handleStateChange sc >>= fun _ => next >>= fun _ => groupChanges n) =
        ((handleStateChange sc >>= fun _ => next) >>= fun _ => groupChanges n) from (by
          funext s; simp only [run_bind]; cases handleStateChange sc s <;> rfl)] at e
      obtain ⟨o, s1, e1, e2⟩ := ok_bind e
      obtain ⟨t, h1, -⟩ := pop (tells_updState _) hb hl e1
      obtain ⟨d', t', g1, g2, -⟩ := (takes_groupChanges n).run _ _ _ h1.budget e2
      refine ⟨_, _, h1.trans g1, fun i hi => ?_, trivial⟩
      rcases List.mem_append.1 hi with hi | hi
      · rw [List.mem_singleton] at hi
        subst hi
        exact rfl
      · exact g2 i hi
    · cases e
      exact ⟨[], [], ⟨hb, rfl, by simp⟩, by simp, trivial⟩

theorem takes_envLines : Takes envLines Any := by
  unfold envLines
  refine Takes.peek fun o s b s' hb hp e => ?_
  split at e
  · rename_i ls
    obtain ⟨l, hl⟩ := hp _ rfl
    obtain ⟨o, s1, e1, e2⟩ := ok_bind (m := out (hlinesStr ls) >>= fun _ => next) (f := fun _ => pure ⟨⟩) (s := s) (s' := s') (b := b) (by
      rw [← e]; simp only [run_bind]; cases out (hlinesStr ls) s <;> rfl)
    obtain ⟨t, h1, -⟩ := pop (Tells.out _) hb hl e1
    cases e2
    refine ⟨_, _, h1, fun i hi => ?_, trivial⟩
    rw [List.mem_singleton] at hi
    subst hi
    exact rfl
  · cases e
    exact ⟨[], [], ⟨hb, rfl, by simp⟩, by simp, trivial⟩

/-! ## Functions that take nothing -/

theorem tells_tag (tag : Str) (c : Option Str) : Tells (openTag tag c) (Heads (· = c!"<" ++ tag)) := by
  unfold openTag
  refine Tells.quiet tells_state fun st => Tells.quiet Tells.get fun s => (Tells.out _).mono fun x hx => ?_
  subst hx
  unfold openTagStr
  simp only [List.append_assoc]
  exact ⟨c!"<" ++ tag, _, by simp only [List.append_assoc]; rfl, rfl⟩

theorem tells_recover : Tells recover Any := by unfold recover; tells1

theorem tells_writeDelim (c : Option Char) : Tells (writeDelim c) Any := by
  have h1 := tells_openTag
  cases c <;> unfold writeDelim <;> repeat' with_reducible first | exact h1 _ _ | tells1

theorem tells_arrayNewline (cols : List ArrayCol) : Tells (arrayNewline cols) Any := by unfold arrayNewline; repeat' tells1
theorem tells_arrayAlign (cols : List ArrayCol) (i : Nat) : Tells (arrayAlign cols i) Any := by unfold arrayAlign; repeat' tells1
theorem tells_arrayCloseLine (cols : List ArrayCol) (i : Nat) : Tells (arrayCloseLine cols i) Any := by unfold arrayCloseLine; repeat' tells1

theorem tells_closeGroup (g : EnvG) : Tells (closeGroup g) Any := by
  have h1 := tells_writeDelim
  have h2 := fun a => (tells_forcePrev a).any
  cases g <;> unfold closeGroup <;> repeat' with_reducible first | exact h1 _ | exact h2 _ | tells1

theorem tells_writeEnd : Tells writeEnd Any := by
  have h1 := tells_closeGroup
  have h2 := fun a => (tells_forcePrev a).any
  have h3 := tells_recover
  unfold writeEnd
  repeat' with_reducible first | exact h1 _ | exact h2 _ | tells1

theorem tells_alignUpTo (cols : List ArrayCol) (t : Nat) : ∀ n i, Tells (alignUpTo cols t n i) Any
  | 0, _ => Tells.boom _
  | n + 1, i => by
    have h1 := tells_alignUpTo cols t n
    have h2 := tells_arrayAlign
    unfold alignUpTo
    repeat' with_reducible first | exact h1 _ | exact h2 _ _ | tells1

theorem tells_setTop (g : EnvG) : Tells (setTop g) Any := by unfold setTop; tells1

theorem tells_newLineRest (cfg : RCfg) (sp : Option Dim) (ls : List Line) : Tells (newLineRest cfg sp ls) Any := by
  have h1 := tells_arrayNewline
  have h2 := tells_alignUpTo
  have h3 := tells_arrayCloseLine
  have h4 := tells_setTop
  have h5 := tells_recover
  unfold newLineRest
  repeat' with_reducible first | exact h1 _ | exact h2 _ _ _ _ | exact h3 _ _ | exact h4 _ | tells1

theorem tells_writeNewLine (cfg : RCfg) (sp : Option Dim) (ls : List Line) : Tells (writeNewLine cfg sp ls) Any := by
  have h1 := fun f => (tells_updState f).any
  have h2 := fun a => (tells_forcePrev a).any
  have h3 := tells_arrayCloseLine
  have h4 := tells_newLineRest
  unfold writeNewLine
  repeat' with_reducible first | exact h1 _ | exact h2 _ | exact h3 _ _ | exact h4 _ _ _ | tells1

theorem tells_writeAlignment (cfg : RCfg) : Tells (writeAlignment cfg) Any := by
  have h1 := fun f => (tells_updState f).any
  have h2 := fun a => (tells_forcePrev a).any
  have h3 := tells_arrayAlign
  have h4 := tells_setTop
  have h5 := tells_recover
  unfold writeAlignment
  repeat' with_reducible first | exact h1 _ | exact h2 _ | exact h3 _ _ | exact h4 _ | tells1

theorem tells_closeLoop : ∀ es, Tells (closeLoop es) Any
  | [] => (Tells.pure _).any
  | .group _ :: _ => (Tells.pure _).any
  | .visual v n :: es => by
    have h1 := tells_closeLoop es
    have h2 := fun a => (tells_setPrev a).any
    unfold closeLoop
    repeat' with_reducible first | exact h2 _ | tells1
  | .script ty above n fn :: es => by
    have h1 := tells_closeLoop es
    have h2 := fun a => (tells_setPrev a).any
    have h3 := tells_applyFunction
    unfold closeLoop
    repeat' with_reducible first | exact h2 _ | tells1

theorem tells_cleanup : ∀ es, Tells (cleanup es) Any
  | [] => by unfold cleanup; tells1
  | .group _ :: es => by
    have h1 := tells_cleanup es
    unfold cleanup
    repeat' tells1
  | .visual v n :: es => by
    have h1 := tells_cleanup es
    unfold cleanup
    repeat' tells1
  | .script ty above n fn :: es => by
    have h1 := tells_cleanup es
    unfold cleanup
    repeat' tells1

/-! ## Groups -/

theorem takes_tableOpen {opening : Str} (g : EnvG) (h : Has (· = c!"<mtable") opening) : Takes (tableOpen opening g) (Has (· = c!"<mtable")) := by
  unfold tableOpen
  refine Takes.hit ((Tells.out opening).takes.mono fun t e => e ▸ h) fun _ => takes_envLines.bind fun _ _ _ => ?_
  exact (Tells.any (P := Any) (by repeat' tells1)).takes

theorem takes_openGroup (g : Grouping) : Takes (openGroup g) (fun t => g.isMathEnv = true → Has (· = c!"<mtable") t) := by
  have key : ∀ {m : W EnvG}, Takes m (Has (· = c!"<mtable")) → Takes m (fun t => g.isMathEnv = true → Has (· = c!"<mtable") t) :=
    fun h => h.mono fun _ h _ => h
  have lit : ∀ (b a : Str), Has (· = c!"<mtable") (a ++ c!"<mtable" ++ b) := fun b a => ⟨a, _, b, rfl, rfl⟩
  cases g with
  | normal => exact (Tells.pure _).takes.mono fun _ _ h => by cases h
  | leftRight l r =>
    refine (Tells.any (P := Any) ?_).takes.mono fun _ _ h => by cases h
    have h1 := tells_writeDelim
    have h2 := fun a => (tells_forcePrev a).any
    unfold openGroup
    repeat' with_reducible first | exact h1 _ | exact h2 _ | tells1
  | array cols =>
    refine key ?_
    unfold openGroup
    refine Takes.hit ((Tells.out _).takes.mono fun t e => e ▸ lit c!" class=\"menv-arraylike\"><mtr" []) fun _ => takes_envLines.bind fun _ _ _ => ?_
    have h1 := tells_arrayNewline
    exact (Tells.any (P := Any) (by repeat' with_reducible first | exact h1 _ | tells1)).takes
  | equation e =>
    refine key ?_
    unfold openGroup
    refine Takes.hit ((Tells.out _).takes.mono fun t h => ?_) fun _ => (Tells.pure _).takes.any
    subst h
    exact ⟨[], _, _, by simp only [List.append_assoc, List.nil_append]; rfl, rfl⟩
  | matrix a => exact key (takes_tableOpen _ ⟨[], _, _, by simp only [List.append_assoc]; rfl, rfl⟩)
  | cases l =>
    refine key (takes_tableOpen _ ?_)
    cases l
    · exact ⟨c!"<mrow>", _, c!" class=\"menv-cells-left menv-cases\"><mtr", rfl, rfl⟩
    · exact ⟨c!"<mrow><mo stretchy=\"true\">{</mo>", _, c!" class=\"menv-cells-left menv-cases\"><mtr", rfl, rfl⟩
  | align e => exact key (takes_tableOpen _ ⟨[], _, _, by simp only [List.append_assoc]; rfl, rfl⟩)
  | aligned => exact key (takes_tableOpen _ ⟨[], _, _, rfl, rfl⟩)
  | subArray a => exact key (takes_tableOpen _ ⟨[], _, _, by simp only [List.append_assoc]; rfl, rfl⟩)
  | alignat p e => exact key (takes_tableOpen _ ⟨[], _, _, by simp only [List.append_assoc]; rfl, rfl⟩)
  | alignedat p => exact key (takes_tableOpen _ ⟨[], _, c!" class=\"menv-alignlike\"><mtr", rfl, rfl⟩)
  | gather e => exact key (takes_tableOpen _ ⟨[], _, _, by simp only [List.append_assoc]; rfl, rfl⟩)
  | gathered => exact key (takes_tableOpen _ ⟨[], _, _, rfl, rfl⟩)
  | multline => exact key (takes_tableOpen _ ⟨[], _, _, rfl, rfl⟩)
  | split => exact key (takes_tableOpen _ ⟨[], _, _, rfl, rfl⟩)

theorem takes_writeBegin (g : Grouping) : Takes (writeBegin g) (Has (Piece (.ok (.begin_ g)))) := by
  have fin : ∀ e : EnvG, Takes (modify fun s => { s with env := .group e :: s.env }) Any := fun e =>
    (Tells.modify (f := fun s => { s with env := .group e :: s.env }) fun _ => ⟨rfl, rfl, rfl, rfl⟩).takes.any
  unfold writeBegin
  refine Takes.skip (tells_forcePrev _).takes.any fun _ => ?_
  cases hg : g.isMathEnv with
  | true =>
    have e : Piece (.ok (.begin_ g)) = (· = c!"<mtable") := by
      funext x
      cases g <;> first | rfl | cases hg
    rw [e]
    simp only [if_true]
    refine Takes.skip (Tells.modify ?_).takes.any fun _ => ?_
    · exact fun _ => ⟨rfl, rfl, rfl, rfl⟩
    exact Takes.hit ((takes_openGroup g).mono fun _ h => h hg) fun e => fin e
  | false =>
    have e : Piece (.ok (.begin_ g)) = (· = c!"<mrow") := by
      funext x
      cases g <;> first | rfl | cases hg
    rw [e]
    simp only [Bool.false_eq_true, if_false]
    refine Takes.skip tells_state.takes.any fun _ => Takes.skip (Tells.modify ?_).takes.any fun _ => ?_
    · exact fun _ => ⟨rfl, rfl, rfl, rfl⟩
    refine Takes.skip Tells.get.takes.any fun s => Takes.skip (takes_groupChanges _) fun _ => Takes.hit ((tells_tag _ _).start.takes) fun _ => ?_
    exact (Tells.out _).takes.any.bind fun _ _ _ => (tells_updState _).takes.any.bind fun _ _ _ => (takes_openGroup g).any.bind fun e _ _ => fin e

/-! ## All events -/

theorem script_piece (ty : ScriptType) (p : ScriptPos) (b : Bool) : Piece (.ok (.script ty p)) (c!"<" ++ scriptTag ty b) := by
  cases ty <;> cases b <;> simp [Piece, scriptTag]

theorem tells_script (cfg : RCfg) (ty : ScriptType) (p : ScriptPos) : Tells (writeScript cfg ty p) (Has (Piece (.ok (.script ty p)))) := by
  unfold writeScript
  refine Tells.skip tells_state.any fun st => ?_
  dsimp only
  refine Tells.skip (Tells.any (Tells.modify ?_)) fun _ => ?_
  · exact fun _ => ⟨rfl, rfl, rfl, rfl⟩
  exact (tells_tag _ _).bind fun _ x ⟨y, v, e, hy⟩ => (Tells.out _).mono fun z _ => ⟨[], y, v ++ z, by rw [e]; simp, hy ▸ script_piece ty p _⟩

theorem tells_space (cfg : RCfg) (w h d : Option Dim) : Tells (writeSpace cfg w h d) (Has (Piece (.ok (.space w h d)))) := by
  unfold writeSpace
  cases w with
  | none =>
    refine Tells.mono (P := Any) ?_ fun t _ => ⟨[], [], t, rfl, rfl⟩
    repeat' tells1
  | some w =>
    refine (Tells.out _).bind fun _ x hx => Tells.mono (P := Any) ?_ fun t _ => ⟨[], c!"<mspace", c!" width=\"" ++ dimStr cfg w ++ c!"\"" ++ t, by
      subst hx; simp, rfl⟩
    repeat' tells1

theorem tells_visual (cfg : RCfg) (v : Visual) (hv : v ≠ .negation) : Tells (writeVisual cfg v) (Has (Piece (.ok (.visual v)))) := by
  unfold writeVisual
  rw [if_neg hv]
  refine Tells.skip (Tells.any (Tells.modify ?_)) fun _ => ?_
  · exact fun _ => ⟨rfl, rfl, rfl, rfl⟩
  refine ((tells_tag _ _).bind fun _ x ⟨y, u, e, hy⟩ => Tells.mono (P := Any) ?_ fun z _ => ⟨[], y, u ++ z, by rw [e]; simp, ?_⟩)
  · repeat' tells1
  · subst hy
    cases v <;> first | rfl | exact absurd rfl hv

/-- The item given and the items taken have their pieces in what is written. -/
theorem keeps_event (cfg : RCfg) (i : RItem) (s : RSt) (a : PUnit) (s' : RSt) (hb : s.budget = none) (e : writeEvent cfg i s = .ok a s') :
    ∃ d t, Between s s' d t ∧ InOrder (i :: d) t := by
  have key : Takes (writeEvent cfg i) (Has (Piece i)) → ∃ d t, Between s s' d t ∧ InOrder (i :: d) t := fun h => by
    obtain ⟨d, t, h1, h2, h3⟩ := h.run s a s' hb e
    exact ⟨d, t, h1, inOrder_has h2 h3⟩
  have mute : Mute i → Tells (writeEvent cfg i) Any → ∃ d t, Between s s' d t ∧ InOrder (i :: d) t := fun hm h =>
    key (h.takes.mono fun t _ => ⟨[], [], t, rfl, hm⟩)
  match i with
  | .ok (.content c) => exact key (tells_writeContent cfg false c).takes
  | .ok (.begin_ g) => exact key (takes_writeBegin g)
  | .ok .end_ => exact mute rfl tells_writeEnd
  | .ok (.script ty p) => exact key (tells_script cfg ty p).takes
  | .ok (.space w h d) => exact key (tells_space cfg w h d).takes
  | .ok (.stateChange sc) => exact mute rfl (tells_updState _).any
  | .ok (.flow (.newLine sp ls)) => exact mute rfl (tells_writeNewLine cfg sp ls)
  | .ok (.flow .alignment) => exact mute rfl (tells_writeAlignment cfg)
  | .ok (.flow (.startLines ls)) => exact mute rfl tells_recover
  | .err m =>
    refine key (Tells.takes ?_)
    unfold writeEvent
    refine Tells.skip tells_recover fun _ => Tells.start (Tells.put fun _ => Tells.put fun _ => Tells.last ?_)
    exact ⟨c!"#" ++ hexStr cfg.errorColor.1 ++ hexStr cfg.errorColor.2.1 ++ hexStr cfg.errorColor.2.2, by simp⟩
  | .ok (.visual v) =>
    by_cases hv : v = .negation
    · subst hv
      have other : ∀ b s1, s1.budget = none → (do
          openTag c!"mrow" (some c!"mop-negated")
          out c!">"
          modify fun s => { s with env := .visual .negation (Visual.arity .negation) :: s.env } : W PUnit) s1 = .ok b s' →
          ∃ d t, Between s1 s' d t ∧ InOrder (.ok (.visual .negation) :: d) t := by
        intro b s1 hb e
        have h : Tells (do
          openTag c!"mrow" (some c!"mop-negated")
          out c!">"
          modify fun s => { s with env := .visual .negation (Visual.arity .negation) :: s.env } : W PUnit) Any := by
          have := tells_openTag
          repeat' with_reducible first | exact this _ _ | tells1
        obtain ⟨d, t, h1, h2, -⟩ := h.takes.run s1 b s' hb e
        exact ⟨d, t, h1, inOrder_has h2 ⟨[], [], t, rfl, rfl⟩⟩
      change writeVisual cfg .negation s = _ at e
      unfold writeVisual at e
      rw [if_pos rfl] at e
      obtain ⟨o, s1, e1, e2⟩ := ok_bind e
      obtain ⟨h1, -, h3, u, h4, h5⟩ := tells_peekFirst.run s o s1 hb e1
      subst h5
      have hp := peeked_first e1
      have back : ∀ {d t}, Between s1 s' d t → Between s s' d t := fun g => ⟨g.budget, by rw [← h3]; exact g.items, by rw [g.out, h4]; simp⟩
      suffices h : ∃ d t, Between s1 s' d t ∧ InOrder (.ok (.visual .negation) :: d) t by
        obtain ⟨d, t, g1, g2⟩ := h
        exact ⟨d, t, back g1, g2⟩
      split at e2
      · rename_i c
        split at e2
        · obtain ⟨l, hl⟩ := hp _ rfl
          obtain ⟨x, s2, e3, e4⟩ := ok_bind (m := writeContent cfg true c >>= fun _ => next) (f := fun _ => pure ⟨⟩) (s := s1) (s' := s') (b := a) (by
            rw [← e2]; simp only [run_bind]; cases writeContent cfg true c s1 <;> rfl)
          obtain ⟨t, g1, g2⟩ := pop (tells_writeContent cfg true c) h1 hl e3
          cases e4
          have := InOrder.cons (i := .ok (.visual .negation)) (x := []) [] rfl (inOrder_has (i := .ok (.content c)) (d := []) (by simp) g2)
          exact ⟨_, t, g1, by simpa using this⟩
        · exact other _ _ h1 e2
      · exact other _ _ h1 e2
    · exact key (tells_visual cfg v hv).takes

end PL.Mathml
