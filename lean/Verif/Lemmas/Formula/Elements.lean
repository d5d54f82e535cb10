import Verif.Lemmas.Formula.Fractions
import Verif.Props.Lines
set_option autoImplicit false
/-! # The rules for sequences, scripts and tables -/
namespace PL.Formula
open PL PL.Lex PL.H Spec PL.Props

variable {cf : Cfg} {D : Macros.Ctx}

/-! ### One element -/

/-- The state of the handlers after a token, at the start of an element. -/
def start (D : Macros.Ctx) (c : Sl) (A : Option AlignCount) (t : Str) : HSt := ⟨{ c with cs := t }, [], false, .right, false, false, A, D⟩

/-- Some events come out of the text on top of the stack, of which `r` is left. -/
def Goes (cf : Cfg) (D : Macros.Ctx) (c : Sl) (A A' : Option AlignCount) (B : List Instr) (sp : Spans) (es : List Event) (r : Str) : Prop :=
  Outcome cf D ⟨.sub c A :: B, [], D, sp⟩ es fun s' => ∃ (c' : Sl) (sp' : Spans), trimStart c'.cs = trimStart r ∧ s' = ⟨.sub c' A' :: B, [], D, sp'⟩

/-- The token is not a macro. -/
def Unbound (D : Macros.Ctx) (x : Word) : Prop := ∀ name, x = .cs name → D.get name = none

theorem token_eq {s s' : Str} (h : trimStart s = trimStart s') : token s = token s' := by
  rw [← token_trim, h, token_trim]

/-- An element is read, handled and unstaged. -/
theorem exec_element {c : Sl} {A A' : Option AlignCount} {B : List Instr} {sp : Spans} {s t r : Str} {x : Word} {es : List Event}
    (hc : trimStart c.cs = trimStart s) (hx : NextTok s x t) (hf : Unbound D x)
    (ha : ∀ ht : HTok, ht.is x t → ∃ desc h' is, atom cf ht (start D c A t) = .ok desc h' ∧ h'.macros = D ∧ h'.align = A' ∧
      (∀ S, unstage h'.buf S desc = .ok (is ++ S)) ∧ Unfolds cf D is es ∧ trimStart h'.content.cs = trimStart r) :
    Goes cf D c A A' B sp es r := by
  obtain ⟨tk, ht, hsay⟩ := nextTok_iff.1 hx
  have ht' : token c.cs = .ok tk t := by rw [token_eq hc]; exact ht
  have hne : trimStart c.cs ≠ [] := by
    intro h0
    rw [← token_trim, h0] at ht'
    cases ht'
  obtain ⟨desc, h', is, hat, hm, hA, hu, hi, hr⟩ := ha _ (ofTok_is (sl := c) ht hsay)
  have h1 : Exec cf ⟨.sub c A :: B, [], D, sp⟩ [] ⟨is ++ .sub h'.content A' :: B, [], D, sp⟩ := by
    refine Exec.init.again ?_
    unfold step
    simp only
    rw [if_neg (by simpa using hne)]
    have : parse cf (startSt ⟨.sub c A :: B, [], D, sp⟩ c A) = .ok desc ⟨h', sp⟩ := by
      unfold parse
      rw [parseLoop]
      unfold startSt
      simp only [ht']
      unfold start at hat
      cases tk with
      | chr d ctx =>
        simp only [liftH, hat]
      | cs name =>
        have hn : Macros.tryExpand cf D name t = none := by
          unfold Macros.tryExpand
          rw [hf name (by cases x with
            | cs m => cases hsay; rfl
            | chr => cases hsay)]
          rfl
        simp only [hn, liftH, hat]
    rw [this]
    dsimp only
    rw [hu, hm, hA]
  refine .after h1.walk ((hi _ _).mono ?_)
  rintro _ ⟨sp', rfl⟩
  exact ⟨_, _, hr, rfl⟩

/-- The modifiers after an element. -/
theorem limits_of {h : HSt} {vs : List Bool} {r : Str} (hl : Limits h.allowMods h.content.cs vs r) :
    limits h = .ok ⟨⟩ { past h r with pos := placed vs h.pos } := by
  cases hm : h.allowMods with
  | false =>
    rw [hm] at hl
    cases hl
    unfold limits
    rw [M.get_bind, if_neg (by simp [hm])]
    rfl
  | true =>
    rw [hm] at hl
    cases hl with
    | yes hw => exact C43_limits h vs r hw hm

theorem limits_length {m : Bool} {s r : Str} {vs : List Bool} (h : Limits m s vs r) : r.length ≤ s.length := by
  cases h with
  | no => exact Nat.le_refl _
  | yes h => exact wordSeq_length h

theorem scripts_no {rec : HTok → H PUnit} {h : HSt} {vs : List Bool} {r : Str} (h1 : h.skip = false) (hl : Limits h.allowMods h.content.cs vs r)
    (hn : Spec.NoScript r) : scripts rec h = .ok none { past h (trimStart r) with pos := placed vs h.pos } := by
  unfold scripts
  rw [M.get_bind, if_neg (by simp [h1]), M.bind_ok (limits_of hl), M.modify_bind, M.get_bind]
  have hn := noScript_iff.1 hn
  unfold NoScriptAfter at hn
  simp only [past]
  cases hc : trimStart r with
  | nil => rfl
  | cons c u =>
    rw [hc] at hn
    dsimp only
    rw [if_neg (by simpa using hn)]
    rfl

/-- The token of an element and what follows it. -/
theorem atom_of {c : Sl} {A : Option AlignCount} {t : Str} {ht : HTok} {h1 : HSt} {d : Option Desc} {h' : HSt}
    (e : handleToken cf (t.length + 3) ht (start D c A t) = .ok ⟨⟩ h1) (e' : scripts (handleToken cf (h1.content.cs.length + 3)) h1 = .ok d h') :
    atom cf ht (start D c A t) = .ok d h' := by
  unfold atom
  rw [M.get_bind]
  have : tokenFuel (start D c A t).content = t.length + 3 := rfl
  rw [this, M.bind_ok e, M.get_bind]
  exact e'

/-- An element before others. -/
theorem elements_cons {s r' u : Str} {es : List Event} {ns ms : Nodes}
    (h1 : ∀ c A B sp, trimStart c.cs = trimStart s → Goes cf D c A A B sp es r')
    (h2 : Sound cf D (.elements r' ms u)) (he : ns.events = es ++ ms.events) : Sound cf D (.elements s ns u) := by
  intro c A B sp hc
  rw [he]
  refine (h1 c A B sp hc).bind ?_
  rintro _ ⟨c', sp', hc', rfl⟩
  exact h2 c' A B sp' hc'

/-- A call is expanded. -/
theorem sound_call {s name t body r u : Str} {ns : Nodes} {k : Nat} (hx : NextTok s (.cs name) t)
    (ht : Macros.tryExpand cf D name t = some (.ok (body ++ r) k)) (he : Sound cf D (.elements (body ++ r) ns u)) : Sound cf D (.elements s ns u) := by
  intro c A B sp hc
  obtain ⟨tk, hk, hsay⟩ := nextTok_iff.1 hx
  have hk' : token c.cs = .ok tk t := by rw [token_eq hc]; exact hk
  cases tk with
  | chr => cases hsay
  | cs m =>
    cases hsay
    cases hp : expansion cf (startSt ⟨.sub c A :: B, [], D, sp⟩ c A) with
    | none =>
      refine .inr ⟨?_, [], _, List.nil_prefix, .init, .mk hk' ht hp⟩
      rintro rfl
      cases ht
    | some p =>
      refine .after (Walk.init.expand hp) (he p.h.content A B p.sp ?_)
      unfold expansion startSt at hp
      simp only [hk', ht] at hp
      split at hp
      · cases hp
      · cases ha : Spans.add cf ⟨sp.input, sp.exps, sp.total + blen (body ++ r), sp.nalloc + 1, sp.allocBytes + blen (body ++ r)⟩ (sp.nalloc + 1) (body ++ r)
            { c with cs := trimStart c.cs } (blen name + k + 1) with
        | none => simp only [ha] at hp; cases hp
        | some sp' => simp only [ha] at hp; cases hp; rfl

theorem sound_plain {s t r r' u : Str} {x : Word} {ns ms : Nodes} {pl : Place} {vs : List Bool} (hx : NextTok s x t) (hf : Unbound D x)
    (hm : Sound cf D (.means false x t ns r pl)) (hk : pl.skip = false) (hl : Limits pl.mods r vs r') (hn : Spec.NoScript r') (he : Sound cf D (.elements r' ms u)) :
    Sound cf D (.elements s (ns.append ms) u) := by
  refine elements_cons (fun c A B sp hc => exec_element hc hx hf fun ht hx' => ?_) he (nodes_append_events _ _)
  obtain ⟨h1, e1, A1⟩ := hm.2 (t.length + 3) (start D c A t) ht (by omega) hx' rfl rfl
  obtain ⟨is, hi, ui⟩ := A1.buf
  have hmods : h1.allowMods = pl.mods := by rw [A1.mods]; rfl
  have hskip : h1.skip = false := by rw [A1.skip, hk]; rfl
  have e2 := scripts_no (rec := handleToken cf (h1.content.cs.length + 3)) hskip (by rw [hmods, A1.cs]; exact hl) hn
  refine ⟨none, _, is, atom_of e1 e2, A1.macros, A1.align, fun S => ?_, ui, ?_⟩
  · show Except.ok (h1.buf ++ S) = _
    rw [hi]
    rfl
  · exact trimStart_idem _

/-- The state at a script. -/
theorem atScript_of {h : HSt} {vs : List Bool} {w v : Str} {c : Char} (h1 : h.skip = false) (hl : Limits h.allowMods h.content.cs vs (w ++ c :: v))
    (hw : Spaces w) (hc : c = '^' ∨ c = '_') : AtScript h { past h (c :: v) with pos := placed vs h.pos } c v := by
  refine ⟨h1, ⟨_, limits_of hl, ?_⟩, rfl, hc⟩
  have : trimStart (w ++ c :: v) = c :: v := by
    rw [trimStart_ws_append hw, trimStart_eq_self (by rintro d r e; cases e; rcases hc with rfl | rfl <;> decide)]
  simp only [past, this]

theorem sound_script {s t r w v v' u : Str} {x : Word} {n m : Nodes} {ms : Nodes} {pl pl' : Place} {vs : List Bool} {c : Char} (hx : NextTok s x t) (hf : Unbound D x)
    (hm : Sound cf D (.means false x t n r pl)) (hk : pl.skip = false) (hl : Limits pl.mods r vs (w ++ c :: v)) (hw : Spaces w) (hc : c = '^' ∨ c = '_')
    (ho : Sound cf D (.operand v m v' pl')) (hn : NoScriptHere v') (he : Sound cf D (.elements v' ms u)) :
    Sound cf D (.elements s (.cons (.script (if c = '^' then .sup else .sub) (pl'.pos.getD (placed vs (pl.pos.getD .right))) (n.append m)) ms) u) := by
  refine elements_cons (fun cc A B sp hcc => exec_element hcc hx hf fun ht hx' => ?_) he rfl
  obtain ⟨h1, e1, A1⟩ := hm.2 (t.length + 3) (start D cc A t) ht (by omega) hx' rfl rfl
  obtain ⟨is, hi, ui⟩ := A1.buf
  have hmods : h1.allowMods = pl.mods := by rw [A1.mods]; rfl
  have hskip : h1.skip = false := by rw [A1.skip, hk]; rfl
  have hat := atScript_of (h := h1) hskip (by rw [hmods, A1.cs]; exact hl) hw hc
  have hlen := limits_length hl
  simp at hlen
  obtain ⟨h2, e2, A2⟩ := Operand.runs (h := past { past h1 (c :: v) with pos := placed vs h1.pos } v)
    (ho.2 (h1.content.cs.length + 3) (by rw [A1.cs]; omega)) rfl
  obtain ⟨js, hj, uj⟩ := A2.buf
  have e3 := scripts_one hat e2 (by rw [A2.cs]; exact noScriptHere_iff.1 hn)
  have hi' : h1.buf = is := hi
  have hj' : h2.buf = is ++ js := by rw [hj, ← hi']; rfl
  have hpos : h2.pos = pl'.pos.getD (placed vs (pl.pos.getD .right)) := by
    rw [A2.pos]
    show pl'.pos.getD (placed vs h1.pos) = _
    rw [A1.pos]
    rfl
  refine ⟨_, _, .ev (.script (if c = '^' then .sup else .sub) (pl'.pos.getD (placed vs (pl.pos.getD .right)))) :: (is ++ js), atom_of e1 e3,
    A2.macros.trans A1.macros, A2.align.trans A1.align, fun S => ?_, ?_, by rw [A2.cs]⟩
  · rw [hpos, hj']
    have hb : (past { past h1 (c :: v) with pos := placed vs h1.pos } v).buf = is := hi'
    show unstage (is ++ js) S (some (descriptor c _ h1.buf.length (is ++ js).length (is ++ js).length)) = _
    rw [hi']
    unfold descriptor
    rcases hc with rfl | rfl
    · have := (C05_reorder is [] js S .sup (pl'.pos.getD (placed vs (pl.pos.getD .right)))).2
      simpa using this
    · have := (C05_reorder is js [] S .sub (pl'.pos.getD (placed vs (pl.pos.getD .right)))).1
      simpa using this
  · have := Unfolds.cons (.script (if c = '^' then .sup else .sub) (pl'.pos.getD (placed vs (pl.pos.getD .right)))) (ui.append uj)
    simpa [Node.events, nodes_append_events] using this

/-- Both scripts, in the order in which they are written. -/
theorem sound_both {s t r w v v' v'' u : Str} {x : Word} {n m k : Nodes} {ms : Nodes} {pl pl' pl'' : Place} {vs : List Bool} {c : Char} {es : List Event}
    (hx : NextTok s x t) (hf : Unbound D x) (hm : Sound cf D (.means false x t n r pl)) (hk : pl.skip = false) (hl : Limits pl.mods r vs (w ++ c :: v)) (hw : Spaces w)
    (hc : c = '^' ∨ c = '_') (ho : Sound cf D (.operand v m (other c :: v') pl')) (ho' : Sound cf D (.operand v' k v'' pl'')) (hn : NoScriptHere v'')
    (he : Sound cf D (.elements v'' ms u)) (hes : es = if c = '_' then m.events ++ k.events else k.events ++ m.events) {ns : Nodes}
    (hns : ns.events = (.script .subSup ((pl'.over pl'').pos.getD (placed vs (pl.pos.getD .right))) :: (n.events ++ es)) ++ ms.events) :
    Sound cf D (.elements s ns u) := by
  refine elements_cons (fun cc A B sp hcc => exec_element hcc hx hf fun ht hx' => ?_) he hns
  obtain ⟨h1, e1, A1⟩ := hm.2 (t.length + 3) (start D cc A t) ht (by omega) hx' rfl rfl
  obtain ⟨is, hi, ui⟩ := A1.buf
  have hmods : h1.allowMods = pl.mods := by rw [A1.mods]; rfl
  have hskip : h1.skip = false := by rw [A1.skip, hk]; rfl
  have hat := atScript_of (h := h1) hskip (by rw [hmods, A1.cs]; exact hl) hw hc
  have hlen := limits_length hl
  have hlen' := ho.1.1
  simp at hlen hlen'
  obtain ⟨h2, e2, A2⟩ := Operand.runs (h := past { past h1 (c :: v) with pos := placed vs h1.pos } v)
    (ho.2 (h1.content.cs.length + 3) (by rw [A1.cs]; omega)) rfl
  obtain ⟨js, hj, uj⟩ := A2.buf
  obtain ⟨h3, e3, A3⟩ := Operand.runs (h := past h2 v') (ho'.2 (h1.content.cs.length + 3) (by rw [A1.cs]; omega)) rfl
  obtain ⟨ks, hks, uk⟩ := A3.buf
  have e4 := scripts_two hat e2 A2.cs e3 (by rw [A3.cs]; exact noScriptHere_iff.1 hn)
  have hi' : h1.buf = is := hi
  have hj' : h2.buf = is ++ js := by rw [hj, ← hi']; rfl
  have hk' : h3.buf = is ++ js ++ ks := by rw [hks, ← hj']; rfl
  have hpos : h3.pos = (pl'.over pl'').pos.getD (placed vs (pl.pos.getD .right)) := by
    rw [A3.pos]
    show pl''.pos.getD h2.pos = _
    rw [A2.pos]
    show pl''.pos.getD (pl'.pos.getD (placed vs h1.pos)) = _
    rw [A1.pos]
    unfold Place.over
    cases pl''.pos <;> rfl
  have hne : ks ≠ [] := uk.ne ho'.1.2
  refine ⟨_, _, .ev (.script .subSup ((pl'.over pl'').pos.getD (placed vs (pl.pos.getD .right)))) ::
    (is ++ (if c = '_' then js ++ ks else ks ++ js)), atom_of e1 e4,
    (A3.macros.trans A2.macros).trans A1.macros, (A3.align.trans A2.align).trans A1.align, fun S => ?_, ?_, by rw [A3.cs]⟩
  · rw [hpos, hj', hk']
    generalize (pl'.over pl'').pos.getD (placed vs (pl.pos.getD .right)) = p
    show unstage (is ++ js ++ ks) S (some (descriptor c _ h1.buf.length (is ++ js).length (is ++ js ++ ks).length)) = _
    rw [hi']
    have hlen : ¬ (is ++ js).length = (is ++ js ++ ks).length := by
      have := List.length_pos_iff.2 hne
      simp only [List.length_append]
      omega
    unfold descriptor
    rw [if_neg hlen]
    rcases hc with rfl | rfl
    · have := (C05_reorder is ks js S .subSup p).2
      simpa [hne] using this
    · have := (C05_reorder is js ks S .subSup p).1
      simpa [hne] using this
  · rw [hes]
    rcases hc with rfl | rfl
    · exact .cons _ (ui.append (uk.append uj))
    · exact .cons _ (ui.append (uj.append uk))

theorem sound_subSup {s t r w v v' v'' u : Str} {x : Word} {n m k : Nodes} {ms : Nodes} {pl pl' pl'' : Place} {vs : List Bool}
    (hx : NextTok s x t) (hf : Unbound D x) (hm : Sound cf D (.means false x t n r pl)) (hk : pl.skip = false) (hl : Limits pl.mods r vs (w ++ '_' :: v)) (hw : Spaces w)
    (ho : Sound cf D (.operand v m ('^' :: v') pl')) (ho' : Sound cf D (.operand v' k v'' pl'')) (hn : NoScriptHere v'') (he : Sound cf D (.elements v'' ms u)) :
    Sound cf D (.elements s (.cons (.script .subSup ((pl'.over pl'').pos.getD (placed vs (pl.pos.getD .right))) (n.append (m.append k))) ms) u) :=
  sound_both hx hf hm hk hl hw (.inr rfl) ho ho' hn he rfl (by simp [Nodes.events, Node.events, nodes_append_events])

theorem sound_supSub {s t r w v v' v'' u : Str} {x : Word} {n m k : Nodes} {ms : Nodes} {pl pl' pl'' : Place} {vs : List Bool}
    (hx : NextTok s x t) (hf : Unbound D x) (hm : Sound cf D (.means false x t n r pl)) (hk : pl.skip = false) (hl : Limits pl.mods r vs (w ++ '^' :: v)) (hw : Spaces w)
    (ho : Sound cf D (.operand v k ('_' :: v') pl')) (ho' : Sound cf D (.operand v' m v'' pl'')) (hn : NoScriptHere v'') (he : Sound cf D (.elements v'' ms u)) :
    Sound cf D (.elements s (.cons (.script .subSup ((pl'.over pl'').pos.getD (placed vs (pl.pos.getD .right))) (n.append (m.append k))) ms) u) :=
  sound_both hx hf hm hk hl hw (.inl rfl) ho ho' hn he rfl (by simp [Nodes.events, Node.events, nodes_append_events])

/-! ### Changes of state -/

theorem scripts_skip {rec : HTok → H PUnit} {h : HSt} (hs : h.skip = true) : scripts rec h = .ok none h := by
  unfold scripts
  rw [M.get_bind, if_pos hs]
  rfl

theorem sound_skipping {s t r u : Str} {x : Word} {ns ms : Nodes} {pl : Place} (hx : NextTok s x t) (hf : Unbound D x)
    (hm : Sound cf D (.means false x t ns r pl)) (hk : pl.skip = true) (he : Sound cf D (.elements r ms u)) :
    Sound cf D (.elements s (ns.append ms) u) := by
  refine elements_cons (fun c A B sp hc => exec_element hc hx hf fun ht hx' => ?_) he (nodes_append_events _ _)
  obtain ⟨h1, e1, A1⟩ := hm.2 (t.length + 3) (start D c A t) ht (by omega) hx' rfl rfl
  obtain ⟨is, hi, ui⟩ := A1.buf
  have hskip : h1.skip = true := by rw [A1.skip, hk]; simp
  refine ⟨none, h1, is, atom_of e1 (scripts_skip hskip), A1.macros, A1.align, fun S => ?_, ui, by rw [A1.cs]⟩
  show Except.ok (h1.buf ++ S) = _
  rw [hi]
  rfl

theorem sound_nil {s : Str} : Sound cf D (.elements s .nil s) := fun c _ _ sp hc => .exec .init ⟨c, sp, hc, rfl⟩

theorem blankEnd_trim {s s' : Str} (h : BlankEnd s) (e : trimStart s' = trimStart s) : BlankEnd s' := by
  obtain ⟨w, hw, e'⟩ := trimStart_spec s'
  rw [e', e]
  have h0 : ∀ {s : Str}, Blank s → ∀ {u : Str}, (∀ d v, u = d :: v → d = '%') → ∃ s0, Blank s0 ∧ trimStart (s ++ u) = s0 ++ u := by
    intro s hs
    induction hs with
    | nil =>
      intro u hu
      refine ⟨[], .nil, trimStart_eq_self fun d v h => ?_⟩
      rw [hu d v h]; decide
    | @ws c s hc _ ih =>
      intro u hu
      obtain ⟨s0, h1, h2⟩ := ih hu
      exact ⟨s0, h1, by rw [← h2]; exact trimStart_ws_append (w := [c]) (by simpa [AllWs] using hc) _⟩
    | @comment line s hl hs _ =>
      intro u _
      exact ⟨_, .comment hl hs, trimStart_eq_self fun d v h => by cases h; decide⟩
  have h1 : BlankEnd (trimStart s) := by
    cases h with
    | blank h =>
      obtain ⟨s0, h1, h2⟩ := h0 h (u := []) (fun d v h => by cases h)
      rw [List.append_nil, List.append_nil] at h2
      rw [h2]; exact .blank h1
    | @comment s line h hl =>
      obtain ⟨s0, h1, h2⟩ := h0 h (u := '%' :: line) (fun d v h => by cases h; rfl)
      rw [h2]; exact .comment h1 hl
  have hw' : ∀ {w : Str}, AllWs w → ∀ {u : Str}, Blank u → Blank (w ++ u) := by
    intro w hw u hu
    induction w with
    | nil => exact hu
    | cons c w ih => exact .ws (hw c List.mem_cons_self) (ih fun d hd => hw d (List.mem_cons_of_mem _ hd))
  generalize trimStart s = s1 at h1
  cases h1 with
  | blank h => exact .blank (hw' hw h)
  | comment h hl => rw [← List.append_assoc]; exact .comment (hw' hw h) hl

theorem outcome_blank {c : Sl} {A : Option AlignCount} {B : List Instr} {sp : Spans} (hb : BlankEnd c.cs) :
    Outcome cf D ⟨.sub c A :: B, [], D, sp⟩ [] fun s' => ∃ sp', s' = ⟨B, [], D, sp'⟩ :=
  .exec (exec_blank (cf := cf) (s := ⟨[], [], D, sp⟩) hb) ⟨sp, rfl⟩

theorem sound_whole {s r : Str} {ns : Nodes} (he : Sound cf D (.elements s ns r)) (hb : BlankEnd r) : Sound cf D (.formula s ns) := by
  intro c A hc B sp
  rw [← List.append_nil ns.events]
  refine (he c A B sp hc).bind ?_
  rintro _ ⟨c', sp', hc', rfl⟩
  exact outcome_blank (blankEnd_trim hb hc')

/-! ### Tables -/

theorem sound_lastCell {m : Nat} {s r : Str} {ns : Nodes} (h : Sound cf D (.elements s ns r)) : Sound cf D (.cells m s (.last ns) r) := by
  intro c k B sp hc
  refine (h c (some ⟨k, k + m⟩) B sp hc).mono ?_
  rintro _ ⟨c', sp', hc', rfl⟩
  exact ⟨c', k, sp', hc', rfl⟩

theorem exec_amp {c : Sl} {k m : Nat} {B : List Instr} {sp : Spans} {t u : Str} (hc : trimStart c.cs = trimStart t) (hx : NextTok t (.chr '&') u)
    (hn : Spec.NoScript u) : Goes cf D c (some ⟨k, k + (m + 1)⟩) (some ⟨k + 1, k + 1 + m⟩) B sp [.flow .alignment] u := by
  refine exec_element (es := [.flow .alignment]) hc hx (fun name h => by cases h) fun ht hx' => ?_
  cases ht with
  | cs => cases hx'
  | chr d ctx =>
    obtain ⟨rfl, -⟩ := hx'
    have e : handleToken cf (u.length + 3) (.chr '&' ctx) (start D c (some ⟨k, k + (m + 1)⟩) u) =
        .ok ⟨⟩ { start D c (some ⟨k + 1, k + (m + 1)⟩) u with buf := [.ev (.flow .alignment)] } := by
      show handleChar '&' ctx _ = _
      unfold handleChar
      rw [M.get_bind]
      simp [start]
      rfl
    refine ⟨none, _, [.ev (.flow .alignment)], atom_of e (scripts_no (vs := []) (r := u) rfl .no hn), rfl, ?_, fun S => rfl, .ev _, trimStart_idem _⟩
    show some (AlignCount.mk (k + 1) (k + (m + 1))) = some ⟨k + 1, k + 1 + m⟩
    rw [Nat.add_assoc k 1 m, Nat.add_comm 1 m]

theorem sound_cell {m : Nat} {s t u r : Str} {ns : Nodes} {cs : Cells} (h : Sound cf D (.elements s ns t)) (hx : NextTok t (.chr '&') u)
    (hn : Spec.NoScript u) (h' : Sound cf D (.cells m u cs r)) : Sound cf D (.cells (m + 1) s (.cell ns cs) r) := by
  intro c k B sp hc
  have e4 : k + (m + 1) = k + 1 + m := by omega
  rw [show (Cells.cell ns cs).events = ns.events ++ ([.flow .alignment] ++ cs.events) by simp [Cells.events]]
  refine (h c (some ⟨k, k + (m + 1)⟩) B sp hc).bind ?_
  rintro _ ⟨c1, sp1, hc1, rfl⟩
  refine (exec_amp (cf := cf) (D := D) (k := k) (m := m) (B := B) (sp := sp1) hc1 hx hn).bind ?_
  rintro _ ⟨c2, sp2, hc2, rfl⟩
  refine (h' c2 (k + 1) B sp2 hc2).mono ?_
  rintro _ ⟨c3, k3, sp3, hc3, rfl⟩
  exact ⟨c3, k3, sp3, hc3, by rw [e4]⟩

theorem sound_lastLine {m : Nat} {s r : Str} {cs : Cells} (h : Sound cf D (.cells m s cs r)) (hb : BlankEnd r) : Sound cf D (.rows m s (.last cs)) := by
  intro c hc B sp
  have h0 := h c 0 B sp hc
  rw [Nat.zero_add] at h0
  rw [show (Rows.last cs).events = cs.events ++ [] by simp [Rows.events]]
  refine h0.bind ?_
  rintro _ ⟨c', k', sp', hc', rfl⟩
  exact outcome_blank (blankEnd_trim hb hc')

theorem exec_line {c : Sl} {k m : Nat} {B : List Instr} {sp : Spans} {t u w : Str} {name : Str} {ls : List Line} {d : Option Dim}
    (hc : trimStart c.cs = trimStart t) (hx : NextTok t (.cs name) u) (hf : Unbound D (.cs name))
    (hp : ∀ k' h, h.content.cs = u → h.harg = false → h.align = some ⟨k, m⟩ → execPrim cf (handleToken cf k') (primOf name) h =
      .ok ⟨⟩ { past h w with buf := h.buf ++ [.ev (.flow (.newLine d ls))], align := some ⟨0, m⟩ })
    (hn : Spec.NoScript w) : Goes cf D c (some ⟨k, m⟩) (some ⟨0, m⟩) B sp [.flow (.newLine d ls)] w := by
  refine exec_element (es := [.flow (.newLine d ls)]) hc hx hf fun ht hx' => ?_
  cases ht with
  | chr => cases hx'
  | cs m' =>
    obtain rfl : m' = name := hx'
    exact ⟨none, _, [.ev (.flow (.newLine d ls))], atom_of (hp (u.length + 2) (start D c (some ⟨k, m⟩) u) rfl rfl rfl)
      (scripts_no (vs := []) (r := w) rfl .no hn), rfl, rfl, fun S => rfl, .ev _, trimStart_idem _⟩

theorem rows_line {m : Nat} {s t u w : Str} {cs : Cells} {name : Str} {ls : List Line} {d : Option Dim} {rs : Rows} (h : Sound cf D (.cells m s cs t))
    (hx : NextTok t (.cs name) u) (hf : Unbound D (.cs name))
    (hp : ∀ k k' h, h.content.cs = u → h.harg = false → h.align = some ⟨k, m⟩ → execPrim cf (handleToken cf k') (primOf name) h =
      .ok ⟨⟩ { past h w with buf := h.buf ++ [.ev (.flow (.newLine d ls))], align := some ⟨0, m⟩ })
    (hn : Spec.NoScript w) (h' : Sound cf D (.rows m w rs)) : Sound cf D (.rows m s (.line cs d ls rs)) := by
  intro c hc B sp
  have h0 := h c 0 B sp hc
  rw [Nat.zero_add] at h0
  rw [show (Rows.line cs d ls rs).events = cs.events ++ ([.flow (.newLine d ls)] ++ rs.events) by simp [Rows.events]]
  refine h0.bind ?_
  rintro _ ⟨c1, k1, sp1, hc1, rfl⟩
  refine (exec_line (cf := cf) (D := D) (k := k1) (m := m) (B := B) (sp := sp1) hc1 hx hf (hp k1) hn).bind ?_
  rintro _ ⟨c2, sp2, hc2, rfl⟩
  exact h' c2 hc2 B sp2

theorem sound_spacedLine {m : Nat} {s t u g e v w : Str} {cs : Cells} {name : Str} {ls : List Line} {d : Dim} {rs : Rows} (h : Sound cf D (.cells m s cs t))
    (hx : NextTok t (.cs name) u) (hf : Unbound D (.cs name)) (hp : primOf name = .newline) (hb : Bracketed u g v) (hl : Length g d e) (hw : WordSeq lineWords v ls w)
    (hn : Spec.NoScript w) (h' : Sound cf D (.rows m w rs)) : Sound cf D (.rows m s (.line cs (some d) ls rs)) := by
  refine rows_line h hx hf (fun k k' hh hs ha hal => ?_) hn h'
  rw [hp]
  exact C44_newline_spacing cf _ hh ⟨k, m⟩ ls g v w e d hal ha (by rw [hs]; exact hb) (length_dimension hl) hw

theorem sound_line {m : Nat} {s t u v w : Str} {cs : Cells} {name : Str} {ls : List Line} {rs : Rows} (h : Sound cf D (.cells m s cs t))
    (hx : NextTok t (.cs name) u) (hf : Unbound D (.cs name)) (hp : primOf name = .newline) (hb : NoOptional u v) (hw : WordSeq lineWords v ls w)
    (hn : Spec.NoScript w) (h' : Sound cf D (.rows m w rs)) : Sound cf D (.rows m s (.line cs none ls rs)) := by
  refine rows_line h hx hf (fun k k' hh hs ha hal => ?_) hn h'
  rw [hp]
  subst hs
  exact C44_newline_plain cf _ hh ⟨k, m⟩ ls v w hal ha hb hw

end PL.Formula
