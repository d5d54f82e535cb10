import Verif.Lemmas.Formula.Complete
set_option autoImplicit false
/-!
# Texts that the parser accepts are covered by the grammar

Converse of the rules for sequences of elements and for tables: when a run ends without errors, the grammar reads every text on the stack.
-/
namespace PL.Formula
open PL PL.Lex PL.H Spec PL.Props

variable {cf : Cfg}

/-- A run of `n` rounds ends without errors. -/
def Fine (cf : Cfg) (n : Nat) (s : State) : Prop := ∃ its, run cf n s = (its, .done) ∧ NoErr its

/-- What follows the cells of a line: nothing, or a line break and more lines. -/
def Rest (m : Nat) (r : Str) : Prop :=
  BlankEnd r ∨ ∃ name u v ls w rs, NextTok r (.cs name) u ∧ primOf name = .newline ∧ (NoOptional u v ∨ ∃ g d e, Bracketed u g v ∧ Length g d e) ∧
    WordSeq [(c!"\\hline", Line.solid), (c!"\\hdashline", .dashed)] v ls w ∧ Spec.NoScript w ∧ Reads Known.none (.rows m w rs)

/-- The grammar reads the rest of a text, the rest of a line and the lines after it in an environment. -/
def TailS (s : Str) : Option AlignCount → Prop
  | none => ∃ ns, Formula s ns
  | some a => ∃ cs r, Reads Known.none (.cells (a.max - a.count) s cs r) ∧ Rest a.max r

/-- The same, whatever white space comes first. -/
def Tail (s : Str) (A : Option AlignCount) : Prop := ∀ s', trimStart s' = trimStart s → TailS s' A

theorem cells_mono : ∀ {m m' : Nat} {s r : Str} {cs : Cells}, m ≤ m' → Reads Known.none (.cells m s cs r) → Reads Known.none (.cells m' s cs r)
  | _, _, _, _, _, _, .lastCell h => .lastCell h
  | _ + 1, 0, _, _, _, hm, .cell .. => absurd hm (by omega)
  | m + 1, m' + 1, _, _, _, hm, .cell h1 h2 h3 h4 => .cell h1 h2 h3 (cells_mono (Nat.le_of_succ_le_succ hm) h4)

theorem rows_of {m : Nat} {s r : Str} {cs : Cells} (h : Reads Known.none (.cells m s cs r)) (hr : Rest m r) : ∃ rows, Reads Known.none (.rows m s rows) := by
  rcases hr with hb | ⟨name, u, v, ls, w, rs, h1, h2, h3 | ⟨g, d, e, h3, h3'⟩, h4, h5, h6⟩
  · exact ⟨_, .lastLine h hb⟩
  · exact ⟨_, .line h h1 rfl h2 h3 h4 h5 h6⟩
  · exact ⟨_, .spacedLine h h1 rfl h2 h3 h3' h4 h5 h6⟩

theorem TailS.derivable {s : Str} {A : Option AlignCount} (h : TailS s A) : Derivable s A := by
  cases A with
  | none => exact h
  | some a =>
    obtain ⟨cs, r, h1, h2⟩ := h
    exact rows_of (cells_mono (Nat.sub_le _ _) h1) h2

/-- Something before the elements. -/
theorem TailS.cons {s r : Str} {A : Option AlignCount} (h : ∀ ns u, Reads Known.none (.elements r ns u) → ∃ ns', Reads Known.none (.elements s ns' u)) (ht : TailS r A) :
    TailS s A := by
  cases A with
  | none =>
    obtain ⟨ns, hf⟩ := ht
    cases hf with
    | whole h1 h2 =>
      obtain ⟨ns', h3⟩ := h _ _ h1
      exact ⟨ns', .whole h3 h2⟩
  | some a =>
    obtain ⟨cs, r, h1, h2⟩ := ht
    generalize hj : a.max - a.count = j at h1
    cases h1 with
    | lastCell h1 =>
      obtain ⟨ns', h3⟩ := h _ _ h1
      exact ⟨_, _, .lastCell h3, h2⟩
    | cell h1 h3 h4 h5 =>
      obtain ⟨ns', h6⟩ := h _ _ h1
      have := Reads.cell h6 h3 h4 h5
      rw [← hj] at this
      exact ⟨_, _, this, h2⟩

theorem TailS.blank {s : Str} {A : Option AlignCount} (h : BlankEnd s) : TailS s A := by
  cases A with
  | none => exact ⟨_, .whole .nil h⟩
  | some a => exact ⟨_, _, .lastCell .nil, .inl h⟩

/-! ### One round -/

theorem step_inv {c : Sl} {A : Option AlignCount} {B : List Instr} {sp : Spans} {s' : State} (hne : trimStart c.cs ≠ [])
    (e : step cf ⟨.sub c A :: B, [], [], sp⟩ = .again s') :
    (BlankEnd c.cs ∧ s' = ⟨.sub { c with cs := [] } A :: B, [], [], sp⟩) ∨
    ∃ tk t desc h' S, token c.cs = .ok tk t ∧ atom cf (.ofTok c tk) (start [] c A t) = .ok desc h' ∧
      unstage h'.buf (.sub h'.content h'.align :: B) desc = .ok S ∧ s' = ⟨S, [], h'.macros, sp⟩ := by
  unfold step at e
  simp only at e
  rw [if_neg (by simpa using hne)] at e
  have hspec := token_spec c.cs
  cases ht : token c.cs with
  | panic p => rw [ht] at hspec; cases hspec
  | err er r =>
    rw [ht] at hspec
    unfold parse at e
    rw [parseLoop] at e
    unfold startSt at e
    simp only [ht] at e
    cases hspec with
    | none hb =>
      simp only [if_true] at e
      cases e
      exact .inl ⟨hb, rfl⟩
    | empty =>
      simp only [if_neg (show ¬ ErrorKind.emptyControlSequence = ErrorKind.token by decide)] at e
      exfalso
      revert e
      generalize errorContext cf _ _ = q
      intro e
      cases q with
      | error => cases e
      | ok q => cases e
  | ok tk t =>
    refine .inr ⟨tk, t, ?_⟩
    have key : parse cf (startSt ⟨.sub c A :: B, [], [], sp⟩ c A) = liftH (atom cf (.ofTok c tk)) ⟨start [] c A t, sp⟩ := by
      unfold parse
      rw [parseLoop]
      unfold startSt
      simp only [ht]
      cases tk with
      | chr d ctx => rfl
      | cs name =>
        have hn : Macros.tryExpand cf [] name t = none := rfl
        simp only [hn]
        rfl
    rw [key] at e
    unfold liftH at e
    simp only at e
    cases ha : atom cf (.ofTok c tk) (start [] c A t) with
    | panic p => rw [ha] at e; cases e
    | err er h' =>
      rw [ha] at e
      simp only at e
      exfalso
      revert e
      generalize errorContext cf _ _ = q
      intro e
      cases q with
      | error => cases e
      | ok q => cases e
    | ok desc h' =>
      rw [ha] at e
      simp only at e
      cases hu : unstage h'.buf (.sub h'.content h'.align :: B) desc with
      | error p => rw [hu] at e; cases e
      | ok S =>
        rw [hu] at e
        cases e
        exact ⟨desc, h', S, rfl, rfl, hu, rfl⟩

theorem atom_inv {c : Sl} {A : Option AlignCount} {t : Str} {ht : HTok} {d : Option Desc} {h' : HSt} (e : atom cf ht (start [] c A t) = .ok d h') :
    ∃ h1, handleToken cf (t.length + 3) ht (start [] c A t) = .ok ⟨⟩ h1 ∧ scripts (handleToken cf (h1.content.cs.length + 3)) h1 = .ok d h' := by
  unfold atom at e
  rw [M.get_bind] at e
  obtain ⟨_, h1, e1, e⟩ := bind_inv e
  rw [M.get_bind] at e
  exact ⟨h1, e1, e⟩

theorem limits_inv {h h0 : HSt} (e : limits h = .ok ⟨⟩ h0) : ∃ vs r, Limits h.allowMods h.content.cs vs r ∧ h0 = { past h r with pos := placed vs h.pos } := by
  have key : ∃ vs r, Limits h.allowMods h.content.cs vs r := by
    cases hm : h.allowMods with
    | false => exact ⟨_, _, .no⟩
    | true =>
      obtain ⟨vs, r, h1, -⟩ := C43_exists h.content.cs
      exact ⟨vs, r, .yes h1⟩
  obtain ⟨vs, r, hl⟩ := key
  rw [limits_of hl] at e
  cases e
  exact ⟨vs, r, hl, rfl⟩

theorem limits_suffix {m : Bool} {s r : Str} {vs : List Bool} (h : Limits m s vs r) : r <:+ s := by
  cases h with
  | no => exact List.suffix_refl _
  | yes h =>
    have := limitModifiers_suffix s
    rw [limitModifiers_of h] at this
    exact this

/-- No script was attached. -/
theorem scripts_none_inv {rec : HTok → H PUnit} {h h' : HSt} (e : scripts rec h = .ok none h') :
    (h.skip = true ∧ h' = h) ∨ h.skip = false ∧ ∃ vs r, Limits h.allowMods h.content.cs vs r ∧ Spec.NoScript r ∧ h' = { past h (trimStart r) with pos := placed vs h.pos } := by
  cases hs : h.skip with
  | true =>
    rw [scripts_skip hs] at e
    cases e
    exact .inl ⟨rfl, rfl⟩
  | false =>
    refine .inr ⟨rfl, ?_⟩
    unfold scripts at e
    rw [M.get_bind, if_neg (by simp [hs])] at e
    obtain ⟨_, h0, e0, e⟩ := bind_inv e
    obtain ⟨vs, r, hl, rfl⟩ := limits_inv e0
    refine ⟨vs, r, hl, ?_⟩
    rw [M.modify_bind, M.get_bind] at e
    simp only [past] at e
    rw [noScript_iff]
    unfold NoScriptAfter
    cases hc : trimStart r with
    | nil =>
      rw [hc] at e
      cases e
      exact ⟨by simp, rfl⟩
    | cons c u =>
      rw [hc] at e
      dsimp only at e
      by_cases hcc : (c = '^' || c = '_') = true
      · rw [if_pos hcc] at e
        exfalso
        obtain ⟨_, _, _, e⟩ := bind_inv e
        obtain ⟨_, _, _, e⟩ := bind_inv e
        obtain ⟨_, _, _, e⟩ := bind_inv e
        rw [M.get_bind] at e
        split at e
        · obtain ⟨_, _, _, e⟩ := bind_inv e
          obtain ⟨_, _, _, e⟩ := bind_inv e
          obtain ⟨_, _, _, e⟩ := bind_inv e
          obtain ⟨_, _, _, e⟩ := bind_inv e
          revert e
          generalize List.head? _ = q
          intro e
          split at e
          · cases e
          · cases e
          · cases e
        · split at e
          · cases e
          · cases e
      · rw [if_neg hcc] at e
        cases e
        refine ⟨?_, rfl⟩
        simp at hcc
        simpa using hcc

/-! ### Elements -/

/-- What is written before `r` in `s` is an element. -/
def Prefixes (s r : Str) : Prop := ∀ ns u, Reads Known.none (.elements r ns u) → ∃ ns', Reads Known.none (.elements s ns' u)

theorem pre_start {c : Sl} {A : Option AlignCount} {tk : Tok} {t : Str} (hw : c.wf) (ht : token c.cs = .ok tk t) : Pre false c (start [] c A t) := by
  have hsuf : t <:+ c.cs := by have := good_token (cf := ⟨true, fun _ => 0⟩) c.cs; rw [ht] at this; exact this
  exact ⟨hw, (Sub.refl _).suffix hsuf, fun h => by cases h⟩

theorem no_macros {o : Sl} (hr : Regular o.cs) {D D' : Macros.Ctx} (hD : D = []) (h : ∀ x ∈ D', x ∈ D ∨ Defines o.cs ∧ DefFrom o.cs x.2) : D' = [] := by
  subst hD
  refine List.eq_nil_iff_forall_not_mem.2 fun x hx => ?_
  rcases h x hx with h | ⟨⟨w, hw, hi⟩, -⟩
  · cases h
  · exact hr.macros w hw hi

theorem nextTok_trim {s s' : Str} {x : Word} {t : Str} (hs : trimStart s = trimStart s') (h : NextTok s x t) : NextTok s' x t := by
  obtain ⟨tk, h1, h2⟩ := nextTok_iff.1 h
  exact nextTok_iff.2 ⟨tk, by rw [← token_eq hs]; exact h1, h2⟩

/-- An operand read by the parser. -/
theorem scripted_operand (hov : cf.overflowChecks = true) {n : Nat} {o : Sl} {h h' : HSt} (hp : Pre false o h) (hr : Regular o.cs) (hn : h.content.cs.length + 1 ≤ n)
    (e : operand (handleToken cf n) h = .ok ⟨⟩ h') (hd : Der h'.buf) : ∃ ns pl, Reads Known.none (.operand h.content.cs ns h'.content.cs pl) ∧ h'.align = h.align := by
  obtain ⟨a, s0, h1, h2⟩ := operand_ok e
  obtain ⟨ns, pl, ho⟩ := operand_back (back hov n) hp hr hn h1 rfl h2 hd
  obtain ⟨h3, e3, A3⟩ := Operand.runs (h := h) ((sound (cf := cf) stores_none ho).2 n hn) rfl
  rw [e] at e3
  cases e3
  exact ⟨ns, pl, ho, A3.align⟩

theorem element_back (hov : cf.overflowChecks = true) {c : Sl} {A : Option AlignCount} {tk : Tok} {t : Str} {x : Word} {desc : Option Desc} {h' : HSt} {S0 S : List Instr}
    (hw : c.wf) (hr : Regular c.cs) (ht : token c.cs = .ok tk t) (hx : Tok.says tk x) (e : atom cf (.ofTok c tk) (start [] c A t) = .ok desc h')
    (hu : unstage h'.buf S0 desc = .ok S) :
    ∃ L, S = L ++ S0 ∧ (∀ g A, Instr.sub g A ∈ L → Sub g c) ∧ Sub h'.content c ∧ h'.macros = [] ∧
      (x ≠ .chr '&' → (∀ name, x = .cs name → primOf name ≠ .newline) → Der L →
        h'.align = A ∧ ∀ s', trimStart s' = trimStart c.cs → ∃ r', trimStart r' = trimStart h'.content.cs ∧ Prefixes s' r') := by
  obtain ⟨h1, e1, e2⟩ := atom_inv e
  have hp := pre_start (A := A) hw ht
  have hN : NextTok c.cs x t := nextTok_iff.2 ⟨tk, ht, hx⟩
  have htok : TokOK false c (start [] c A t) (.ofTok c tk) := tok_ok ht (Sub.refl _) (fun h => by cases h)
  have hpost := handleToken_ok cf false c (t.length + 3) _ _ hp htok (by simp [HSt.len, start])
  rw [e1] at hpost
  obtain ⟨d, x1, -⟩ := hpost
  have hm1 : h1.macros = [] := no_macros hr rfl x1.mac
  have hb1 : h1.buf = d := x1.buf
  have hp1 : Pre false c h1 := hp.next x1
  have means : x ≠ .chr '&' → (∀ name, x = .cs name → primOf name ≠ .newline) → Der h1.buf →
      ∃ ns pl, Reads Known.none (.means false x t ns h1.content.cs pl) ∧ h1.allowMods = pl.mods ∧ h1.skip = pl.skip ∧ h1.align = A := by
    intro hna hnn hd
    obtain ⟨ns, r, pl, hm⟩ := back hov (t.length + 3) false x t (.ofTok c tk) (start [] c A t) h1 c (by omega) (ofTok_is ht hx) rfl rfl hp
      (in_of (ofTok_is ht hx) hN htok) hr (fun _ => ⟨hna, hnn, c.cs, hr, hN⟩) e1 hd
    obtain ⟨h2, e3, A3⟩ := (sound (cf := cf) stores_none hm).2 (t.length + 3) (start [] c A t) (.ofTok c tk) (by omega) (ofTok_is ht hx) rfl rfl
    rw [e1] at e3
    cases e3
    refine ⟨ns, pl, ?_, A3.mods, A3.skip, A3.align⟩
    rw [A3.cs]
    exact hm
  cases desc with
  | none =>
    cases hu
    rcases scripts_none_inv e2 with ⟨hs, rfl⟩ | ⟨hs, vs, r, hl, hno, rfl⟩
    · refine ⟨h'.buf, rfl, fun g A hg => x1.subs g A (hb1 ▸ hg), x1.sub, hm1, fun hna hnn hd => ?_⟩
      obtain ⟨ns, pl, hm, -, hk, ha⟩ := means hna hnn hd
      refine ⟨ha, fun s' hs' => ⟨h'.content.cs, rfl, fun ms u hms => ?_⟩⟩
      exact ⟨_, .skipping (nextTok_trim hs'.symm hN) (free_none _) hm (hk ▸ hs) hms⟩
    · refine ⟨h1.buf, rfl, fun g A hg => x1.subs g A (hb1 ▸ hg), ?_, hm1, fun hna hnn hd => ?_⟩
      · exact Sub.suffix x1.sub ((trimStart_suffix _).trans (limits_suffix hl))
      obtain ⟨ns, pl, hm, hmods, hk, ha⟩ := means hna hnn hd
      refine ⟨ha, fun s' hs' => ⟨r, (trimStart_idem _).symm, fun ms u hms => ?_⟩⟩
      exact ⟨_, .plain (nextTok_trim hs'.symm hN) (free_none _) hm (hk ▸ hs) (hmods ▸ hl) hno hms⟩
  | some dd =>
    obtain ⟨s1, ch, v, s2, first, second, hat, hb, o1, b2, hsec, hun⟩ := C05_scripts cf _ h1 h' dd (x1.sub.wf hw) (by omega) e2
    obtain ⟨_, _, _, _, -, -, hno, -, -⟩ := C47_attached _ _ _ _ e2
    rw [hun] at hu
    cases hu
    obtain ⟨s0, hl0, rfl⟩ := hat.mods
    obtain ⟨vs, r, hl, rfl⟩ := limits_inv hl0
    clear hl0
    have here : trimStart r = ch :: v := hat.here
    obtain ⟨w, hw', er⟩ := trimStart_spec r
    rw [here] at er
    have hsr := limits_suffix hl
    have hv : v <:+ h1.content.cs := by
      refine List.IsSuffix.trans ?_ hsr
      rw [er]
      exact ⟨w ++ [ch], by simp⟩
    have hvl := hv.length_le
    generalize hst : past { past h1 (trimStart r) with pos := placed vs h1.pos } v = st at *
    have hp2 : Pre false c st := by subst hst; exact ⟨hw, Sub.suffix x1.sub hv, fun h => by cases h⟩
    have hsv : st.content.cs = v := by subst hst; rfl
    have hsa : st.align = h1.align := by subst hst; rfl
    have hsm : st.macros = h1.macros := by subst hst; rfl
    have hsb : st.buf = h1.buf := by subst hst; rfl
    have o1 : operand (handleToken cf (h1.content.cs.length + 3)) st = .ok ⟨⟩ s2 := by subst hst; exact o1
    obtain ⟨d1, x2, l2⟩ := operand_ext hp2 (by simp only [HSt.len]; rw [hsv]; omega) o1
    have hf : first = d1 := by
      have := x2.buf
      rw [b2, hsb] at this
      exact List.append_cancel_left this
    subst hf
    have hm2 : s2.macros = [] := no_macros hr (hsm.trans hm1) x2.mac
    simp only [HSt.len] at l2
    rw [hsv] at l2
    -- the reading of an element with a script
    rcases hsec with ⟨rfl, rfl⟩ | ⟨r2, hr2, o2, b3⟩
    · have hLm : ∀ i, i ∈ (.ev dd.event :: h1.buf ++ (if ch = '_' then first ++ [] else [] ++ first) : List Instr) ↔ i = .ev dd.event ∨ i ∈ h1.buf ∨ i ∈ first := by
        intro i
        split <;> simp
      refine ⟨_, rfl, fun g A hg => ?_, x2.sub, hm2, fun hna hnn hd => ?_⟩
      · rcases (hLm _).1 hg with h | h | h
        · cases h
        · exact x1.subs g A (hb1 ▸ h)
        · exact x2.subs g A h
      · have hd1 : Der h1.buf := hd.mono fun i hi => (hLm i).2 (.inr (.inl hi))
        have hd2 : Der h'.buf := hd.mono fun i hi => (hLm i).2 (by rw [b2] at hi; exact .inr (List.mem_append.1 hi))
        obtain ⟨ns, pl, hm, hmods, hk, ha⟩ := means hna hnn hd1
        obtain ⟨ks, pl', ho, ha'⟩ := scripted_operand hov hp2 hr (by rw [hsv]; omega) o1 hd2
        rw [hsv] at ho
        refine ⟨ha'.trans (hsa.trans ha), fun s' hs' => ⟨h'.content.cs, rfl, fun ms u hms => ?_⟩⟩
        rw [er, hmods] at hl
        exact ⟨_, .script (nextTok_trim hs'.symm hN) (free_none _) hm (hk ▸ hat.skip) hl hw' hat.script ho (noScriptHere_iff.2 hno) hms⟩
    · have hlr : r2.length < v.length := by
        have := congrArg List.length hr2
        simp at this
        omega
      have hp3 : Pre false c (past s2 r2) := ⟨hw, Sub.suffix x2.sub (hr2 ▸ List.suffix_cons _ _), fun h => by cases h⟩
      obtain ⟨d2, x3, l3⟩ := operand_ext hp3 (by show r2.length + 2 ≤ _; omega) o2
      have hs : second = d2 := by
        have := x3.buf
        rw [b3] at this
        exact List.append_cancel_left this
      subst hs
      have hm3 : h'.macros = [] := no_macros hr hm2 x3.mac
      have hLm : ∀ i, i ∈ (.ev dd.event :: h1.buf ++ (if ch = '_' then first ++ second else second ++ first) : List Instr) ↔
          i = .ev dd.event ∨ i ∈ h1.buf ∨ i ∈ first ∨ i ∈ second := by
        intro i
        split
        · simp
        · simp [or_comm]
      refine ⟨_, rfl, fun g A hg => ?_, x3.sub, hm3, fun hna hnn hd => ?_⟩
      · rcases (hLm _).1 hg with h | h | h | h
        · cases h
        · exact x1.subs g A (hb1 ▸ h)
        · exact x2.subs g A h
        · exact x3.subs g A h
      · have hd1 : Der h1.buf := hd.mono fun i hi => (hLm i).2 (.inr (.inl hi))
        have hd2 : Der s2.buf := hd.mono fun i hi => (hLm i).2 (by
          rw [b2] at hi
          rcases List.mem_append.1 hi with h | h
          · exact .inr (.inl h)
          · exact .inr (.inr (.inl h)))
        have hd3 : Der h'.buf := hd.mono fun i hi => (hLm i).2 (by
          rw [b3, b2] at hi
          rcases List.mem_append.1 hi with h | h
          · rcases List.mem_append.1 h with h | h
            · exact .inr (.inl h)
            · exact .inr (.inr (.inl h))
          · exact .inr (.inr (.inr h)))
        obtain ⟨ns, pl, hm, hmods, hk, ha⟩ := means hna hnn hd1
        obtain ⟨ks, pl', ho, ha'⟩ := scripted_operand hov hp2 hr (by rw [hsv]; omega) o1 hd2
        obtain ⟨ls, pl'', ho2, ha''⟩ := scripted_operand hov hp3 hr (by show r2.length + 1 ≤ _; omega) o2 hd3
        rw [hsv, hr2] at ho
        refine ⟨ha''.trans (ha'.trans (hsa.trans ha)), fun s' hs' => ⟨h'.content.cs, rfl, fun ms u hms => ?_⟩⟩
        rw [er, hmods] at hl
        rcases hat.script with rfl | rfl
        · exact ⟨_, .supSub (nextTok_trim hs'.symm hN) (free_none _) hm (hk ▸ hat.skip) hl hw' ho ho2 (noScriptHere_iff.2 hno) hms⟩
        · exact ⟨_, .subSup (nextTok_trim hs'.symm hN) (free_none _) hm (hk ▸ hat.skip) hl hw' ho ho2 (noScriptHere_iff.2 hno) hms⟩

/-! ### Alignments and line breaks -/

theorem script_text {rec : HTok → H PUnit} {h h' : HSt} {d : Desc} (hm : h.allowMods = false) (e : scripts rec h = .ok (some d) h') :
    ∃ w c r, Spaces w ∧ (c = '^' ∨ c = '_') ∧ h.content.cs = w ++ c :: r := by
  obtain ⟨s1, c, r, s2, hat, -⟩ := C47_attached _ _ _ _ e
  obtain ⟨s0, hl0, rfl⟩ := hat.mods
  rw [C43_not_allowed _ hm] at hl0
  cases hl0
  obtain ⟨w, hw, er⟩ := trimStart_spec h.content.cs
  have := hat.here
  dsimp only at this
  rw [this] at er
  exact ⟨w, c, r, hw, hat.script, er⟩

theorem none_text {rec : HTok → H PUnit} {h h' : HSt} (hm : h.allowMods = false) (hs : h.skip = false) (e : scripts rec h = .ok none h') :
    Spec.NoScript h.content.cs ∧ h' = { past h (trimStart h.content.cs) with pos := h.pos } := by
  rcases scripts_none_inv e with ⟨hs', -⟩ | ⟨-, vs, r, hl, hno, rfl⟩
  · rw [hs] at hs'; cases hs'
  · rw [hm] at hl
    cases hl
    exact ⟨hno, rfl⟩

theorem amp_back {c : Sl} {A : Option AlignCount} {tk : Tok} {t : Str} {desc : Option Desc} {h' : HSt} (hr : Regular c.cs) (ht : token c.cs = .ok tk t)
    (hx : Tok.says tk (.chr '&')) (e : atom cf (.ofTok c tk) (start [] c A t) = .ok desc h') :
    ∃ a, A = some a ∧ a.count < a.max ∧ Spec.NoScript t ∧ h'.align = some { a with count := a.count + 1 } ∧ h'.content.cs = trimStart t := by
  obtain ⟨h1, e1, e2⟩ := atom_inv e
  have hf := token_facts ht
  cases tk with
  | cs => cases hx
  | chr d ctx =>
    cases hx
    obtain ⟨-, k, -, ek, -⟩ := hf
    change handleChar '&' _ (start [] c A t) = .ok ⟨⟩ h1 at e1
    unfold handleChar at e1
    rw [M.get_bind] at e1
    simp [start] at e1
    cases A with
    | none => cases e1
    | some a =>
      simp only at e1
      split at e1
      · rename_i hlt
        refine ⟨a, rfl, hlt, ?_⟩
        cases e1
        cases desc with
        | none =>
          obtain ⟨h1, rfl⟩ := none_text rfl rfl e2
          exact ⟨h1, rfl, rfl⟩
        | some d =>
          exfalso
          obtain ⟨w, c', r, hw, hc, et⟩ := script_text rfl e2
          change t = _ at et
          refine hr.alignment w c' hw hc ⟨k, r, ?_⟩
          rw [ek, et]
          simp
      · cases e1

theorem bracketed_text {s g r : Str} (h : Bracketed s g r) : ∃ w, Spaces w ∧ s = w ++ '[' :: (g ++ ']' :: r) := by
  obtain ⟨w, t, hw, rfl, hs⟩ := h
  exact ⟨w, hw, by rw [hs.eq]; simp⟩

theorem newline_back {c : Sl} {A : Option AlignCount} {tk : Tok} {t name : Str} {desc : Option Desc} {h' : HSt} (hr : Regular c.cs) (ht : token c.cs = .ok tk t)
    (hx : Tok.says tk (.cs name)) (hn : primOf name = .newline) (e : atom cf (.ofTok c tk) (start [] c A t) = .ok desc h') :
    ∃ a v ls w, A = some a ∧ (NoOptional t v ∨ ∃ g d e, Bracketed t g v ∧ Length g d e) ∧ WordSeq lineWords v ls w ∧ Spec.NoScript w ∧
      h'.align = some { a with count := 0 } ∧ h'.content.cs = trimStart w := by
  obtain ⟨h1, e1, e2⟩ := atom_inv e
  have hf := token_facts ht
  cases tk with
  | chr => cases hx
  | cs m =>
    obtain rfl : m = name := hx
    obtain ⟨k, w0, -, hw0, -, ek⟩ := hf
    change execPrim cf (handleToken cf (t.length + 2)) (primOf m) (start [] c A t) = .ok ⟨⟩ h1 at e1
    rw [hn] at e1
    cases A with
    | none => cases e1
    | some a =>
      have key : ∃ v ls w d, (NoOptional t v ∨ ∃ g d e, Bracketed t g v ∧ Length g d e) ∧ WordSeq lineWords v ls w ∧
          h1 = { start [] c (some { a with count := 0 }) w with buf := [.ev (.flow (.newLine d ls))] } := by
        have e1' : (do
            let spacing ← (do
              match ← optionalArgument with
              | some g => return some (← onStr dimension g.cs)
              | none => return none : H (Option Dim))
            let lines ← lexPure horizontalLines
            ev (.flow (.newLine spacing lines)) : H PUnit) (start [] c (some { a with count := 0 }) t) = .ok ⟨⟩ h1 := e1
        obtain ⟨sp, h2, e20, e1'⟩ := bind_inv e1'
        obtain ⟨ls, h3, e3, e4⟩ := bind_inv e1'
        cases e4
        have hsp : ∃ v, (NoOptional t v ∨ ∃ g d e, Bracketed t g v ∧ Length g d e) ∧ h2 = start [] c (some { a with count := 0 }) v := by
          obtain ⟨g, h4, e4, e5⟩ := bind_inv e20
          rcases optionalArgument_inv e4 with ⟨rfl, r, hno, rfl⟩ | ⟨g, r, rfl, hb, rfl⟩
          · cases e5
            exact ⟨r, .inl hno, rfl⟩
          · dsimp only at e5
            obtain ⟨d, h5, e6, e7⟩ := bind_inv e5
            cases e7
            obtain ⟨⟨r', hd⟩, rfl⟩ := onStr_inv e6
            exact ⟨r, .inr ⟨_, _, _, hb, dimension_inv hd⟩, rfl⟩
        obtain ⟨v, hv, rfl⟩ := hsp
        unfold lexPure at e3
        obtain ⟨w, hl, rfl⟩ := lex_inv e3
        have hh : horizontalLines v = (ls, w) := by
          cases hl
          rfl
        exact ⟨v, ls, w, sp, hv, horizontalLines_of.1 hh, rfl⟩
      obtain ⟨v, ls, w, d, hv, hws, rfl⟩ := key
      refine ⟨a, v, ls, w, rfl, hv, hws, ?_⟩
      cases desc with
      | none =>
        obtain ⟨h1, rfl⟩ := none_text rfl rfl e2
        exact ⟨h1, rfl, rfl⟩
      | some dd =>
        exfalso
        obtain ⟨w', c', r, hw', hc, et⟩ := script_text rfl e2
        change w = _ at et
        obtain ⟨mm, hmm, ev⟩ := lines_ruled hws
        have hbt : ∃ m', BreakTail m' ∧ t = m' ++ w := by
          rcases hv with hno | ⟨g, d, e', hb, -⟩
          · cases hno with
            | absent => exact ⟨mm, .plain hmm, ev⟩
            | lost =>
              rw [et] at ev
              cases mm <;> cases w' <;> cases ev
            | @dropped w1 _ hw1 => exact ⟨w1 ++ '[' :: mm, .bracket hw1 hmm, by rw [ev]; simp⟩
          · obtain ⟨w1, hw1, eb⟩ := bracketed_text hb
            exact ⟨w1 ++ '[' :: (g ++ ']' :: mm), .spacing hw1 hmm, by rw [eb, ev]; simp⟩
        obtain ⟨m', hbt, et'⟩ := hbt
        have hb := newline_names hn
        simp only [List.mem_cons, List.not_mem_nil, or_false] at hb
        refine hr.lineBreak ('\\' :: m) _ c' ?_ (BreakTail.pad hw0 hw' hbt) hc ⟨k, r, ?_⟩
        · rcases hb with rfl | rfl
          · exact .inl rfl
          · exact .inr rfl
        · rw [ek, et', et]
          simp

/-! ### Runs -/

theorem fine_ev {n : Nat} {e : Event} {B : List Instr} {sp : Spans} (h : Fine cf n ⟨.ev e :: B, [], [], sp⟩) : ∃ m, m ≤ n ∧ Fine cf m ⟨B, [], [], sp⟩ := by
  obtain ⟨its, h1, h2⟩ := h
  cases n with
  | zero => cases h1
  | succ n =>
    refine ⟨n, by omega, ?_⟩
    rw [run] at h1
    have : step cf ⟨.ev e :: B, [], [], sp⟩ = .item (.ok e) ⟨B, [], [], sp⟩ := rfl
    rw [this] at h1
    dsimp only at h1
    cases hr : run cf n ⟨B, [], [], sp⟩ with
    | mk is f =>
      rw [hr] at h1
      cases h1
      exact ⟨is, hr, fun i hi => h2 i (by simp [hi])⟩

theorem fine_sub {n : Nat} {c : Sl} {A : Option AlignCount} {B : List Instr} {sp : Spans} (h : Fine cf n ⟨.sub c A :: B, [], [], sp⟩) :
    ∃ m s', n = m + 1 ∧ step cf ⟨.sub c A :: B, [], [], sp⟩ = .again s' ∧ Fine cf m s' := by
  obtain ⟨its, h1, h2⟩ := h
  cases n with
  | zero => cases h1
  | succ n =>
    rw [run] at h1
    have hitem : ∀ i s', step cf ⟨.sub c A :: B, [], [], sp⟩ = .item i s' → ∃ e ctx, i = .err e ctx := by
      intro i s' e
      unfold step at e
      simp only at e
      split at e
      · cases e
      · revert e
        generalize parse cf _ = r
        intro e
        cases r with
        | panic => cases e
        | err er st =>
          simp only at e
          revert e
          generalize errorContext cf _ _ = q
          intro e
          cases q with
          | error => cases e
          | ok q => cases e; exact ⟨_, _, rfl⟩
        | ok d st =>
          simp only at e
          revert e
          generalize unstage _ _ _ = q
          intro e
          cases q with
          | error => cases e
          | ok q => cases e
    cases hs : step cf ⟨.sub c A :: B, [], [], sp⟩ with
    | done =>
      exfalso
      unfold step at hs
      simp only at hs
      split at hs
      · cases hs
      · revert hs
        generalize parse cf _ = r
        intro e
        cases r with
        | panic => cases e
        | err er st =>
          simp only at e
          revert e
          generalize errorContext cf _ _ = q
          intro e
          cases q with
          | error => cases e
          | ok q => cases e
        | ok d st =>
          simp only at e
          revert e
          generalize unstage _ _ _ = q
          intro e
          cases q with
          | error => cases e
          | ok q => cases e
    | panic p => rw [hs] at h1; cases h1
    | again s' =>
      rw [hs] at h1
      exact ⟨n, s', rfl, rfl, its, h1, h2⟩
    | item i s' =>
      exfalso
      rw [hs] at h1
      obtain ⟨e, ctx, rfl⟩ := hitem i s' hs
      dsimp only at h1
      obtain ⟨rfl, -⟩ := Prod.mk.inj h1
      obtain ⟨e', h⟩ := h2 (.err e ctx) (by simp)
      cases h

/-- The converse for the text on top of the stack, in a run of `n` rounds. -/
def Conv (cf : Cfg) (n : Nat) : Prop := ∀ (c : Sl) (A : Option AlignCount) (B : List Instr) (sp : Spans), c.wf → Regular c.cs → Fine cf n ⟨.sub c A :: B, [], [], sp⟩ →
  Tail c.cs A ∧ ∃ m, m < n ∧ Fine cf m ⟨B, [], [], sp⟩

theorem conv_list {N : Nat} (ih : ∀ n, n ≤ N → Conv cf n) {o : Sl} (hw : o.wf) (hr : Regular o.cs) {sp : Spans} {S : List Instr} :
    ∀ (L : List Instr) (n : Nat), n ≤ N → (∀ g A, Instr.sub g A ∈ L → Sub g o) → Fine cf n ⟨L ++ S, [], [], sp⟩ →
      Der L ∧ ∃ m, m ≤ n ∧ Fine cf m ⟨S, [], [], sp⟩
  | [], n, _, _, h => ⟨(fun g A hg => by cases hg), n, Nat.le_refl _, h⟩
  | .ev e :: L, n, hn, hs, h => by
    obtain ⟨m, hm, h'⟩ := fine_ev h
    obtain ⟨h1, m', hm', h2⟩ := conv_list ih hw hr L m (by omega) (fun g A hg => hs g A (by simp [hg])) h'
    exact ⟨fun g A hg => h1 g A (by simpa using hg), m', by omega, h2⟩
  | .sub c A :: L, n, hn, hs, h => by
    have hc := hs c A (by simp)
    obtain ⟨h1, m, hm, h'⟩ := ih n hn c A (L ++ S) sp (hc.wf hw) (hr.infix hc.infix) h
    obtain ⟨h2, m', hm', h3⟩ := conv_list ih hw hr L m (by omega) (fun g A hg => hs g A (by simp [hg])) h'
    refine ⟨fun g A hg => ?_, m', by omega, h3⟩
    rcases List.mem_cons.1 hg with e | hg
    · cases e; exact (h1 _ rfl).derivable
    · exact h2 g A hg

theorem trim_blank {s : Str} (h : trimStart s = []) : BlankEnd s := by
  obtain ⟨w, hw, e⟩ := trimStart_spec s
  rw [e, h]
  exact .blank (blank_spaces hw .nil)

theorem conv (hov : cf.overflowChecks = true) : ∀ n, Conv cf n := by
  intro n
  induction n using Nat.strongRecOn with
  | ind n ih =>
    intro c A B sp hw hr hf
    obtain ⟨n, s', rfl, hs, hf'⟩ := fine_sub hf
    by_cases hne : trimStart c.cs = []
    · have : step cf ⟨.sub c A :: B, [], [], sp⟩ = .again ⟨B, [], [], sp⟩ := by
        unfold step
        simp only
        rw [if_pos (by simpa using hne)]
      rw [this] at hs
      cases hs
      refine ⟨fun s' e => .blank (trim_blank (by rw [e, hne])), n, by omega, hf'⟩
    · rcases step_inv hne hs with ⟨hb, rfl⟩ | ⟨tk, t, desc, h', S, ht, ha, hu, rfl⟩
      · obtain ⟨-, m, hm, h3⟩ := ih n (by omega) { c with cs := [] } A B sp
          (((Sub.refl c).suffix List.nil_suffix).wf hw) (hr.infix (List.nil_infix)) hf'
        exact ⟨fun s' e => .blank (blankEnd_trim hb e), m, by omega, h3⟩
      · obtain ⟨x, hx⟩ := says_ex tk
        obtain ⟨L, rfl, hsub, hc', hmac, hel⟩ := element_back hov hw hr ht hx ha hu
        rw [hmac] at hf'
        obtain ⟨hd, m, hm, h4⟩ := conv_list (N := n) (fun k hk => ih k (by omega)) hw hr L n (Nat.le_refl _) hsub hf'
        obtain ⟨htl, m', hm', h5⟩ := ih m (by omega) h'.content h'.align B sp (hc'.wf hw) (hr.infix hc'.infix) h4
        refine ⟨?_, m', by omega, h5⟩
        have hN : NextTok c.cs x t := nextTok_iff.2 ⟨tk, ht, hx⟩
        intro s' es
        have hN' := nextTok_trim es.symm hN
        by_cases hamp : x = .chr '&'
        · subst hamp
          obtain ⟨a, rfl, hlt, hno, hal, hcs⟩ := amp_back hr ht hx ha
          rw [hal, hcs] at htl
          obtain ⟨cs, r, h6, h7⟩ := htl t (trimStart_idem _).symm
          have e1 : a.max - a.count = (a.max - (a.count + 1)) + 1 := by omega
          refine ⟨.cell .nil cs, r, ?_, h7⟩
          rw [e1]
          exact .cell .nil hN' hno h6
        · by_cases hnl : ∃ name, x = .cs name ∧ primOf name = .newline
          · obtain ⟨name, rfl, hp⟩ := hnl
            obtain ⟨a, v, ls, w, rfl, hv, hws, hno, hal, hcs⟩ := newline_back hr ht hx hp ha
            rw [hal, hcs] at htl
            obtain ⟨rs, hrs⟩ := (htl w (trimStart_idem _).symm).derivable
            exact ⟨_, _, .lastCell .nil, .inr ⟨name, t, v, ls, w, rs, hN', hp, hv, hws, hno, hrs⟩⟩
          · obtain ⟨hal, hpre⟩ := hel hamp (fun name e1 e2 => hnl ⟨name, e1, e2⟩) hd
            obtain ⟨r', e6, h7⟩ := hpre s' es
            rw [hal] at htl
            exact .cons h7 (htl r' e6)

end PL.Formula
