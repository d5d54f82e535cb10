import Verif.Props.Stream
set_option autoImplicit false
/-!
# Scripts (C05, C47)
-/
namespace PL.Props
open PL PL.Lex Spec

/-- Reading the argument of a script and handling it. -/
def operand (rec : HTok → H PUnit) : H PUnit := do
  let a ← H.argument
  handleArgument rec a

/-- Neither a subscript nor a superscript follows. -/
def NoScriptNext (t : Str) : Prop := t.head? ≠ some '^' ∧ t.head? ≠ some '_'

/-- Where the parser stands after the base and its limit modifiers: at a script `c` with `r` behind it. -/
structure AtScript (s s1 : HSt) (c : Char) (r : Str) : Prop where
  skip : s.skip = false
  mods : ∃ s0, limits s = .ok ⟨⟩ s0 ∧ s1 = { s0 with content := { s0.content with cs := trimStart s0.content.cs } }
  here : s1.content.cs = c :: r
  script : c = '^' ∨ c = '_'

/-- The state after the script character. -/
def past (s : HSt) (r : Str) : HSt := { s with content := { s.content with cs := r } }

/-- The other script character. -/
def other (c : Char) : Char := if c = '_' then '^' else '_'

/-- The error for a second script of the same kind. -/
def double (c : Char) : ErrorKind := if c = '_' then .doubleSubscript else .doubleSuperscript

variable {rec : HTok → H PUnit} {s s1 s2 s3 s' : HSt} {c : Char} {r : Str}

theorem scripts_open (h : AtScript s s1 c r) : scripts rec s = (do
      let arg ← H.argument
      handleArgument rec arg
      let s ← M.get
      let second := s.buf.length
      let next := s.content.cs.head?
      if (next = some '_' && !decide (c = '_')) || (next = some '^' && decide (c = '_')) then
        M.set { s with content := { s.content with cs := s.content.cs.tail } }
        let arg ← H.argument
        handleArgument rec arg
        match (← M.get).content.cs.head? with
        | some '_' => M.fail .doubleSubscript
        | some '^' => M.fail .doubleSuperscript
        | _ => pure ⟨⟩
      else if next = some '_' || next = some '^' then
        M.fail (if decide (c = '_') then .doubleSubscript else .doubleSuperscript)
      let s ← M.get
      let stop := s.buf.length
      let sub := if decide (c = '_') then s1.buf.length else second
      let sup := if decide (c = '_') then second else s1.buf.length
      let ty : ScriptType := if second = stop then (if decide (c = '_') then .sub else .sup) else .subSup
      return some ⟨.script ty s.pos, sub, sup⟩ : H (Option Desc)) (past s1 r) := by
  obtain ⟨h1, ⟨s0, h2, rfl⟩, h3, h4⟩ := h
  unfold scripts
  rw [M.get_bind, if_neg (by simp [h1]), M.run_bind, h2]
  dsimp only
  rw [M.modify_bind, M.get_bind, h3]
  dsimp only
  rw [if_pos (by simpa using h4), M.set_bind]
  rfl

/-- The descriptor returned for a script `c` whose operands end at the given places. -/
def descriptor (c : Char) (pos : ScriptPos) (first second stop : Nat) : Desc :=
  if c = '_' then ⟨.script (if second = stop then .sub else .subSup) pos, first, second⟩
  else ⟨.script (if second = stop then .sup else .subSup) pos, second, first⟩

theorem operand_ok (h : operand rec s = .ok ⟨⟩ s') : ∃ a s0, H.argument s = .ok a s0 ∧ handleArgument rec a s0 = .ok ⟨⟩ s' := by
  unfold operand at h
  rw [M.run_bind] at h
  cases ha : H.argument s with
  | ok a s0 => rw [ha] at h; exact ⟨a, s0, rfl, h⟩
  | err e s0 => rw [ha] at h; cases h
  | panic p => rw [ha] at h; cases h

theorem scripts_one (h : AtScript s s1 c r) (h2 : operand rec (past s1 r) = .ok ⟨⟩ s2) (hn : NoScriptNext s2.content.cs) :
    scripts rec s = .ok (some (descriptor c s2.pos s1.buf.length s2.buf.length s2.buf.length)) s2 := by
  rw [scripts_open h]
  obtain ⟨a, s0, e1, e2⟩ := operand_ok h2
  rw [M.run_bind, e1]
  dsimp only
  rw [M.run_bind, e2]
  dsimp only
  rw [M.get_bind, if_neg (by simp [hn.1, hn.2]), if_neg (by simp [hn.1, hn.2])]
  unfold descriptor
  rcases h.script with rfl | rfl <;> simp <;> rfl

theorem scripts_same (h : AtScript s s1 c r) (h2 : operand rec (past s1 r) = .ok ⟨⟩ s2) {r2 : Str} (hn : s2.content.cs = c :: r2) :
    scripts rec s = .err (double c) s2 := by
  rw [scripts_open h]
  obtain ⟨a, s0, e1, e2⟩ := operand_ok h2
  rw [M.run_bind, e1]
  dsimp only
  rw [M.run_bind, e2]
  dsimp only
  rw [M.get_bind, hn]
  rcases h.script with rfl | rfl <;> rfl

theorem scripts_two (h : AtScript s s1 c r) (h2 : operand rec (past s1 r) = .ok ⟨⟩ s2) {r2 : Str} (hn : s2.content.cs = other c :: r2)
    (h3 : operand rec (past s2 r2) = .ok ⟨⟩ s3) (hn3 : NoScriptNext s3.content.cs) :
    scripts rec s = .ok (some (descriptor c s3.pos s1.buf.length s2.buf.length s3.buf.length)) s3 := by
  rw [scripts_open h]
  obtain ⟨a, s0, e1, e2⟩ := operand_ok h2
  obtain ⟨a', s0', e1', e2'⟩ := operand_ok h3
  rw [M.run_bind, e1]
  dsimp only
  rw [M.run_bind, e2]
  dsimp only
  rw [M.get_bind, hn]
  rw [if_pos (by rcases h.script with rfl | rfl <;> rfl), M.set_bind, M.run_bind]
  have e1'' : H.argument { s2 with content := { s2.content with cs := (other c :: r2).tail } } = .ok a' s0' := e1'
  rw [e1'']
  dsimp only
  rw [M.run_bind, e2']
  dsimp only
  rw [M.get_bind]
  obtain ⟨hn1, hn2⟩ := hn3
  have last : ∀ m : H (Option Desc), m = (do
        let s ← M.get
        pure (some (Desc.mk (.script (if s2.buf.length = s.buf.length then (if decide (c = '_') then .sub else .sup) else .subSup) s.pos)
          (if decide (c = '_') then s1.buf.length else s2.buf.length)
          (if decide (c = '_') then s2.buf.length else s1.buf.length)))) →
      m s3 = .ok (some (descriptor c s3.pos s1.buf.length s2.buf.length s3.buf.length)) s3 := by
    rintro m rfl
    rw [M.get_bind]
    unfold descriptor
    rcases h.script with rfl | rfl <;> simp <;> rfl
  generalize hq : s3.content.cs.head? = q at hn1 hn2 ⊢
  refine (fun (key : ∀ m : H (Option Desc), m = _ → m s3 = _) => key _ rfl) ?_
  intro m hm
  cases q with
  | none => exact last m hm
  | some x =>
    have hx1 : x ≠ '_' := fun h => hn2 (by rw [h])
    have hx2 : x ≠ '^' := fun h => hn1 (by rw [h])
    split at hm
    · rename_i heq; exact absurd (Option.some.inj heq) hx1
    · rename_i heq; exact absurd (Option.some.inj heq) hx2
    · exact last m hm

theorem scripts_third (h : AtScript s s1 c r) (h2 : operand rec (past s1 r) = .ok ⟨⟩ s2) {r2 : Str} (hn : s2.content.cs = other c :: r2)
    (h3 : operand rec (past s2 r2) = .ok ⟨⟩ s3) {c' : Char} {r3 : Str} (hn3 : s3.content.cs = c' :: r3) (hc : c' = '^' ∨ c' = '_') :
    scripts rec s = .err (double c') s3 := by
  rw [scripts_open h]
  obtain ⟨a, s0, e1, e2⟩ := operand_ok h2
  obtain ⟨a', s0', e1', e2'⟩ := operand_ok h3
  rw [M.run_bind, e1]
  dsimp only
  rw [M.run_bind, e2]
  dsimp only
  rw [M.get_bind, hn]
  rw [if_pos (by rcases h.script with rfl | rfl <;> rfl), M.set_bind, M.run_bind]
  have e1'' : H.argument { s2 with content := { s2.content with cs := (other c :: r2).tail } } = .ok a' s0' := e1'
  rw [e1'']
  dsimp only
  rw [M.run_bind, e2']
  dsimp only
  rw [M.get_bind, hn3]
  rcases hc with rfl | rfl <;> rfl

theorem scripts_first_fails (h : AtScript s s1 c r) (h2 : ∀ s2, operand rec (past s1 r) ≠ .ok ⟨⟩ s2) (d : Option Desc) (s' : HSt) :
    scripts rec s ≠ .ok d s' := by
  intro hk
  rw [scripts_open h, M.run_bind] at hk
  unfold operand at h2
  simp only [M.run_bind] at h2
  cases ha : H.argument (past s1 r) with
  | ok a s0 =>
    rw [ha] at hk
    simp only [ha] at h2
    dsimp only at hk
    rw [M.run_bind] at hk
    cases hb : handleArgument rec a s0 with
    | ok u s2 => exact h2 s2 (by rw [hb])
    | err e s2 => rw [hb] at hk; cases hk
    | panic p => rw [hb] at hk; cases hk
  | err e s0 => rw [ha] at hk; cases hk
  | panic p => rw [ha] at hk; cases hk

theorem scripts_second_fails (h : AtScript s s1 c r) (h2 : operand rec (past s1 r) = .ok ⟨⟩ s2) {r2 : Str} (hn : s2.content.cs = other c :: r2)
    (h3 : ∀ s3, operand rec (past s2 r2) ≠ .ok ⟨⟩ s3) (d : Option Desc) (s' : HSt) : scripts rec s ≠ .ok d s' := by
  intro hk
  obtain ⟨a, s0, e1, e2⟩ := operand_ok h2
  rw [scripts_open h, M.run_bind, e1] at hk
  dsimp only at hk
  rw [M.run_bind, e2] at hk
  dsimp only at hk
  rw [M.get_bind, hn] at hk
  rw [if_pos (by rcases h.script with rfl | rfl <;> rfl), M.set_bind, M.run_bind] at hk
  unfold operand at h3
  simp only [M.run_bind] at h3
  have e : ({ s2 with content := { s2.content with cs := (other c :: r2).tail } } : HSt) = past s2 r2 := rfl
  rw [e] at hk
  cases ha : H.argument (past s2 r2) with
  | ok a s0 =>
    rw [ha] at hk
    simp only [ha] at h3
    dsimp only at hk
    rw [M.run_bind] at hk
    cases hb : handleArgument rec a s0 with
    | ok u s2 => exact h3 s2 (by rw [hb])
    | err e s2 => rw [hb] at hk; cases hk
    | panic p => rw [hb] at hk; cases hk
  | err e s0 => rw [ha] at hk; cases hk
  | panic p => rw [ha] at hk; cases hk

/-! ## C47: at most one script of each kind -/

/-- Scripts are attached to a base exactly in these ways: one script, or one of each kind, and then no further
script follows directly. -/
theorem C47_attached (rec : HTok → H PUnit) (s s' : HSt) (d : Desc) (h : scripts rec s = .ok (some d) s') :
    ∃ s1 c r s2, AtScript s s1 c r ∧ operand rec (past s1 r) = .ok ⟨⟩ s2 ∧ NoScriptNext s'.content.cs ∧
      (s' = s2 ∨ ∃ r2, s2.content.cs = other c :: r2 ∧ operand rec (past s2 r2) = .ok ⟨⟩ s') ∧
      d = descriptor c s'.pos s1.buf.length s2.buf.length s'.buf.length := by
  have h0 := h
  have hat : ∃ s1 c r, AtScript s s1 c r := by
    unfold scripts at h
    rw [M.get_bind] at h
    by_cases hk : s.skip = true
    · rw [if_pos hk] at h; cases h
    · rw [if_neg hk, M.run_bind] at h
      cases hl : limits s with
      | err e s0 => rw [hl] at h; cases h
      | panic p => rw [hl] at h; cases h
      | ok u s0 =>
        rw [hl] at h
        dsimp only at h
        rw [M.modify_bind, M.get_bind] at h
        cases hc : trimStart s0.content.cs with
        | nil => simp only [hc] at h; cases h
        | cons c r =>
          simp only [hc] at h
          by_cases hcc : c = '^' ∨ c = '_'
          · exact ⟨_, c, r, ⟨by simpa using hk, ⟨s0, hl, rfl⟩, hc, hcc⟩⟩
          · rw [if_neg (by simpa using hcc)] at h; cases h
  obtain ⟨s1, c, r, A⟩ := hat
  by_cases h2 : ∃ s2, operand rec (past s1 r) = .ok ⟨⟩ s2
  case neg => exact absurd h0 (scripts_first_fails A (fun s2 hs => h2 ⟨s2, hs⟩) _ _)
  obtain ⟨s2, h2⟩ := h2
  by_cases hn : NoScriptNext s2.content.cs
  · have := scripts_one A h2 hn
    rw [h0] at this
    cases this
    exact ⟨s1, c, r, _, A, h2, hn, .inl rfl, rfl⟩
  · have : ∃ x r2, s2.content.cs = x :: r2 ∧ (x = '^' ∨ x = '_') := by
      cases hs : s2.content.cs with
      | nil => rw [hs] at hn; exact absurd ⟨by simp, by simp⟩ hn
      | cons x r2 =>
        refine ⟨x, r2, rfl, Classical.byContradiction fun hx => hn ?_⟩
        rw [hs]
        simp only [not_or] at hx
        exact ⟨by simpa using hx.1, by simpa using hx.2⟩
    obtain ⟨x, r2, hs, hx⟩ := this
    have hxx : x = c ∨ x = other c := by
      unfold other
      rcases A.script with rfl | rfl <;> rcases hx with rfl | rfl <;> simp
    rcases hxx with rfl | rfl
    · have := scripts_same A h2 hs
      rw [h0] at this
      cases this
    · by_cases h3 : ∃ s3, operand rec (past s2 r2) = .ok ⟨⟩ s3
      case neg => exact absurd h0 (scripts_second_fails A h2 hs (fun s2 hs => h3 ⟨s2, hs⟩) _ _)
      obtain ⟨s3, h3⟩ := h3
      by_cases hn3 : NoScriptNext s3.content.cs
      · have := scripts_two A h2 hs h3 hn3
        rw [h0] at this
        cases this
        exact ⟨s1, c, r, s2, A, h2, hn3, .inr ⟨r2, hs, h3⟩, rfl⟩
      · have : ∃ x r2, s3.content.cs = x :: r2 ∧ (x = '^' ∨ x = '_') := by
          cases hs : s3.content.cs with
          | nil => rw [hs] at hn3; exact absurd ⟨by simp, by simp⟩ hn3
          | cons x r2 =>
            refine ⟨x, r2, rfl, Classical.byContradiction fun hx => hn3 ?_⟩
            rw [hs]
            simp only [not_or] at hx
            exact ⟨by simpa using hx.1, by simpa using hx.2⟩
        obtain ⟨x', r3, hs3, hx'⟩ := this
        have := scripts_third A h2 hs h3 hs3 hx'
        rw [h0] at this
        cases this

/-- A second script of the same kind directly after the first one is an error. -/
theorem C47_double_same (rec : HTok → H PUnit) (s s1 s2 : HSt) (c : Char) (r r2 : Str) (h : AtScript s s1 c r)
    (h2 : operand rec (past s1 r) = .ok ⟨⟩ s2) (hn : s2.content.cs = c :: r2) :
    scripts rec s = .err (if c = '_' then .doubleSubscript else .doubleSuperscript) s2 := scripts_same h h2 hn

/-- So is any script directly after one of each kind. -/
theorem C47_double_third (rec : HTok → H PUnit) (s s1 s2 s3 : HSt) (c c' : Char) (r r2 r3 : Str) (h : AtScript s s1 c r)
    (h2 : operand rec (past s1 r) = .ok ⟨⟩ s2) (hn : s2.content.cs = other c :: r2) (h3 : operand rec (past s2 r2) = .ok ⟨⟩ s3)
    (hn3 : s3.content.cs = c' :: r3) (hc : c' = '^' ∨ c' = '_') :
    scripts rec s = .err (if c' = '_' then .doubleSubscript else .doubleSuperscript) s3 := scripts_third h h2 hn h3 hn3 hc

/-- Cases of it on whole inputs. -/
example : ([c!"a^b^c", c!"a_b_c", c!"a_b^c_d", c!"a_b^c^d", c!"a^{b}_c^d", c!"a^b_c"].map fun i =>
    ((run cf0 60 (State.init i)).1.filterMap fun x => match x with | .ok _ => none | .err e _ => some e)) =
    [[.doubleSuperscript], [.doubleSubscript], [.doubleSubscript],
      [.doubleSuperscript], [.doubleSuperscript], []] := by decide +kernel

/-! ## C05: operands of scripts -/

theorem operand_ext {cf : Cfg} {n : Nat} {o : Sl} (hp : Pre false o s) (hn : s.len + 2 ≤ n) (h : operand (handleToken cf n) s = .ok ⟨⟩ s') :
    ∃ d, Ext false o s s' d ∧ s'.len ≤ s.len := by
  obtain ⟨a, s0, h1, h2⟩ := operand_ok h
  have ha := argument_spec (cf := cf) hp
  rw [h1] at ha
  obtain ⟨m1, m2, m3, m4, m5⟩ := ha
  have hl : s0.len ≤ s.len := by have := m1.len; omega
  have hb := handleArgument_spec (handleToken_ok cf false o n) (hp.next m1.ext) m2 (by omega)
  rw [h2] at hb
  obtain ⟨d, e1, -, -, -, -, e6⟩ := hb
  exact ⟨d, by simpa using m1.ext.trans e1, by omega⟩

theorem wf_past {s : HSt} {c : Char} {r : Str} (hw : s.content.wf) (h : s.content.cs = c :: r) : (past s r).content.wf :=
  (Sub.suffix (Sub.refl s.content) (h ▸ ⟨[c], rfl⟩)).wf hw

/-- The reordering itself, for every list of staged events and every place of the operands in it: with `base` before the
first operand and the operands written in either order, what is pushed is the script event, the base, the subscript and
the superscript, above what was on the stack. -/
theorem C05_reorder (base sub sup stack : List Instr) (ty : ScriptType) (pos : ScriptPos) :
    unstage (base ++ sub ++ sup) stack (some ⟨.script ty pos, base.length, (base ++ sub).length⟩) =
      .ok (.ev (.script ty pos) :: base ++ sub ++ sup ++ stack) ∧
    unstage (base ++ sup ++ sub) stack (some ⟨.script ty pos, (base ++ sup).length, base.length⟩) =
      .ok (.ev (.script ty pos) :: base ++ sub ++ sup ++ stack) := by
  rw [List.length_append, List.length_append]
  exact ⟨unstage_sub .., unstage_sup ..⟩

/-- Whenever scripts are attached: the operands only add to the staged base, `first` being what the first script of the
source adds and `second` what the second one adds, and the stack receives the script event, the base, the operand of
`_` and the operand of `^` in this order. -/
theorem C05_scripts (cf : Cfg) (n : Nat) (s s' : HSt) (d : Desc) (hw : s.content.wf) (hn : s.content.cs.length + 2 ≤ n)
    (h : scripts (handleToken cf n) s = .ok (some d) s') :
    ∃ s1 c r s2 first second, AtScript s s1 c r ∧ s1.buf = s.buf ∧
      operand (handleToken cf n) (past s1 r) = .ok ⟨⟩ s2 ∧ s2.buf = s.buf ++ first ∧
      (s' = s2 ∧ second = [] ∨ ∃ r2, s2.content.cs = other c :: r2 ∧
        operand (handleToken cf n) (past s2 r2) = .ok ⟨⟩ s' ∧ s'.buf = s2.buf ++ second) ∧
      ∀ stack, unstage s'.buf stack (some d) =
        .ok (.ev d.event :: s.buf ++ (if c = '_' then first ++ second else second ++ first) ++ stack) := by
  obtain ⟨s1, c, r, s2, A, h2, hn3, hsec, hd⟩ := C47_attached _ _ _ _ h
  have hp : Pre false s.content s := ⟨hw, Sub.refl _, fun h => by cases h⟩
  obtain ⟨s0, hl, rfl⟩ := A.mods
  have hs0 := limits_spec (cf := cf) hp
  rw [hl] at hs0
  obtain ⟨x1, -, x3, x4, -, -⟩ := hs0
  have hc := A.here
  dsimp only at hc
  have hsuf : r <:+ s0.content.cs := by
    have := trimStart_suffix s0.content.cs
    rw [hc] at this
    exact (List.suffix_cons c r).trans this
  have hp1 : Pre false s.content (past { s0 with content := { s0.content with cs := trimStart s0.content.cs } } r) :=
    ⟨hw, Sub.suffix x1.sub hsuf, fun h => by cases h⟩
  have hlen : r.length ≤ s.content.cs.length := Nat.le_trans hsuf.length_le x3
  obtain ⟨d1, e1, l1⟩ := operand_ext hp1 (Nat.le_trans (Nat.add_le_add_right hlen 2) hn) h2
  have b1 : s2.buf = s.buf ++ d1 := by rw [e1.buf]; exact congrArg (· ++ d1) x4
  rcases hsec with rfl | ⟨r2, hr2, h3⟩
  · refine ⟨_, c, r, s', d1, [], A, x4, h2, b1, .inl ⟨rfl, rfl⟩, fun stack => ?_⟩
    subst hd
    dsimp only
    rw [b1, x4]
    unfold descriptor
    split
    · have := unstage_sub s.buf d1 [] stack (.script .sub s'.pos)
      simpa using this
    · have := unstage_sup s.buf [] d1 stack (.script .sup s'.pos)
      simpa using this
  · have hp2 : Pre false s.content (past s2 r2) := ⟨hw, Sub.suffix e1.sub (hr2 ▸ List.suffix_cons _ _), fun h => by cases h⟩
    have hlen2 : r2.length ≤ r.length := by
      have : s2.content.cs.length ≤ r.length := l1
      rw [hr2] at this
      simp at this
      omega
    obtain ⟨d2, e2, -⟩ := operand_ext hp2 (Nat.le_trans (Nat.add_le_add_right (Nat.le_trans hlen2 hlen) 2) hn) h3
    have b2 : s'.buf = s2.buf ++ d2 := e2.buf
    refine ⟨_, c, r, s2, d1, d2, A, x4, h2, b1, .inr ⟨r2, hr2, h3, b2⟩, fun stack => ?_⟩
    subst hd
    dsimp only
    rw [b2, b1, x4]
    unfold descriptor
    split
    · have := unstage_sub s.buf d1 d2 stack (.script (if (s.buf ++ d1).length = (s.buf ++ d1 ++ d2).length then .sub else .subSup) s'.pos)
      simpa using this
    · have := unstage_sup s.buf d2 d1 stack (.script (if (s.buf ++ d1).length = (s.buf ++ d1 ++ d2).length then .sup else .subSup) s'.pos)
      simpa using this

/-- Both orders of the source give the same events. -/
example : (run cf0 60 (State.init c!"{ab}_c^{de}")).1 = (run cf0 60 (State.init c!"{ab}^{de}_c")).1 ∧
    (run cf0 60 (State.init c!"x^{de}_c")).1 = [.ok (.script .subSup .right), .ok (.content (.ordinary 'x' false)),
      .ok (.content (.ordinary 'c' false)), .ok (.begin_ .normal), .ok (.content (.ordinary 'd' false)),
      .ok (.content (.ordinary 'e' false)), .ok .end_] := by decide +kernel

end PL.Props
