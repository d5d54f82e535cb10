import Verif.Props.Defs
import Verif.Props.Macros
set_option autoImplicit false
/-!
# The command `\def` (C48)
-/
namespace PL.Props
open PL PL.Lex Spec PL.Macros

theorem definition_iff {s name pt rt r : Str} : definition s = .ok (name, pt, rt) r ↔ DefCommand s name pt rt r := by
  constructor
  · intro h
    unfold definition at h
    rw [M.run_bind] at h
    cases hc : controlSequence s with
    | err => rw [hc] at h; cases h
    | panic => rw [hc] at h; cases h
    | ok n u' =>
      rw [hc] at h
      dsimp only at h
      rw [M.get_bind] at h
      obtain ⟨g, v, rfl, h1, rfl⟩ := cs_start hc
      cases hs : splitOnce c!"{" (trimStart v) with
      | none => rw [hs] at h; cases h
      | some p =>
        obtain ⟨p, q⟩ := p
        rw [hs] at h
        dsimp only at h
        cases hf : p.find? (fun c => c == '%' || c == '}') with
        | some c => rw [hf] at h; cases h
        | none =>
          rw [hf] at h
          dsimp only at h
          rw [M.set_bind, M.run_bind] at h
          cases hg : groupContent .normal q with
          | err => rw [hg] at h; cases h
          | panic => rw [hg] at h; cases h
          | ok g2 r2 =>
            rw [hg] at h
            cases h
            obtain ⟨e1, e2⟩ := splitOnce_char hs
            obtain ⟨w, hw, e⟩ := trimStart_spec v
            rw [List.find?_eq_none] at hf
            refine ⟨g, w, q, rfl, by rw [← e1, ← e]; exact h1, hw, ?_, e2, ?_, ?_, (C12_split .normal q rt r).1 hg⟩
            · rintro c u rfl
              exact trimStart_head (r := u ++ '{' :: q) e1
            · intro hm; exact hf _ hm (by decide)
            · intro hm; exact hf _ hm (by decide)
  · rintro ⟨g, w, t, rfl, h1, hw, h2, h3, h4, h5, h6⟩
    have hc := (C14_name _ _ _).2 ⟨_, h1, rfl⟩
    rw [trimStart_ws_append hw, trimStart_eq_self (s := pt ++ '{' :: t) (by
      intro c u e
      cases pt with
      | nil => cases e; decide
      | cons d pt => cases e; exact h2 _ _ rfl)] at hc
    unfold definition
    rw [M.run_bind, hc]
    dsimp only
    rw [M.get_bind, splitOnce_char_eq h3]
    dsimp only
    have hf : pt.find? (fun c => c == '%' || c == '}') = none := by
      rw [List.find?_eq_none]
      intro c hm
      simp only [Bool.or_eq_true, beq_iff_eq, not_or]
      exact ⟨fun e => h5 (e ▸ hm), fun e => h4 (e ▸ hm)⟩
    rw [hf]
    dsimp only
    rw [M.set_bind, M.run_bind, (C12_split .normal t rt r).2 h6]
    rfl

theorem definition_sat (s : Str) : Sat (fun _ _ => True) (fun _ _ => True) (fun _ => False) (definition s) := by
  unfold definition
  refine Sat.bind (cs_sat s) fun n r _ => ?_
  rw [M.get_bind]
  cases splitOnce c!"{" r with
  | none => trivial
  | some p =>
    dsimp only
    cases p.1.find? (fun c => c == '%' || c == '}') with
    | some c => trivial
    | none =>
      dsimp only
      rw [M.set_bind, M.run_bind]
      cases hg : groupContent .normal p.2 with
      | ok => trivial
      | err => trivial
      | panic p => exact absurd hg (C12_no_panic _ _ _)

theorem primOf_def : primOf c!"def" = .def_ := by decide +kernel

theorem def_run (cf : Cfg) (k : Nat) (s : HSt) : handleToken cf (k + 1) (.cs c!"def") s = (do
    let (name, params, repl) ← H.lex definition
    H.setSkip
    H.macros fun m => define m name params repl : H PUnit) s := by
  show execPrim cf (handleToken cf k) (primOf c!"def") s = _
  rw [primOf_def]
  rfl

/-- `\def` succeeds exactly on the texts described by `DefCommand` whose parameter text and replacement text fit together:
it consumes that text, defines the macro, and does nothing else. -/
theorem C48_def (cf : Cfg) (k : Nat) (s s' : HSt) :
    handleToken cf (k + 1) (.cs c!"def") s = .ok ⟨⟩ s' ↔ ∃ name pt rt r m', DefCommand s.content.cs name pt rt r ∧
      define s.macros name pt rt = .ok m' ∧
      s' = { s with content := { s.content with cs := r }, skip := true, macros := m' } := by
  rw [def_run, M.run_bind]
  unfold H.lex
  constructor
  · intro h
    cases hl : definition s.content.cs with
    | ok p r =>
      obtain ⟨name, pt, rt⟩ := p
      rw [hl] at h
      dsimp only at h
      rw [M.run_bind] at h
      dsimp only [H.setSkip, M.modify] at h
      unfold H.macros at h
      dsimp only at h
      cases hd : define s.macros name pt rt with
      | ok m' =>
        rw [hd] at h
        cases h
        exact ⟨name, pt, rt, r, m', definition_iff.1 hl, hd, rfl⟩
      | error e => rw [hd] at h; cases e <;> cases h
    | err => rw [hl] at h; cases h
    | panic => rw [hl] at h; cases h
  · rintro ⟨name, pt, rt, r, m', h, hd, rfl⟩
    rw [definition_iff.2 h]
    dsimp only
    rw [M.run_bind]
    dsimp only [H.setSkip, M.modify]
    unfold H.macros
    dsimp only
    rw [hd]

/-- When parameter text and replacement text fit together, and that only the named macro changes. -/
theorem C48_effect (m : Ctx) (name pt rt : Str) :
    ((∃ m', define m name pt rt = .ok m') ↔ ∃ pre ds b, DefText pt pre ds b ∧ ReplText ds.length rt) ∧
    ∀ m', define m name pt rt = .ok m' → m'.get name ≠ none ∧ ∀ x, x ≠ name → m'.get x = m.get x := by
  refine ⟨C16_def_accepts m name pt rt, fun m' h => ?_⟩
  obtain ⟨pre, ds, b, hd⟩ := define_ok h
  rw [define_of hd] at h
  split at h
  · cases h
  · cases h
    exact ⟨by rw [get_insert]; exact Option.some_ne_none _, fun x hx => get_other hx⟩

theorem def_sat (s : HSt) : Sat (fun _ _ => True) (fun _ (s' : HSt) => s'.macros = s.macros) (fun _ => False) ((do
    let (name, params, repl) ← H.lex definition
    H.setSkip
    H.macros fun m => define m name params repl : H PUnit) s) := by
  have := definition_sat s.content.cs
  rw [M.run_bind]
  unfold H.lex
  cases hl : definition s.content.cs with
  | err => rfl
  | panic p => rw [hl] at this; exact this
  | ok p r =>
    dsimp only
    rw [M.run_bind]
    dsimp only [H.setSkip, M.modify]
    unfold H.macros
    dsimp only
    split
    · trivial
    · rfl
    · rename_i hd; exact absurd hd (C16_define_no_panic _ _ _ _ _)

/-- Failing, `\def` leaves all macros unchanged; it does not panic. -/
theorem C48_errors (cf : Cfg) (k : Nat) (s : HSt) :
    (∀ e s', handleToken cf (k + 1) (.cs c!"def") s = .err e s' → s'.macros = s.macros) ∧
    (∀ p, handleToken cf (k + 1) (.cs c!"def") s ≠ .panic p) := by
  have h := def_sat s
  rw [def_run]
  constructor
  · intro e s' h2; rw [h2] at h; exact h
  · intro p h2; rw [h2] at h; exact h

/-- A case: delimited parameters, nested braces. -/
example : DefCommand c!"\\a  x#1y#2{[#1{#2}]}z" c!"a" c!"x#1y#2" c!"[#1{#2}]" c!"z" := definition_iff.1 (by decide +kernel)
example : (run cf0 60 (State.init c!"\\def\\a  x#1y#2{[#1{#2}]}\\a xpyq")).1 =
    (run cf0 60 (State.init c!"[p{q}]")).1 := by decide +kernel
/-- Texts that are refused. -/
example : ([c!"\\a#1}{x}", c!"\\a%{x}", c!"a{x}", c!"\\a#1", c!"\\a{x"].map fun s => match definition s with
      | .err e _ => some e
      | _ => none) =
    [some .bracesInParamText, some .commentInParamText, some .controlSequence, some .missingExpansion,
      some (.unbalancedGroup (some .normal))] := by decide +kernel

end PL.Props
