import Verif.Lemmas.LexSuffix
set_option autoImplicit false
/-!
# The numbers in errors

Two kinds of errors carry numbers. They come from definitions only, and the numbers are small.
-/
namespace PL
open Lex Macros

/-- The numbers of an error are small. -/
def ErrFits : ErrorKind → Prop
  | .incorrectMacroParams a b | .incorrectReplacementParams a b => a < 1000 ∧ b < 1000
  | _ => True

variable {α β : Type} {cf : Cfg}

/-- The errors of a lexer. -/
def Calm (m : L α) : Prop := ∀ s, match m s with | .err e _ => ErrFits e | _ => True

theorem Calm.err {m : L α} (h : Calm m) {s r : Str} {e : ErrorKind} (he : m s = .err e r) : ErrFits e := by
  have := h s
  rw [he] at this
  exact this

theorem Calm.of {m : L α} (h : ∀ s e r, m s = .err e r → ErrFits e) : Calm m := by
  intro s
  cases he : m s with
  | err e r => exact h s e r he
  | ok => exact trivial
  | panic => exact trivial

theorem Calm.bind {m : L α} {f : α → L β} (h : Calm m) (hf : ∀ a, Calm (f a)) : Calm (m >>= f) := by
  intro s
  rw [M.run_bind]
  have h1 := h s
  cases hm : m s with
  | ok a r => exact hf a r
  | err e r => rw [hm] at h1; exact h1
  | panic p => exact trivial

theorem Calm.pure (a : α) : Calm (Pure.pure a : L α) := fun _ => trivial
theorem Calm.get : Calm (M.get : L Str) := fun _ => trivial
theorem Calm.set (s : Str) : Calm (M.set s : L PUnit) := fun _ => trivial
theorem Calm.modify (f : Str → Str) : Calm (M.modify f : L PUnit) := fun _ => trivial
theorem Calm.fail {e : ErrorKind} (h : ErrFits e) : Calm (M.fail e : L α) := fun _ => h
theorem Calm.boom (p : Panic) : Calm (M.boom p : L α) := fun _ => trivial
theorem Calm.ite {c : Prop} [Decidable c] {a b : L α} (h1 : Calm a) (h2 : Calm b) : Calm (if c then a else b) := by
  split
  · exact h1
  · exact h2

theorem calm_rhs : Calm rhsControlSequence := by
  refine Calm.of fun s e r h => ?_
  unfold rhsControlSequence at h
  split at h
  · cases h; exact trivial
  · dsimp only at h
    split at h <;> cases h

theorem calm_controlSequence : Calm controlSequence := by
  refine Calm.of fun s e r h => ?_
  unfold controlSequence at h
  split at h
  · exact calm_rhs.err h
  · cases h; exact trivial
  · cases h; exact trivial

theorem calm_token : Calm token := by
  refine Calm.of fun s e r h => ?_
  have := token_spec s
  rw [h] at this
  cases this <;> exact trivial

theorem calm_groupContent (k : GroupingKind) : Calm (groupContent k) := by
  refine Calm.of fun s e r h => ?_
  unfold groupContent at h
  split at h <;> cases h <;> exact trivial

theorem calm_argument : Calm argument := by
  refine Calm.of fun s e r h => ?_
  unfold argument at h
  split at h
  · exact (Calm.bind (calm_groupContent _) fun _ => Calm.pure _).err h
  · exact (Calm.bind calm_token fun _ => Calm.pure _).err h

theorem calm_optionalArgument : Calm optionalArgument := by
  refine Calm.of fun s e r h => ?_
  unfold optionalArgument at h
  split at h
  · split at h <;> cases h
  · cases h

theorem calm_braceArgument : Calm braceArgument := by
  refine Calm.of fun s e r h => ?_
  unfold braceArgument at h
  split at h
  · exact (calm_groupContent _).err h
  · cases h; exact trivial

theorem calm_definition : Calm definition := by
  refine Calm.bind calm_controlSequence fun name => Calm.bind Calm.get fun input => ?_
  split
  · exact Calm.fail trivial
  · split
    · refine Calm.fail ?_
      split <;> exact trivial
    · exact Calm.bind (Calm.set _) fun _ => Calm.bind (calm_groupContent _) fun _ => Calm.pure _

theorem suffixLoop_calm {d : Str} : ∀ (n : Nat) (b : Bool) (acc rem : Str) (e : ErrorKind), suffixLoop d n b acc rem = .inner e → ErrFits e
  | 0, _, _, _, _, h => by cases h
  | n + 1, b, acc, rem, e, h => by
    have ih := suffixLoop_calm (d := d) n
    unfold suffixLoop at h
    split at h
    · cases h
    · split at h
      · split at h
        · cases h
        · split at h
          · exact ih _ _ _ _ h
          · split at h
            · split at h
              · cases h
              · exact ih _ _ _ _ h
            · split at h
              · split at h
                · exact ih _ _ _ _ h
                · rename_i hg; cases h; exact (calm_groupContent _).err hg
                · cases h
              · exact ih _ _ _ _ h
      · cases h

theorem calm_contentWithSuffix (d : Str) : Calm (contentWithSuffix d) := by
  refine Calm.of fun s e r h => ?_
  unfold contentWithSuffix at h
  split at h
  · cases h
  · cases h; exact trivial
  · rename_i hs; cases h; exact suffixLoop_calm _ _ _ _ _ hs
  · cases h

theorem calm_delimiter : Calm delimiter := by
  refine Calm.bind calm_token fun t => ?_
  split
  · exact Calm.pure _
  · exact Calm.fail trivial

theorem calm_futurelet : Calm futureletAssignment :=
  Calm.bind calm_controlSequence fun _ => Calm.bind Calm.get fun _ => Calm.bind calm_token fun _ => Calm.bind calm_token fun _ => Calm.pure _

theorem calm_let : Calm letAssignment := by
  refine Calm.bind calm_controlSequence fun _ => Calm.bind Calm.get fun _ => ?_
  split
  · exact Calm.bind (Calm.set _) fun _ => Calm.bind calm_token fun _ => Calm.pure _
  · exact Calm.bind calm_token fun _ => Calm.pure _

theorem calm_oneOptionalSpace : Calm oneOptionalSpace := by
  refine Calm.of fun s e r h => ?_
  unfold oneOptionalSpace at h
  split at h
  · split at h
    · split at h <;> cases h
    · cases h
  · cases h

theorem calm_floatingPoint : Calm floatingPoint := by
  refine Calm.bind (fun _ => trivial) fun sg => Calm.bind Calm.get fun input => ?_
  dsimp only
  split
  · exact Calm.ite (Calm.bind (Calm.set _) fun _ => Calm.pure _) (Calm.bind (Calm.set _) fun _ => Calm.pure _)
  · exact Calm.bind (Calm.set _) fun _ => Calm.pure _

theorem calm_dimensionUnit : Calm dimensionUnit := by
  refine Calm.bind (Calm.modify _) fun _ => Calm.bind Calm.get fun input => ?_
  split
  · split
    · exact Calm.bind (Calm.set _) fun _ => Calm.bind calm_oneOptionalSpace fun _ => Calm.pure _
    · exact Calm.fail trivial
  · exact Calm.fail trivial

theorem calm_dimension : Calm dimension :=
  Calm.bind calm_floatingPoint fun _ => Calm.bind calm_dimensionUnit fun _ => Calm.pure _

theorem calm_glueTail (kw : Str) : Calm (glueTail kw) := by
  refine Calm.bind Calm.get fun input => ?_
  split
  · exact Calm.bind (Calm.set _) fun _ => Calm.bind calm_dimension fun _ => Calm.pure _
  · exact Calm.pure _

theorem calm_glue : Calm glue :=
  Calm.bind calm_dimension fun _ => Calm.bind (calm_glueTail _) fun _ => Calm.bind (calm_glueTail _) fun _ => Calm.pure _

theorem calm_orBraced {m : L α} (hm : Calm m) : Calm (orBraced m) := by
  refine Calm.bind Calm.get fun input => Calm.ite ?_ hm
  refine Calm.bind calm_braceArgument fun inner => Calm.bind (Calm.of fun s e r h => ?_) fun x => ?_
  · unfold onInner at h
    split at h
    · cases h
    · rename_i he; cases h; exact hm.err he
    · cases h
  · exact Calm.ite (Calm.fail trivial) (Calm.pure _)

theorem calm_radix (b : Nat) (p : Char → Bool) (val : Char → Nat) : Calm (radix cf b p val) := by
  refine Calm.of fun s e r h => ?_
  unfold radix at h
  split at h
  · cases h
  · exact (Calm.bind calm_oneOptionalSpace fun _ => Calm.pure _).err h

theorem calm_charCode : Calm charCode := by
  refine Calm.of fun s e r h => ?_
  unfold charCode at h
  split at h
  · cases h; exact trivial
  · split at h
    · cases h; exact trivial
    · split at h <;> cases h; exact trivial
  · split at h <;> cases h; exact trivial

theorem calm_unsignedInteger : Calm (unsignedInteger cf) := by
  refine Calm.of fun s e r h => ?_
  unfold unsignedInteger at h
  split at h
  · cases h; exact trivial
  · split at h
    · exact (calm_radix _ _ _).err h
    · split at h
      · cases h
      · split at h
        · exact calm_charCode.err h
        · split at h
          · exact (calm_radix _ _ _).err h
          · split at h
            · exact (calm_radix _ _ _).err h
            · cases h; exact trivial

/-! ### Macros -/

theorem calm_macroArgs (lb : Bool) : ∀ ps, Calm (macroArgs lb ps)
  | [] => fun _ => trivial
  | p :: ps => by
    have ih := calm_macroArgs lb ps
    refine Calm.of fun s e r h => ?_
    unfold macroArgs at h
    split at h
    · split at h <;> cases h; exact trivial
    · split at h
      · exact (Calm.bind calm_argument fun _ => Calm.bind ih fun _ => Calm.pure _).err h
      · exact (Calm.bind (calm_contentWithSuffix _) fun _ => Calm.bind ih fun _ => Calm.pure _).err h

theorem calm_commandArgs : ∀ n, Calm (commandArgs n)
  | 0 => fun _ => trivial
  | n + 1 => Calm.bind calm_argument fun _ => Calm.bind (calm_commandArgs n) fun _ => Calm.pure _

theorem finish_calm {m : L (List XArg)} (hm : Calm m) {input s : Str} {repl : List RTok} {e : ErrorKind} (h : finish input repl (m s) = .err e) : ErrFits e := by
  cases he : m s with
  | ok as r =>
    rw [he] at h
    simp only [finish] at h
    split at h <;> cases h
  | err e' r => rw [he] at h; cases h; exact hm.err he
  | panic p => rw [he] at h; cases h

theorem tryExpand_calm {m : Ctx} {name input : Str} {e : ErrorKind} (h : tryExpand cf m name input = some (.err e)) : ErrFits e := by
  unfold tryExpand at h
  cases hd : m.get name with
  | none => rw [hd] at h; cases h
  | some d =>
    rw [hd] at h
    simp only [Option.map_some, Option.some.injEq] at h
    unfold expandDefinition at h
    split at h
    · split at h
      · exact finish_calm (calm_macroArgs _ _) h
      · split at h
        · cases h; exact trivial
        · exact finish_calm (calm_macroArgs _ _) h
    · cases h
    · cases h
    · split at h
      · exact finish_calm (calm_commandArgs _) h
      · refine finish_calm (Calm.bind calm_optionalArgument fun _ => Calm.ite (Calm.boom _) (Calm.bind (calm_commandArgs _) fun _ => Calm.pure _)) h

theorem digitVal_lt {c : Char} (h : isDigit c = true) : digitVal c < 1000 := by
  unfold isDigit at h
  unfold digitVal
  simp at h
  omega

theorem replLoop_calm {k : Nat} (hk : k < 1000) : ∀ (n : Nat) (done : List RTok) (ss : List Str) (e : ErrorKind), replLoop k n done ss = .error (.inl e) → ErrFits e
  | 0, _, _, _, h => by cases h
  | n + 1, done, [], e, h => by cases h
  | n + 1, done, split :: more, e, h => by
    have ih := replLoop_calm hk n
    unfold replLoop at h
    split at h
    · split at h
      · cases h
      · split at h
        · cases h
        · cases h; exact trivial
    · split at h
      · cases h
      · split at h
        · exact ih _ _ _ h
        · split at h
          · rename_i hd
            dsimp only at h
            split at h
            · cases h; exact ⟨digitVal_lt hd, hk⟩
            · exact ih _ _ _ h
          · cases h; exact trivial

theorem parseParams_calm : ∀ (i : Nat) (ss : List Str) (e : ErrorKind), parseParams i ss = .error e → ErrFits e
  | _, [], _, h => by cases h
  | i, s :: more, e, h => by
    have ih := parseParams_calm (i + 1) more
    unfold parseParams at h
    split at h
    · cases h; exact trivial
    · split at h
      · rename_i hd
        split at h
        · cases h; exact ⟨digitVal_lt hd, by omega⟩
        · split at h
          · cases h
          · rename_i he; cases h; exact ih _ he
      · cases h; exact trivial

theorem define_calm {m : Ctx} {name p r : Str} {e : ErrorKind} (h : define m name p r = .error (.inl e)) : ErrFits e := by
  unfold define at h
  dsimp only at h
  split at h
  · cases h
  · split at h
    · rename_i he; cases h; exact parseParams_calm _ _ _ he
    · split at h
      · rename_i he; cases h; exact replLoop_calm (by omega) _ _ _ _ he
      · cases h

theorem insertCommand_calm {m : Ctx} {name r : Str} {d : Option Str} {k : Nat} (hk : k < 1000) {e : ErrorKind}
    (h : insertCommand m name k d r = .error (.inl e)) : ErrFits e := by
  unfold insertCommand at h
  split at h
  · rename_i he; cases h; exact replLoop_calm hk _ _ _ _ he
  · cases h

end PL
