import Verif.Spec.Clean
import Verif.Lemmas.Arg
import Verif.Lemmas.Monad
set_option autoImplicit false
/-!
# What every lexer function does to its input

The rest is a suffix of the input, on success and on failure, and panics come only from overflow checks or
characters of several bytes.
-/
namespace PL.Lex
open PL.Spec PL.Macros

/-- The panics that lexing can cause. -/
def LexPanic (cf : Cfg) (s : Str) (p : Panic) : Prop :=
  (p = .overflow ∧ cf.overflowChecks = true) ∨ (p = .sliceBoundary ∧ Wide s)

theorem _root_.PL.Spec.Wide.mono {r s : Str} (h : Wide r) (hs : ∀ c ∈ r, c ∈ s) : Wide s := by
  obtain ⟨c, hc, h⟩ := h
  exact ⟨c, hs c hc, h⟩

theorem LexPanic.mono {cf : Cfg} {r s : Str} {p : Panic} (h : LexPanic cf r p) (hs : ∀ c ∈ r, c ∈ s) :
    LexPanic cf s p := by
  rcases h with h | ⟨h1, h2⟩
  · exact .inl h
  · exact .inr ⟨h1, h2.mono hs⟩

/-- Lexing `s` leaves a suffix of `s`, or panics for one of the known reasons. -/
def Good {α : Type} (cf : Cfg) (s : Str) : Res Str α → Prop
  | .ok _ r => r <:+ s
  | .err _ r => r <:+ s
  | .panic p => LexPanic cf s p

variable {α β : Type} {cf : Cfg}

theorem Good.mono {r s : Str} (hs : r <:+ s) {o : Res Str α} (h : Good cf r o) : Good cf s o := by
  cases o with
  | ok => exact h.trans hs
  | err => exact h.trans hs
  | panic => exact LexPanic.mono h fun c hc => hs.subset hc

theorem Good.bind {m : L α} {f : α → L β} {s : Str} (h : Good cf s (m s))
    (hf : ∀ a r, m s = .ok a r → Good cf r (f a r)) : Good cf s ((m >>= f) s) := by
  rw [M.run_bind]
  cases hm : m s with
  | ok a r =>
    rw [hm] at h
    exact (hf a r hm).mono h
  | err => rw [hm] at h; exact h
  | panic => rw [hm] at h; exact h

theorem good_pure (a : α) (s : Str) : Good cf s ((pure a : L α) s) := List.suffix_refl s
theorem good_fail (e : ErrorKind) (s : Str) : Good cf s ((M.fail e : L α) s) := List.suffix_refl s

theorem good_token (s : Str) : Good cf s (token s) := by
  have h := token_spec s
  cases ho : token s with
  | ok t r =>
    rw [ho] at h
    cases h with
    | @chr k c r _ e => exact ⟨k ++ [c], by rw [e]; simp⟩
    | @cs k t n r hk e hn =>
      refine (trimStart_suffix r).trans ?_
      rw [e, hn.eq.1]
      exact ⟨k ++ '\\' :: n, by simp⟩
  | err e r =>
    rw [ho] at h
    cases h <;> exact List.nil_suffix
  | panic p => rw [ho] at h; cases h

theorem good_groupContent (k : GroupingKind) (s : Str) : Good cf s (groupContent k s) := by
  cases ho : groupContent k s with
  | ok g r => exact ⟨_, (groupContent_eq ho).symm⟩
  | err e r =>
    rcases (groupContent_err ho).2 with rfl | rfl
    · exact List.nil_suffix
    · exact List.suffix_refl _
  | panic p => exact absurd ho groupContent_no_panic

theorem good_rhs (s : Str) : Good cf s (rhsControlSequence s) := by
  cases ho : rhsControlSequence s with
  | ok n r =>
    obtain ⟨r', h1, rfl⟩ := rhs_ok.1 ho
    refine (trimStart_suffix r').trans ?_
    rw [h1.eq.1]
    exact ⟨_, rfl⟩
  | err e r => rw [(rhs_err.1 ho).2.2]; exact List.nil_suffix
  | panic p => exact absurd ho rhs_no_panic

theorem good_controlSequence (s : Str) : Good cf s (controlSequence s) := by
  unfold controlSequence
  split
  · exact (good_rhs _).mono (List.suffix_cons _ _)
  · exact List.suffix_refl _
  · exact List.suffix_refl _

theorem stripPrefix_suffix {p s r : Str} (h : stripPrefix p (trimStart s) = some r) : r <:+ s := by
  rw [stripPrefix_some] at h
  refine List.IsSuffix.trans ⟨p, ?_⟩ (trimStart_suffix s)
  rw [h]

theorem good_argument (s : Str) : Good cf s (argument s) := by
  unfold argument
  split
  · rename_i rest h
    exact (Good.bind (good_groupContent _ _) fun a r _ => good_pure _ _).mono (stripPrefix_suffix h)
  · exact Good.bind (good_token _) fun a r _ => good_pure _ _

theorem good_optionalArgument (s : Str) : Good cf s (optionalArgument s) := by
  unfold optionalArgument
  split
  · rename_i rest h
    have hg := good_groupContent (cf := cf) .optionalArgument rest
    have hs := stripPrefix_suffix h
    split
    · rename_i ho; rw [ho] at hg; exact List.IsSuffix.trans hg hs
    · rename_i ho; rw [ho] at hg; exact List.IsSuffix.trans hg hs
    · rename_i ho; exact absurd ho groupContent_no_panic
  · exact List.suffix_refl _

theorem good_braceArgument (s : Str) : Good cf s (braceArgument s) := by
  unfold braceArgument
  split
  · rename_i rest h
    exact (good_groupContent _ _).mono (stripPrefix_suffix h)
  · exact List.suffix_refl _

theorem good_definition (s : Str) : Good cf s (definition s) := by
  unfold definition
  refine Good.bind (good_controlSequence s) fun name r _ => ?_
  rw [M.get_bind]
  cases hsp : splitOnce ['{'] r with
  | none => exact good_fail _ _
  | some x =>
    obtain ⟨pt, rest⟩ := x
    dsimp only
    cases hf : pt.find? (fun c => c == '%' || c == '}') with
    | some c => exact good_fail _ _
    | none =>
      dsimp only
      rw [M.set_bind]
      have hs : rest <:+ r := ⟨pt ++ ['{'], (splitOnce_some hsp).symm⟩
      exact (Good.bind (good_groupContent _ _) fun a r _ => good_pure _ _).mono hs

/-- The suffix has at least two bytes, so the out-of-bounds panic is impossible. -/
theorem good_contentWithSuffix {d : Str} (hd : 1 < blen d) (s : Str) : Good cf s (contentWithSuffix d s) := by
  cases ho : contentWithSuffix d s with
  | ok g r =>
    have : ∀ {s g r}, Delimited d s g r → r <:+ s := by
      intro s g r h
      induction h with
      | found => exact ⟨d, rfl⟩
      | @comment line s a r _ _ _ ih => exact ih.trans ⟨'%' :: (line ++ ['\n']), by simp⟩
      | @escaped c s a r _ _ ih => exact ih.trans ⟨['\\', c], by simp⟩
      | @braces s g s' a r _ h1 _ ih =>
        refine ih.trans ⟨'{' :: (g ++ ['}']), ?_⟩
        rw [h1.eq]; simp
      | @char c s a r _ _ _ _ _ ih => exact ih.trans (List.suffix_cons _ _)
    exact this (contentWithSuffix_ok.1 ho)
  | err e r =>
    unfold contentWithSuffix at ho
    split at ho <;> cases ho
    · exact List.nil_suffix
    · exact List.suffix_refl _
  | panic p =>
    have := contentWithSuffix_panic (by rintro rfl; simp [blen] at hd) ho
    omega

theorem good_delimiter (s : Str) : Good cf s (delimiter s) := by
  unfold delimiter
  refine Good.bind (good_token s) fun t r _ => ?_
  cases tokenToDelim t with
  | some d => exact good_pure _ _
  | none => exact good_fail _ _

theorem good_letAssignment (s : Str) : Good cf s (letAssignment s) := by
  unfold letAssignment
  refine Good.bind (good_controlSequence s) fun name r _ => ?_
  rw [M.get_bind]
  cases h : stripPrefix ['='] (trimStart r) with
  | none =>
    exact Good.bind (good_token _) fun a r _ => good_pure _ _
  | some t =>
    dsimp only
    rw [M.set_bind]
    exact (Good.bind (good_token _) fun a r _ => good_pure _ _).mono (stripPrefix_suffix h)

theorem good_futureletAssignment (s : Str) : Good cf s (futureletAssignment s) := by
  unfold futureletAssignment
  refine Good.bind (good_controlSequence s) fun name r _ => ?_
  rw [M.get_bind]
  refine Good.bind (good_token _) fun _ r _ => ?_
  exact Good.bind (good_token _) fun a r _ => good_pure _ _

theorem good_oneOptionalSpace (s : Str) : Good cf s (oneOptionalSpace s) := by
  unfold oneOptionalSpace
  split
  · rename_i c r
    split
    · split
      · exact List.suffix_cons _ _
      · rename_i h
        exact .inr ⟨rfl, c, by simp, h⟩
    · exact List.suffix_refl _
  · exact List.suffix_refl _

theorem good_signs (s : Str) : Good cf s (signs s) :=
  (trimStart_suffix _).trans (List.dropWhile_suffix _)

theorem good_floatingPoint (s : Str) : Good cf s (floatingPoint s) := by
  unfold floatingPoint
  refine Good.bind (good_signs s) fun sg input _ => ?_
  rw [M.get_bind]
  have hd := List.dropWhile_suffix (l := input) isDigit
  generalize input.dropWhile isDigit = t at hd
  dsimp only
  cases t with
  | nil => exact hd
  | cons c r =>
    dsimp only
    by_cases hc : (decide (c = '.') || decide (c = ',')) = true
    · rw [if_pos hc]
      exact (List.dropWhile_suffix _).trans ((List.suffix_cons _ _).trans hd)
    · rw [if_neg hc]
      exact hd

theorem good_dimensionUnit (s : Str) : Good cf s (dimensionUnit s) := by
  unfold dimensionUnit
  rw [M.modify_bind, M.get_bind]
  refine Good.mono (trimStart_suffix s) ?_
  generalize trimStart s = t
  cases t with
  | nil => exact good_fail _ _
  | cons a t =>
    cases t with
    | nil => exact good_fail _ _
    | cons b r =>
      dsimp only
      cases unitOf a b with
      | none => exact good_fail _ _
      | some u =>
        dsimp only
        rw [M.set_bind]
        refine Good.mono (r := r) ⟨[a, b], rfl⟩ ?_
        exact Good.bind (good_oneOptionalSpace _) fun a r _ => good_pure _ _

theorem good_dimension (s : Str) : Good cf s (dimension s) := by
  unfold dimension
  refine Good.bind (good_floatingPoint s) fun n r _ => ?_
  exact Good.bind (good_dimensionUnit _) fun a r _ => good_pure _ _

theorem good_glueTail (kw s : Str) : Good cf s (glueTail kw s) := by
  unfold glueTail
  rw [M.get_bind]
  cases h : stripPrefix kw (trimStart s) with
  | none => exact good_pure _ _
  | some t =>
    dsimp only
    rw [M.set_bind]
    exact (Good.bind (good_dimension _) fun a r _ => good_pure _ _).mono (stripPrefix_suffix h)

theorem good_glue (s : Str) : Good cf s (glue s) := by
  unfold glue
  refine Good.bind (good_dimension s) fun n r _ => ?_
  refine Good.bind (good_glueTail _ _) fun n r _ => ?_
  exact Good.bind (good_glueTail _ _) fun a r _ => good_pure _ _

theorem braceArgument_eq {s g r : Str} (h : braceArgument s = .ok g r) :
    ∃ w, AllWs w ∧ s = w ++ '{' :: (g ++ '}' :: r) := by
  unfold braceArgument at h
  split at h
  · rename_i rest hr
    rw [stripPrefix_some] at hr
    obtain ⟨w, hw, e⟩ := trimStart_spec s
    refine ⟨w, hw, ?_⟩
    rw [e, hr, groupContent_eq h]
    simp [GroupingKind.closingStr]
  · cases h

theorem good_orBraced {m : L α} (hm : ∀ s, Good cf s (m s)) (s : Str) : Good cf s (orBraced m s) := by
  unfold orBraced
  rw [M.get_bind]
  by_cases hb : startsWith ['{'] (trimStart s) = true
  · rw [if_pos hb]
    have hg := good_braceArgument (cf := cf) s
    rw [M.run_bind]
    cases hbr : braceArgument s with
    | err => rw [hbr] at hg; exact hg
    | panic => rw [hbr] at hg; exact hg
    | ok g r =>
      rw [hbr] at hg
      dsimp only
      rw [M.run_bind]
      unfold onInner
      have hin := hm g
      cases hmg : m g with
      | err => exact hg
      | panic p =>
        rw [hmg] at hin
        refine LexPanic.mono hin fun c hc => ?_
        obtain ⟨w, _, e⟩ := braceArgument_eq hbr
        rw [e]; simp [hc]
      | ok a left =>
        dsimp only
        by_cases hl : (!(trimStart left).isEmpty) = true
        · rw [if_pos hl]; exact hg
        · rw [if_neg hl]; exact hg
  · rw [if_neg hb]; exact hm s

theorem good_dimensionOrBraced (s : Str) : Good cf s (dimensionOrBraced s) := good_orBraced good_dimension s
theorem good_glueOrBraced (s : Str) : Good cf s (glueOrBraced s) := good_orBraced good_glue s

theorem usizeDigits_err {b : Nat} {val : Char → Nat} : ∀ {n : Nat} {ds : Str} {p : Panic},
    usizeDigits cf b val n ds = .error p → p = .overflow ∧ cf.overflowChecks = true
  | _, [], _, h => by simp [usizeDigits] at h
  | n, c :: ds, p, h => by
    unfold usizeDigits at h
    dsimp only at h
    split at h
    · exact usizeDigits_err h
    · split at h
      · rename_i h'
        cases h
        exact ⟨rfl, h'⟩
      · exact usizeDigits_err h

theorem good_radix (b : Nat) (p : Char → Bool) (val : Char → Nat) (s : Str) : Good cf s (radix cf b p val s) := by
  unfold radix
  split
  · rename_i e h
    exact .inl (usizeDigits_err h)
  · exact (Good.bind (good_oneOptionalSpace _) fun a r _ => good_pure _ _).mono (List.dropWhile_suffix _)

theorem good_charCode (s : Str) : Good cf s (charCode s) := by
  unfold charCode
  split
  · exact List.suffix_refl _
  · split
    · exact List.suffix_cons _ _
    · rename_i c r'
      split
      · exact ⟨['\\', c], rfl⟩
      · exact ⟨['\\'], rfl⟩
  · split
    · exact List.suffix_cons _ _
    · exact List.suffix_refl _

theorem good_unsignedInteger (s : Str) : Good cf s (unsignedInteger cf s) := by
  unfold unsignedInteger
  split
  · exact List.suffix_refl _
  · rename_i c r
    split
    · exact good_radix _ _ _ _
    · split
      · rename_i h
        exact .inr ⟨rfl, c, by simp, h⟩
      · split
        · exact (good_charCode _).mono (List.suffix_cons _ _)
        · split
          · exact (good_radix _ _ _ _).mono (List.suffix_cons _ _)
          · split
            · exact (good_radix _ _ _ _).mono (List.suffix_cons _ _)
            · exact List.suffix_cons _ _

theorem limitStep_suffix {s r : Str} {b : Bool} (h : limitStep s = some (r, b)) : r <:+ s := by
  unfold limitStep at h
  cases h1 : stripPrefix c!"\\limits" (trimStart s) with
  | some t => rw [h1] at h; cases h; exact stripPrefix_suffix h1
  | none =>
    rw [h1] at h
    cases h2 : stripPrefix c!"\\nolimits" (trimStart s) with
    | some t => rw [h2] at h; cases h; exact stripPrefix_suffix h2
    | none => rw [h2] at h; cases h

theorem limitLoop_suffix : ∀ (n : Nat) (o : Option Bool) (s : Str), (limitLoop n o s).2 <:+ s
  | 0, _, _ => List.suffix_refl _
  | n + 1, o, s => by
    unfold limitLoop
    cases h : limitStep s with
    | none => exact List.suffix_refl _
    | some x => exact (limitLoop_suffix n _ _).trans (limitStep_suffix h)

theorem limitModifiers_suffix (s : Str) : (limitModifiers s).2 <:+ s := limitLoop_suffix _ _ _

theorem lineStep_suffix {s r : Str} {b : Line} (h : lineStep s = some (r, b)) : r <:+ s := by
  unfold lineStep at h
  cases h1 : stripPrefix c!"\\hline" (trimStart s) with
  | some t => rw [h1] at h; cases h; exact stripPrefix_suffix h1
  | none =>
    rw [h1] at h
    cases h2 : stripPrefix c!"\\hdashline" (trimStart s) with
    | some t => rw [h2] at h; cases h; exact stripPrefix_suffix h2
    | none => rw [h2] at h; cases h

theorem linesLoop_suffix : ∀ (n : Nat) (s : Str), (linesLoop n s).2 <:+ s
  | 0, _ => List.suffix_refl _
  | n + 1, s => by
    unfold linesLoop
    cases h : lineStep s with
    | none => exact List.suffix_refl _
    | some x => exact (linesLoop_suffix n _).trans (lineStep_suffix h)

theorem horizontalLines_suffix (s : Str) : (horizontalLines s).2 <:+ s := linesLoop_suffix _ _

end PL.Lex
