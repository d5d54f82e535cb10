import Verif.Lemmas.Lex
import Verif.Spec.Macro
import Verif.Model.Macros
set_option autoImplicit false
/-! # Lemmas on macro definitions and expansions -/
namespace PL.Macros
open PL.Spec PL.Lex

/-! ### Replacement texts -/

/-- The replacement text as a sequence of characters and parameter numbers. -/
inductive PT (n : Nat) : Str → List (Char ⊕ Nat) → Prop
  | nil : PT n [] []
  | hash {s f} : PT n s f → PT n ('#' :: '#' :: s) (.inl '#' :: f)
  | param {i s f} : 1 ≤ i → i ≤ n → i ≤ 9 → PT n s f → PT n ('#' :: paramDigit i :: s) (.inr i :: f)
  | char {c s f} : c ≠ '#' → PT n s f → PT n (c :: s) (.inl c :: f)

/-- Tokens of a replacement, flattened. -/
def flat : List RTok → List (Char ⊕ Nat)
  | [] => []
  | .param i :: r => .inr i :: flat r
  | .str s :: r => s.map .inl ++ flat r

@[simp] theorem flat_append (a b : List RTok) : flat (a ++ b) = flat a ++ flat b := by
  induction a with
  | nil => rfl
  | cons x a ih => cases x <;> simp [flat, ih]

theorem paramDigit_cases {i : Nat} (h : i ≤ 9) : i = 0 ∨ i = 1 ∨ i = 2 ∨ i = 3 ∨ i = 4 ∨ i = 5 ∨ i = 6 ∨
    i = 7 ∨ i = 8 ∨ i = 9 := by omega

theorem paramDigit_ne_hash {i : Nat} (h : i ≤ 9) : paramDigit i ≠ '#' := by
  rcases paramDigit_cases h with h | h | h | h | h | h | h | h | h | h <;> subst h <;> decide

theorem paramDigit_isDigit {i : Nat} (h : i ≤ 9) : isDigit (paramDigit i) = true := by
  rcases paramDigit_cases h with h | h | h | h | h | h | h | h | h | h <;> subst h <;> decide

theorem digitVal_paramDigit {i : Nat} (h : i ≤ 9) : digitVal (paramDigit i) = i := by
  rcases paramDigit_cases h with h | h | h | h | h | h | h | h | h | h <;> subst h <;> decide

theorem digit_eq {c : Char} (h : isDigit c = true) : digitVal c ≤ 9 ∧ c = paramDigit (digitVal c) := by
  simp only [isDigit, Bool.and_eq_true, decide_eq_true_eq] at h
  refine ⟨by unfold digitVal; omega, ?_⟩
  unfold paramDigit digitVal
  rw [show 48 + (c.toNat - 48) = c.toNat by omega, Char.ofNat_toNat]

theorem PT_plain {n : Nat} {u : Str} (hu : '#' ∉ u) : ∀ {s f}, PT n (u ++ s) f ↔
    ∃ f', f = u.map .inl ++ f' ∧ PT n s f' := by
  induction u with
  | nil => intro s f; simp
  | cons c u ih =>
    intro s f
    simp at hu
    constructor
    · intro h
      generalize hx : c :: u ++ s = x at h
      cases h with
      | nil => cases hx
      | hash => injection hx with hx; exact absurd hx.symm hu.1
      | param => injection hx with hx; exact absurd hx.symm hu.1
      | char h1 h2 =>
        cases hx
        obtain ⟨f', e, h⟩ := (ih hu.2).1 h2
        exact ⟨f', by simp [e], h⟩
    · rintro ⟨f', rfl, h⟩
      exact PT.char (fun e => hu.1 e.symm) ((ih hu.2).2 ⟨f', rfl, h⟩)

/-- What `split_inclusive` yields: every piece but the last ends with the only `#` in it. -/
inductive Pieces : List Str → Prop
  | nil : Pieces []
  | last {u} : '#' ∉ u → Pieces [u]
  | lastHash {u} : '#' ∉ u → Pieces [u ++ ['#']]
  | cons {u x xs} : '#' ∉ u → x ≠ [] → Pieces (x :: xs) → Pieces ((u ++ ['#']) :: x :: xs)

theorem splitInclusive_ne (s : Str) : ∀ x ∈ splitInclusive s, x ≠ [] := by
  induction s with
  | nil => simp [splitInclusive]
  | cons c s ih =>
    unfold splitInclusive
    split
    · simp; exact fun x hx => ih x hx
    · split
      · simp
      · rename_i x xs hx
        rw [hx] at ih
        simp at ih ⊢
        exact ih.2

theorem splitInclusive_flatten (s : Str) : (splitInclusive s).flatten = s := by
  induction s with
  | nil => rfl
  | cons c s ih =>
    unfold splitInclusive
    split
    · simp [ih]
    · split <;> rename_i hx <;> rw [hx] at ih <;> simp_all

theorem splitInclusive_pieces (s : Str) : Pieces (splitInclusive s) := by
  induction s with
  | nil => exact .nil
  | cons c s ih =>
    have hne := splitInclusive_ne s
    unfold splitInclusive
    split
    · rename_i hc
      subst hc
      cases hx : splitInclusive s with
      | nil => exact Pieces.lastHash (u := []) (by simp)
      | cons x xs =>
        rw [hx] at ih hne
        exact Pieces.cons (u := []) (by simp) (hne x (by simp)) ih
    · rename_i hc
      have hc' : '#' ≠ c := fun e => hc e.symm
      cases hx : splitInclusive s with
      | nil => exact Pieces.last (by simpa using hc')
      | cons x xs =>
        rw [hx] at ih
        simp only
        cases ih with
        | last hu => exact .last (by simp [hu, hc'])
        | @lastHash u hu => exact Pieces.lastHash (u := c :: u) (by simp [hu, hc'])
        | @cons u _ _ hu h1 h2 => exact Pieces.cons (u := c :: u) (by simp [hu, hc']) h1 h2

theorem Pieces.tail {c : Char} {t : Str} {xs : List Str} (hc : c ≠ '#') (h : Pieces ((c :: t) :: xs)) :
    Pieces (t :: xs) := by
  generalize hy : (c :: t) :: xs = y at h
  cases h with
  | nil => cases hy
  | last hu => cases hy; exact .last (by simp at hu; exact hu.2)
  | @lastHash u hu =>
    cases u with
    | nil => cases hy; exact absurd rfl hc
    | cons d u => cases hy; exact .lastHash (by simp at hu; exact hu.2)
  | @cons u x xs hu h1 h2 =>
    cases u with
    | nil => cases hy; exact absurd rfl hc
    | cons d u => cases hy; exact .cons (by simp at hu; exact hu.2) h1 h2

theorem replLoop_spec (n : Nat) : ∀ (fuel : Nat) (done : List RTok) (sp : List Str), Pieces sp →
    sp.length < fuel →
    match replLoop n fuel done sp with
    | .ok out => ∃ toks, out = done.reverse ++ toks ∧ PT n sp.flatten (flat toks)
    | .error (.inl _) => ∀ f, ¬ PT n sp.flatten f
    | .error (.inr _) => False
  | 0, _, _, _, h => by omega
  | fuel + 1, done, sp, hp, hl => by
    cases sp with
    | nil => exact ⟨[], by simp, .nil⟩
    | cons split more =>
      cases hp with
      | last hu =>
        unfold replLoop
        simp only
        by_cases h1 : split = []
        · subst h1
          exact ⟨[], by simp, .nil⟩
        · rw [if_neg (by simpa using h1), if_pos]
          · refine ⟨[.str split], by simp, ?_⟩
            simp [flat]
            have := (PT_plain (n := n) hu (s := []) (f := split.map .inl)).2 ⟨[], by simp, .nil⟩
            simpa using this
          · intro e
            exact hu (List.mem_of_getLast? e)
      | @lastHash u hu =>
        unfold replLoop
        simp only
        rw [if_neg (by simp), if_neg (by simp)]
        intro f h
        simp only [List.flatten_cons, List.flatten_nil, List.append_nil] at h
        obtain ⟨f', -, h⟩ := (PT_plain hu).1 h
        generalize hx : ['#'] = x at h
        cases h with
        | nil => cases hx
        | hash => cases hx
        | param => cases hx
        | char h1 => cases hx; exact h1 rfl
      | @cons u next more' hu hne hp' =>
        unfold replLoop
        simp only
        cases next with
        | nil => exact absurd rfl hne
        | cons first nextTail =>
          simp only
          by_cases h1 : first = '#'
          · subst h1
            rw [if_pos rfl]
            -- the next piece is `#` alone
            obtain ⟨h2, h3⟩ : nextTail = [] ∧ Pieces more' := by
              generalize hy : ('#' :: nextTail) :: more' = y at hp'
              cases hp' with
              | nil => cases hy
              | last hu => cases hy; simp at hu
              | @lastHash v hv =>
                cases v with
                | nil => cases hy; exact ⟨rfl, .nil⟩
                | cons d v => cases hy; simp at hv
              | @cons v x xs hv h1 h2 =>
                cases v with
                | nil => cases hy; exact ⟨rfl, h2⟩
                | cons d v => cases hy; simp at hv
            subst h2
            have ih := replLoop_spec n fuel (.str (u ++ ['#']) :: done) more' h3 (by simp at hl; omega)
            split at ih
            · rename_i out ho
              obtain ⟨toks, e, h⟩ := ih
              refine ⟨.str (u ++ ['#']) :: toks, by simp [e], ?_⟩
              simp [flat]
              refine (PT_plain hu).2 ⟨.inl '#' :: flat toks, by simp, ?_⟩
              exact .hash h
            · rename_i e ho
              intro f h
              simp only [List.flatten_cons, List.append_assoc] at h
              obtain ⟨f', -, h⟩ := (PT_plain hu).1 h
              generalize hx : ['#'] ++ (['#'] ++ more'.flatten) = x at h
              cases h with
              | nil => cases hx
              | hash h => cases hx; exact ih _ h
              | param h1 h2 h3 =>
                injection hx with _ hx
                injection hx with hx _
                exact paramDigit_ne_hash h3 hx.symm
              | char h1 => cases hx; exact h1 rfl
            · rename_i e ho
              exact ih.elim
          · rw [if_neg h1]
            by_cases h2 : isDigit first = true
            · rw [if_pos h2]
              obtain ⟨hd9, hd⟩ := digit_eq h2
              by_cases h3 : (digitVal first > n || digitVal first = 0) = true
              · simp only [h3, if_true]
                intro f h
                simp only [List.flatten_cons, List.append_assoc] at h
                obtain ⟨f', -, h⟩ := (PT_plain hu).1 h
                generalize hx : ['#'] ++ ((first :: nextTail) ++ more'.flatten) = x at h
                cases h with
                | nil => cases hx
                | hash h => cases hx; exact h1 rfl
                | @param i _ _ g1 g2 g3 =>
                  injection hx with _ hx
                  injection hx with hx _
                  have : digitVal first = i := by rw [hx]; exact digitVal_paramDigit g3
                  simp at h3
                  omega
                | char h1 => cases hx; exact h1 rfl
              · simp only [h3]
                have ih := fun done => replLoop_spec n fuel done (nextTail :: more') (hp'.tail h1)
                  (by simp at hl ⊢; omega)
                simp at h3
                have hdl : (if blen (u ++ ['#']) = 1 then done else .str (u ++ ['#']).dropLast :: done).reverse =
                    done.reverse ++ (if u = [] then [] else [.str u]) := by
                  cases u with
                  | nil => simp [show blen ['#'] = 1 from rfl]
                  | cons d u =>
                    have := utf8Size_pos d
                    have : ('#' : Char).utf8Size = 1 := rfl
                    rw [if_neg (by simp [blen]; omega), List.dropLast_concat]
                    simp
                generalize hg : (if blen (u ++ ['#']) = 1 then done else .str (u ++ ['#']).dropLast :: done) = done' at hdl ⊢
                have ih := ih (.param (digitVal first) :: done')
                simp only [Bool.false_eq_true, if_false]
                split at ih
                · rename_i out ho
                  obtain ⟨toks, e, h⟩ := ih
                  refine ⟨(if u = [] then [] else [.str u]) ++ .param (digitVal first) :: toks, ?_, ?_⟩
                  · simp [e, hdl]
                  · have e2 : flat ((if u = [] then [] else [.str u]) ++ .param (digitVal first) :: toks) =
                        u.map .inl ++ .inr (digitVal first) :: flat toks := by
                      cases u <;> simp [flat]
                    rw [e2]
                    simp only [List.flatten_cons, List.append_assoc]
                    refine (PT_plain hu).2 ⟨_, rfl, ?_⟩
                    have := PT.param (n := n) (i := digitVal first) (by omega) (by omega) hd9 h
                    rw [← hd] at this
                    simpa using this
                · rename_i e ho
                  intro f h
                  simp only [List.flatten_cons, List.append_assoc] at h
                  obtain ⟨f', -, h⟩ := (PT_plain hu).1 h
                  generalize hx : ['#'] ++ ((first :: nextTail) ++ more'.flatten) = x at h
                  cases h with
                  | nil => cases hx
                  | hash h => cases hx; exact h1 rfl
                  | @param i s f g1 g2 g3 g4 =>
                    injection hx with _ hx
                    injection hx with hx hy
                    rw [← hy] at g4
                    exact ih _ (by simpa using g4)
                  | char h1 => cases hx; exact h1 rfl
                · exact ih.elim
            · rw [if_neg h2]
              intro f h
              simp only [List.flatten_cons, List.append_assoc] at h
              obtain ⟨f', -, h⟩ := (PT_plain hu).1 h
              generalize hx : ['#'] ++ ((first :: nextTail) ++ more'.flatten) = x at h
              cases h with
              | nil => cases hx
              | hash h => cases hx; exact h1 rfl
              | @param i s f g1 g2 g3 g4 =>
                injection hx with _ hx
                injection hx with hx hy
                rw [hx] at h2
                exact h2 (paramDigit_isDigit g3)
              | char h1 => cases hx; exact h1 rfl
end PL.Macros
