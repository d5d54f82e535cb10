import Verif.Lemmas.Arg
import Verif.Lemmas.Monad
import Verif.Spec.Value
import Verif.Model.Primitives
set_option autoImplicit false
/-! # Lemmas on numbers, dimensions and small syntax -/
namespace PL
open Lex Spec

theorem isNumChar_iff {c : Char} : isNumChar c = true ↔ NumeralChar c := by
  unfold isNumChar NumeralChar
  simp only [Bool.or_eq_true, beq_iff_eq]
  constructor
  · rintro (h | h | h)
    · exact .inr (.inl h)
    · exact .inr (.inr h)
    · exact .inl h
  · rintro (h | h | h)
    · exact .inr (.inr h)
    · exact .inl h
    · exact .inr (.inl h)

theorem isDigit_num {c : Char} (h : isDigit c = true) : NumeralChar c := .inl h

theorem sep_not_digit {c : Char} (h : c = '.' ∨ c = ',') : isDigit c = false := by
  rcases h with rfl | rfl <;> rfl

theorem takeWhile_all {p : Char → Bool} {s : Str} : ∀ c ∈ s.takeWhile p, p c = true := by
  intro c hc
  exact List.all_eq_true.1 (List.all_takeWhile (p := p) (l := s)) c hc

theorem take_drop_while (p : Char → Bool) (s : Str) : s = s.takeWhile p ++ s.dropWhile p :=
  (List.takeWhile_append_dropWhile).symm

theorem takeWhile_append_of {p : Char → Bool} {a r : Str} (h : ∀ c ∈ a, p c = true)
    (hr : ∀ c r', r = c :: r' → p c = false) : (a ++ r).takeWhile p = a ∧ (a ++ r).dropWhile p = r := by
  induction a with
  | nil =>
    cases r with
    | nil => simp
    | cons c r => simp [hr c r rfl]
  | cons c a ih =>
    have hc := h c (by simp)
    have := ih fun d hd => h d (by simp [hd])
    simp [hc, this.1, this.2]

/-- The literal chosen by `numberLen`. -/
theorem numberLit_of {c : Char} {rest : Str} (hc : isDigit c = true) :
    NumberLit (c :: rest) ((c :: rest).take (numberLen false rest)) ((c :: rest).drop (numberLen false rest)) := by
  have e := take_drop_while isNumChar rest
  have hall : ∀ d ∈ rest.takeWhile isNumChar, NumeralChar d := fun d hd => isNumChar_iff.1 (takeWhile_all d hd)
  have hstop : ∀ d r', rest.dropWhile isNumChar = d :: r' → ¬ NumeralChar d := by
    intro d r' h hn
    rw [← isNumChar_iff, dropWhile_head h] at hn
    cases hn
  unfold numberLen
  simp only [Bool.false_eq_true, if_false]
  generalize rest.takeWhile isNumChar = run at *
  generalize rest.dropWhile isNumChar = stop at *
  subst e
  rcases List.eq_nil_or_concat run with rfl | ⟨init, d, rfl⟩
  · simpa using NumberLit.whole (lit := []) (c := c) (r := stop) (by simpa using isDigit_num hc) hc hstop
  · simp only [List.concat_eq_append, List.getLast?_append, List.getLast?_singleton, Option.some_or, Option.some.injEq,
      List.length_append, List.length_cons, List.length_nil] at *
    by_cases hd : d = '.' ∨ d = ','
    · rw [if_pos (by simpa using hd)]
      have h1 : c :: (init ++ [d] ++ stop) = (c :: init) ++ d :: stop := by simp
      have h2 : init.length + (0 + 1) + 1 - 1 = (c :: init).length := by simp
      rw [h1, h2, List.take_left, List.drop_left]
      refine NumberLit.sep (by simp) ?_ hd hstop
      intro x hx
      rcases List.mem_cons.1 hx with rfl | hx
      · exact isDigit_num hc
      · exact hall x (by simp [hx])
    · rw [if_neg (by simpa using hd)]
      have h1 : c :: (init ++ [d] ++ stop) = (c :: init) ++ d :: stop := by simp
      have h1' : c :: (init ++ [d] ++ stop) = (c :: init ++ [d]) ++ stop := by simp
      have h2 : init.length + (0 + 1) + 1 = (c :: init ++ [d]).length := by simp
      rw [h2]
      have hd' : isDigit d = true := by
        rcases hall d (by simp) with h | h
        · exact h
        · exact absurd h hd
      rw [show (c :: (init ++ [d] ++ stop)).take (c :: init ++ [d]).length = c :: init ++ [d] by
          rw [h1', List.take_left],
        show (c :: (init ++ [d] ++ stop)).drop (c :: init ++ [d]).length = stop by rw [h1', List.drop_left], h1]
      refine NumberLit.whole ?_ hd' hstop
      intro x hx
      have hx' : x = c ∨ x ∈ init ++ [d] := by simpa using hx
      rcases hx' with rfl | hx
      · exact isDigit_num hc
      · exact hall x hx

/-- The maximal run and the two ways to read it. -/
theorem _root_.PL.Spec.NumberLit.eq {s lit r : Str} (h : NumberLit s lit r) : s = lit ++ r ∧
    ((lit = s.takeWhile isNumChar ∧ ∃ a c, lit = a ++ [c] ∧ isDigit c = true) ∨
      ∃ c, (c = '.' ∨ c = ',') ∧ s.takeWhile isNumChar = lit ++ [c]) := by
  cases h with
  | @whole lit r c h1 h2 h3 =>
    refine ⟨by simp, .inl ⟨?_, lit, c, rfl, h2⟩⟩
    have := (takeWhile_append_of (p := isNumChar) (a := lit ++ [c]) (r := r) (fun d hd => isNumChar_iff.2 (h1 d hd))
      (fun d r' hd => Bool.eq_false_iff.2 fun x => h3 d r' hd (isNumChar_iff.1 x))).1
    simpa using this.symm
  | @sep lit r c h0 h1 h2 h3 =>
    refine ⟨rfl, .inr ⟨c, h2, ?_⟩⟩
    have := (takeWhile_append_of (p := isNumChar) (a := lit ++ [c]) (r := r) (fun d hd => by
        rcases List.mem_append.1 hd with hd | hd
        · exact isNumChar_iff.2 (h1 d hd)
        · rw [List.mem_singleton.1 hd]; exact isNumChar_iff.2 (.inr h2))
      (fun d r' hd => Bool.eq_false_iff.2 fun x => h3 d r' hd (isNumChar_iff.1 x))).1
    simpa using this

theorem _root_.PL.Spec.NumberLit.unique {s a b r t : Str} (h : NumberLit s a r) (h' : NumberLit s b t) : a = b ∧ r = t := by
  obtain ⟨e1, k1⟩ := h.eq
  obtain ⟨e2, k2⟩ := h'.eq
  have key : a = b := by
    rcases k1 with ⟨k1, x, c, hx, hc⟩ | ⟨c, hc, k1⟩ <;> rcases k2 with ⟨k2, y, d, hy, hd⟩ | ⟨d, hd, k2⟩
    · rw [k1, k2]
    · rw [k2] at k1
      rw [hx] at k1
      have := List.append_inj_right' k1 rfl
      cases this
      rw [sep_not_digit hd] at hc; cases hc
    · rw [k1] at k2
      rw [hy] at k2
      have := List.append_inj_right' k2 rfl
      cases this
      rw [sep_not_digit hc] at hd; cases hd
    · rw [k1] at k2
      exact List.append_inj_left' k2 rfl
  subst key
  rw [e1] at e2
  exact ⟨rfl, List.append_cancel_left e2⟩

/-! ### Dimensions -/

theorem digitsVal_append (b n : Nat) (x y : Str) : digitsVal b n (x ++ y) = digitsVal b (digitsVal b n x) y := by
  simp [digitsVal]

theorem digitsVal_eq (s : Str) : digitsVal 10 0 s = decValue s := by
  unfold decValue
  have key : ∀ t : Str, digitsVal 10 0 t.reverse = valueRev t := by
    intro t
    induction t with
    | nil => rfl
    | cons c t ih =>
      rw [List.reverse_cons, digitsVal_append, ih]
      simp [digitsVal, valueRev, digitVal]; omega
  rw [← key s.reverse, List.reverse_reverse]

/-- The characters skipped by `signs`. -/
def signChar (c : Char) : Bool := c == '-' || (c == '+' || isWs c)

theorem signChar_iff {c : Char} : signChar c = true ↔ c = '-' ∨ c = '+' ∨ isWs c = true := by
  simp [signChar]

/-- The sign of a run. -/
def signOf (sg : Str) : Int := if sg.count '-' % 2 = 0 then 1 else -1

theorem signs_eq (s : Str) : signs s = .ok (signOf (s.takeWhile signChar)) (s.dropWhile signChar) := by
  unfold signs signOf
  have h : trimStart (s.dropWhile signChar) = s.dropWhile signChar := by
    refine trimStart_eq_self fun c r hc => ?_
    have := dropWhile_head hc
    simp only [signChar, Bool.or_eq_false_iff] at this
    exact this.2.2
  show Res.ok _ (trimStart (s.dropWhile signChar)) = _
  rw [h]
  congr 2
  rw [show (fun c => c == '-' || (c == '+' || isWs c)) = signChar from rfl, List.count_eq_length_filter]

theorem digit_not_sign {c : Char} (h : isDigit c = true) : signChar c = false := by
  simp only [isDigit, Bool.and_eq_true, decide_eq_true_eq] at h
  apply Bool.eq_false_iff.2
  rw [Ne, signChar_iff]
  rintro (rfl | rfl | h')
  · revert h; decide
  · revert h; decide
  · simp only [isWs, Bool.or_eq_true, Bool.and_eq_true, decide_eq_true_eq, beq_iff_eq] at h'
    omega

theorem digit_not_ws {c : Char} (h : isDigit c = true) : isWs c = false := by
  have := digit_not_sign h
  simp only [signChar, Bool.or_eq_false_iff] at this
  exact this.2.2

theorem sep_not_sign {c : Char} (h : c = '.' ∨ c = ',') : signChar c = false := by
  rcases h with rfl | rfl <;> rfl

theorem ws_not_digit {c : Char} (h : isWs c = true) : isDigit c = false := by
  cases hd : isDigit c with
  | false => rfl
  | true => rw [digit_not_ws hd] at h; cases h

theorem ws_not_sep {c : Char} (h : isWs c = true) : ¬ (c = '.' ∨ c = ',') := by
  rintro (rfl | rfl) <;> cases h

theorem unitName_head (u : Unit_) : ∃ a b, unitName u = [a, b] ∧ isLetter a = true ∧ isLetter b = true ∧ unitOf a b = some u := by
  cases u <;> exact ⟨_, _, rfl, rfl, rfl, rfl⟩

theorem unitOf_some {a b : Char} {u : Unit_} (h : unitOf a b = some u) : unitName u = [a, b] := by
  unfold unitOf at h
  split at h <;> first | (cases h; rfl) | cases h

theorem letter_not_digit {c : Char} (h : isLetter c = true) : isDigit c = false := by
  simp only [isLetter, Bool.or_eq_true, Bool.and_eq_true, decide_eq_true_eq] at h
  simp only [isDigit, Bool.and_eq_false_iff, decide_eq_false_iff_not]
  omega

theorem letter_not_sign {c : Char} (h : isLetter c = true) : signChar c = false := by
  apply Bool.eq_false_iff.2
  rw [Ne, signChar_iff]
  rintro (rfl | rfl | h')
  · cases h
  · cases h
  · rw [isLetter_not_ws h] at h'; cases h'

theorem letter_not_sep {c : Char} (h : isLetter c = true) : ¬ (c = '.' ∨ c = ',') := by
  rintro (rfl | rfl) <;> cases h

/-- The floating point number after the signs. -/
theorem floatingPoint_eq (s : Str) : floatingPoint s =
    (let sg := signOf (s.takeWhile signChar)
     let t := s.dropWhile signChar
     let ip := t.takeWhile isDigit
     match t.dropWhile isDigit with
     | c :: r =>
       if c = '.' ∨ c = ',' then
         .ok ⟨sg * (decValue (ip ++ r.takeWhile isDigit) : Nat), 10 ^ (r.takeWhile isDigit).length⟩ (r.dropWhile isDigit)
       else .ok ⟨sg * (decValue ip : Nat), 1⟩ (c :: r)
     | [] => .ok ⟨sg * (decValue ip : Nat), 1⟩ []) := by
  unfold floatingPoint
  rw [M.bind_ok (signs_eq s), M.get_bind]
  dsimp only
  generalize s.dropWhile signChar = t
  generalize t.dropWhile isDigit = t'
  cases t' with
  | nil => simp [digitsVal_eq]
  | cons c r =>
    by_cases h : c = '.' ∨ c = ','
    · simp [h, ← digitsVal_eq, digitsVal_append]
    · simp [h, digitsVal_eq]

theorem dimensionUnit_eq (s : Str) : dimensionUnit s =
    match trimStart s with
    | a :: b :: r =>
      (match unitOf a b with
      | some u =>
        (match oneOptionalSpace r with
        | .ok _ r' => .ok u r'
        | .err e r' => .err e r'
        | .panic p => .panic p)
      | none => .err .dimensionUnit (a :: b :: r))
    | t => .err .dimensionUnit t := by
  unfold dimensionUnit
  rw [M.modify_bind, M.get_bind]
  generalize trimStart s = t
  match t with
  | [] => rfl
  | [_] => rfl
  | a :: b :: r =>
    dsimp only
    generalize unitOf a b = o
    cases o with
    | none => rfl
    | some u =>
      dsimp only
      rw [M.set_bind, M.run_bind]
      cases oneOptionalSpace r <;> rfl

theorem oneOptionalSpace_ok {s r : Str} {b : Bool} (h : oneOptionalSpace s = .ok b r) : OptSpace s r := by
  unfold oneOptionalSpace at h
  split at h
  · split at h
    · split at h
      · cases h; exact .one ‹_›
      · cases h
    · cases h; refine .none fun c r' hc => ?_
      cases hc; exact Bool.eq_false_iff.2 ‹_›
  · cases h; exact .none fun c r' hc => by cases hc

theorem dimText_of {s w t : Str} {n : Num} {u : Unit_} (h1 : floatingPoint s = .ok n (w ++ unitName u ++ t))
    (hw : Spaces w) : ∃ neg ip fp, DimText s neg ip fp u t ∧
      n = ⟨(if neg then -1 else 1) * (decValue (ip ++ fp) : Nat), 10 ^ fp.length⟩ := by
  rw [floatingPoint_eq] at h1
  have e := take_drop_while signChar s
  have e2 := take_drop_while isDigit (s.dropWhile signChar)
  have hsg : ∀ c ∈ s.takeWhile signChar, c = '-' ∨ c = '+' ∨ isWs c = true := fun c hc => signChar_iff.1 (takeWhile_all c hc)
  have hip : ∀ c ∈ (s.dropWhile signChar).takeWhile isDigit, isDigit c = true := fun c hc => takeWhile_all c hc
  simp only at h1
  have hneg : ∀ sg : Str, signOf sg = if decide (sg.count '-' % 2 = 1) then -1 else 1 := by
    intro sg
    unfold signOf
    by_cases h : sg.count '-' % 2 = 0
    · simp [h]
    · have : sg.count '-' % 2 = 1 := by omega
      simp [this]
  generalize s.takeWhile signChar = sg at *
  generalize s.dropWhile signChar = t1 at *
  generalize t1.takeWhile isDigit = ip at *
  split at h1
  · rename_i c r1 hr1
    rw [hr1] at e2
    split at h1
    · rename_i hsep
      have e3 := take_drop_while isDigit r1
      have hfp : ∀ c ∈ r1.takeWhile isDigit, isDigit c = true := fun c hc => takeWhile_all c hc
      generalize r1.takeWhile isDigit = fp at *
      injection h1 with h1 h1'
      rw [h1'] at e3
      refine ⟨decide (sg.count '-' % 2 = 1), ip, fp, ?_, by rw [← h1, hneg]⟩
      rw [e, e2, e3]
      have := DimText.frac (u := u) (r := t) hsg hip hsep hfp hw
      simpa using this
    · injection h1 with h1 h1'
      rw [h1'] at e2
      refine ⟨decide (sg.count '-' % 2 = 1), ip, [], ?_, by rw [← h1, hneg]; simp⟩
      rw [e, e2]
      have := DimText.whole (u := u) (r := t) hsg hip hw
      simpa using this
  · rename_i hr1
    rw [hr1] at e2
    injection h1 with h1 h1'
    obtain ⟨a, b, hab, _⟩ := unitName_head u
    rw [hab] at h1'
    simp at h1'

/-- What `dimension` accepts, and the value it returns. -/
theorem dimension_ok {s r : Str} {d : Dim} (h : dimension s = .ok d r) : ∃ neg ip fp u t,
    DimText s neg ip fp u t ∧ OptSpace t r ∧
      d = ⟨⟨(if neg then -1 else 1) * (decValue (ip ++ fp) : Nat), 10 ^ fp.length⟩, u⟩ := by
  unfold dimension at h
  obtain ⟨n, s1, h1, h⟩ := M.bind_eq_ok h
  obtain ⟨u, s2, h2, h⟩ := M.bind_eq_ok h
  cases h
  rw [dimensionUnit_eq] at h2
  have hu : ∃ w t, Spaces w ∧ s1 = w ++ unitName u ++ t ∧ OptSpace t r := by
    obtain ⟨w, hw, e⟩ := trimStart_spec s1
    split at h2
    · rename_i a b t ht
      split at h2
      · rename_i u' hu'
        split at h2
        · rename_i r' hr'
          cases h2
          refine ⟨w, t, hw, ?_, oneOptionalSpace_ok hr'⟩
          rw [unitOf_some hu', e, ht]; simp
        · cases h2
        · cases h2
      · cases h2
    · cases h2
  obtain ⟨w, t, hw, rfl, ht⟩ := hu
  obtain ⟨neg, ip, fp, hd, rfl⟩ := dimText_of h1 hw
  exact ⟨neg, ip, fp, u, t, hd, ht, rfl⟩

theorem oneOptionalSpace_of {s r : Str} (h : OptSpace s r) (hs : ∀ c t, s = c :: t → isWs c = true → c.utf8Size = 1) :
    ∃ b, oneOptionalSpace s = .ok b r := by
  cases h with
  | none h =>
    cases s with
    | nil => exact ⟨false, rfl⟩
    | cons c t => exact ⟨false, by simp [oneOptionalSpace, h c t rfl]⟩
  | one h => exact ⟨true, by simp [oneOptionalSpace, h, hs _ _ rfl h]⟩

/-- The text of a dimension determines the number and the unit, wherever it is used. -/
theorem floatingPoint_of {s t : Str} {neg : Bool} {ip fp : Str} {u : Unit_} (h : DimText s neg ip fp u t) :
    ∃ w, Spaces w ∧ floatingPoint s =
      .ok ⟨(if neg then -1 else 1) * (decValue (ip ++ fp) : Nat), 10 ^ fp.length⟩ (w ++ unitName u ++ t) := by
  have hneg : ∀ sg : Str, signOf sg = if decide (sg.count '-' % 2 = 1) then -1 else 1 := by
    intro sg
    unfold signOf
    by_cases h : sg.count '-' % 2 = 0
    · simp [h]
    · have : sg.count '-' % 2 = 1 := by omega
      simp [this]
  obtain ⟨a, b, hab, ha, hb, _⟩ := unitName_head u
  rw [floatingPoint_eq]
  cases h with
  | @whole sg ip w u r h1 h2 h3 =>
    rw [hab]
    cases ip with
    | cons d ip =>
      refine ⟨w, h3, ?_⟩
      obtain ⟨e1, e2⟩ := takeWhile_append_of (p := signChar) (a := sg) (r := d :: ip ++ w ++ [a, b] ++ t)
        (fun c hc => signChar_iff.2 (h1 c hc)) (fun c r' hc => by
          injection hc with hc _; exact hc ▸ digit_not_sign (h2 d (by simp)))
      have e0 : sg ++ d :: ip ++ w ++ [a, b] ++ t = sg ++ (d :: ip ++ w ++ [a, b] ++ t) := by simp
      rw [e0, e1, e2]
      have hhead : ∀ c r', w ++ [a, b] ++ t = c :: r' → isDigit c = false ∧ ¬ (c = '.' ∨ c = ',') := by
        intro c r' hc
        cases w with
        | nil => injection hc with hc _; subst hc; exact ⟨letter_not_digit ha, letter_not_sep ha⟩
        | cons x w =>
          injection hc with hc _; subst hc
          exact ⟨ws_not_digit (h3 x (by simp)), ws_not_sep (h3 x (by simp))⟩
      obtain ⟨f1, f2⟩ := takeWhile_append_of (p := isDigit) (a := d :: ip) (r := w ++ [a, b] ++ t) h2
        (fun c r' hc => (hhead c r' hc).1)
      have e3 : d :: ip ++ w ++ [a, b] ++ t = d :: ip ++ (w ++ [a, b] ++ t) := by simp
      dsimp only
      rw [e3, f1, f2]
      generalize w ++ [a, b] ++ t = x at hhead
      cases x with
      | nil => simp [hneg]
      | cons c r' => simp [(hhead c r' rfl).2, hneg]
    | nil =>
      refine ⟨[], (by intro c hc; cases hc), ?_⟩
      obtain ⟨e1, e2⟩ := takeWhile_append_of (p := signChar) (a := sg ++ w) (r := [a, b] ++ t)
        (fun c hc => by
          rcases List.mem_append.1 hc with hc | hc
          · exact signChar_iff.2 (h1 c hc)
          · exact signChar_iff.2 (.inr (.inr (h3 c hc)))) (fun c r' hc => by
          injection hc with hc _; exact hc ▸ letter_not_sign ha)
      have e0 : sg ++ [] ++ w ++ [a, b] ++ t = sg ++ w ++ ([a, b] ++ t) := by simp
      rw [e0, e1, e2]
      have hcount : (sg ++ w).count '-' = sg.count '-' := by
        rw [List.count_append, List.count_eq_zero_of_not_mem (a := '-') (l := w)]
        · rfl
        · intro hm; exact absurd (h3 _ hm) (by decide)
      simp [letter_not_digit ha, letter_not_sep ha, hneg, hcount]
  | @frac sg ip sep fp w u r h1 h2 hs h3 h4 =>
    rw [hab]
    refine ⟨w, h4, ?_⟩
    obtain ⟨e1, e2⟩ := takeWhile_append_of (p := signChar) (a := sg) (r := ip ++ sep :: fp ++ w ++ [a, b] ++ t)
        (fun c hc => signChar_iff.2 (h1 c hc)) (fun c r' hc => by
          cases ip with
          | nil => injection hc with hc _; exact hc ▸ sep_not_sign hs
          | cons d ip => injection hc with hc _; exact hc ▸ digit_not_sign (h2 d (by simp)))
    have e0 : sg ++ ip ++ sep :: fp ++ w ++ [a, b] ++ t = sg ++ (ip ++ sep :: fp ++ w ++ [a, b] ++ t) := by simp
    rw [e0, e1, e2]
    obtain ⟨f1, f2⟩ := takeWhile_append_of (p := isDigit) (a := ip) (r := sep :: fp ++ w ++ [a, b] ++ t) h2
        (fun c r' hc => by injection hc with hc _; exact hc ▸ sep_not_digit hs)
    have e3 : ip ++ sep :: fp ++ w ++ [a, b] ++ t = ip ++ (sep :: fp ++ w ++ [a, b] ++ t) := by simp
    obtain ⟨g1, g2⟩ := takeWhile_append_of (p := isDigit) (a := fp) (r := w ++ [a, b] ++ t) h3
        (fun c r' hc => by
          cases w with
          | nil => injection hc with hc _; exact hc ▸ letter_not_digit ha
          | cons x w => injection hc with hc _; exact hc ▸ ws_not_digit (h4 x (by simp)))
    have e4 : sep :: fp ++ w ++ [a, b] ++ t = sep :: (fp ++ (w ++ [a, b] ++ t)) := by simp
    dsimp only
    rw [e3, f1, f2, e4]
    dsimp only
    rw [if_pos hs, g1, g2, hneg]

theorem dimensionUnit_of {w t : Str} (u : Unit_) (hw : Spaces w) : dimensionUnit (w ++ unitName u ++ t) =
    match oneOptionalSpace t with
    | .ok _ r' => .ok u r'
    | .err e r' => .err e r'
    | .panic p => .panic p := by
  obtain ⟨a, b, hab, ha, hb, hu⟩ := unitName_head u
  rw [dimensionUnit_eq, List.append_assoc, trimStart_ws_append hw, hab,
    trimStart_eq_self (s := [a, b] ++ t) (fun c r hc => by injection hc with hc _; exact hc ▸ isLetter_not_ws ha)]
  simp [hu]

theorem dimension_of {s t r : Str} {neg : Bool} {ip fp : Str} {u : Unit_} (h : DimText s neg ip fp u t)
    (ht : OptSpace t r) (hs : ∀ c t', t = c :: t' → isWs c = true → c.utf8Size = 1) :
    dimension s = .ok ⟨⟨(if neg then -1 else 1) * (decValue (ip ++ fp) : Nat), 10 ^ fp.length⟩, u⟩ r := by
  obtain ⟨w, hw, hf⟩ := floatingPoint_of h
  unfold dimension
  rw [M.bind_ok hf]
  obtain ⟨b, hb⟩ := oneOptionalSpace_of ht hs
  rw [M.bind_ok (a := u) (s' := r) (by rw [dimensionUnit_of u hw, hb])]
  rfl

theorem floatingPoint_isOk (s : Str) : ∃ n r, floatingPoint s = .ok n r := by
  rw [floatingPoint_eq]
  dsimp only
  split
  · split
    · exact ⟨_, _, rfl⟩
    · exact ⟨_, _, rfl⟩
  · exact ⟨_, _, rfl⟩

theorem dimension_panic {s : Str} {p : Panic} (h : dimension s = .panic p) : p = .sliceBoundary ∧
    ∃ neg ip fp u c t, DimText s neg ip fp u (c :: t) ∧ isWs c = true ∧ c.utf8Size ≠ 1 := by
  obtain ⟨n, r, hf⟩ := floatingPoint_isOk s
  unfold dimension at h
  rw [M.bind_ok hf] at h
  rcases M.bind_eq_panic h with h | ⟨_, _, _, h⟩
  · rw [dimensionUnit_eq] at h
    obtain ⟨w, hw, e⟩ := trimStart_spec r
    split at h
    · rename_i a b t ht
      split at h
      · rename_i u' hu'
        split at h
        · cases h
        · cases h
        · rename_i p' hp
          cases h
          rw [ht] at e
          have e' : r = w ++ unitName u' ++ t := by rw [unitOf_some hu', e]; simp
          rw [e'] at hf
          obtain ⟨neg, ip, fp, hd, -⟩ := dimText_of hf hw
          unfold oneOptionalSpace at hp
          split at hp
          · split at hp
            · split at hp
              · cases hp
              · cases hp; exact ⟨rfl, neg, ip, fp, u', _, _, hd, ‹_›, ‹_›⟩
            · cases hp
          · cases hp
      · cases h
    · cases h
  · cases h

end PL
