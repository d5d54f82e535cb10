import Verif.Lemmas.ExpressionReads
set_option autoImplicit false
set_option linter.unusedSimpArgs false
/-!
# From the MathML of an expression back to its LaTeX
-/
namespace PL.Props.Back
open PL PL.Lex PL.Mathml Spec

/-- What is between `<` and `>`, and what comes after. -/
def opening : Str → Option (Str × Str)
  | '<' :: r => some (r.takeWhile (· ≠ '>'), (r.dropWhile (· ≠ '>')).tail)
  | _ => none

/-- What comes after `w`. -/
def expect : Str → Str → Option Str
  | [], s => some s
  | _ :: _, [] => none
  | a :: w, b :: s => if a = b then expect w s else none

def letterSource (c : Char) : Str := if isLetter c then [c] else match namedLetters.find? (·.2 = c) with
  | some p => c!"\\" ++ p.1 ++ c!" "
  | none => match variants.find? (·.2.2 = c) with
    | some p => '^' :: (p.1.source ++ (c!"{" ++ [p.2.1] ++ c!"}"))
    | none => []

/-- Letters of alphabets, which are marked, have an element of their own around them; all other groups are in braces. -/
def grouped : Str → Str
  | '^' :: x => x
  | x => c!"{" ++ x ++ c!"}"

def signSource (c : Char) : Str :=
  if c = '+' then c!"+" else if c = '−' then c!"-" else if c = '=' then c!"=" else if c = ',' then c!"," else if c = '/' then c!"/" else if c = '∗' then c!"*" else if c = '>' then c!">" else if c = ':' then c!":" else if c = ';' then c!";" else match (operations ++ relations).find? (·.2 = c) with
  | some p => c!"\\" ++ p.1 ++ c!" "
  | none => []

theorem command_source : ∀ p ∈ operations ++ relations, signSource p.2 = c!"\\" ++ p.1 ++ c!" " := by decide +kernel

def bigOps : List BigOp := [.sum, .product, .coproduct, .union, .intersection, .disjunction, .conjunction, .directSum, .tensorProduct, .integral, .doubleIntegral, .tripleIntegral, .contourIntegral]

def bigSource (c : Char) : Str := ((bigOps.find? (·.sign = c)).map BigOp.source).getD []

def accents : List Accent := [.hat, .tilde, .check, .arrow, .leftArrow, .arrows, .doubleArrow, .leftHarpoon, .rightHarpoon, .arc, .smallHat, .smallTilde, .smallCheck, .bar, .vector, .dot, .dots, .breve, .acute, .grave, .ring]

def accentSource (wide : Bool) (c : Char) : Str := ((accents.find? fun a => a.wide = wide && a.sign = c).map Accent.source).getD []

def stretchy : Str := c!"<mo stretchy=\"true\">"

/-- The command of an accent, and what comes after the accented element. -/
def accentMark (s : Str) : Option (Str × Str) :=
  match expect stretchy s with
  | some (c :: r) => (expect c!"</mo></mover>" r).map fun r => (accentSource true c, r)
  | some [] => none
  | none => match opening s with
    | some (_, c :: r) => (expect c!"</mi></mover>" r).map fun r => (accentSource false c, r)
    | _ => none

def casesStart : Str := c!"</mo><mtable class=\"menv-cells-left menv-cases\">"
def movable : Str := c!"<mo movablelimits=\"false\">"
def thin : Str := c!"<mspace width=\"0.1667em\" />"

/-- A single digit as a script has no space after it. -/
def unspaced : Str → Str
  | [d, ' '] => if isDigit d then [d] else [d, ' ']
  | x => x

/-- Where a list of elements ends. -/
def stops (s : Str) : Bool := s.isEmpty || (expect c!"</" s).isSome || (expect stretchy s).isSome

mutual
def operand : Nat → Str → Option (Str × Str)
  | 0, _ => none
  | n + 1, s =>
    match opening s with
    | none => none
    | some (t, r) =>
      if t = c!"mi" ∨ t = c!"mi mathvariant=\"normal\"" then
        match r with
        | c :: r => (expect c!"</mi>" r).map fun r => (letterSource c, r)
        | [] => none
      else if t = c!"mn" then (expect c!"</mn>" (r.dropWhile inNumber)).map fun u => (r.takeWhile inNumber ++ c!" ", u)
      else if t = c!"mtext" then (expect c!"</mtext>" (r.dropWhile inWords)).map fun u => (c!"\\text{" ++ r.takeWhile inWords ++ c!"}", u)
      else if t = c!"mrow" then
        match expect stretchy r with
        | some (c :: r) => if c = '{' then (expect casesStart r).bind fun r => (rows n r).bind fun p => (expect c!"</mtable></mrow>" p.2).map fun r => (c!"\\begin{cases}" ++ p.1 ++ c!"\\end{cases}", r)
          else (expect c!"</mo>" r).bind fun r => (items n r).bind fun p => (expect stretchy p.2).bind fun r =>
          match r with
          | d :: r => (expect c!"</mo></mrow>" r).map fun r => (c!"\\left" ++ [c] ++ p.1 ++ c!"\\right" ++ [d], r)
          | [] => none
        | _ => (items n r).bind fun p => (expect c!"</mrow>" p.2).map fun r => (grouped p.1, r)
      else if t = c!"mfrac" then (operand n r).bind fun a => (operand n a.2).bind fun b => (expect c!"</mfrac>" b.2).map fun r => (c!"\\frac" ++ a.1 ++ b.1, r)
      else if t = c!"msqrt" then (operand n r).bind fun a => (expect c!"</msqrt>" a.2).map fun r => (c!"\\sqrt" ++ a.1, r)
      else if t = c!"mroot" then
        (operand n r).bind fun a => (operand n a.2).bind fun b => (expect c!"</mroot>" b.2).map fun r => (c!"\\sqrt[" ++ b.1 ++ c!"]" ++ a.1, r)
      else if t = c!"mover" then
        (operand n r).bind fun a => (accentMark a.2).map fun p => (p.1 ++ a.1, p.2)
      else if t = c!"mtable class=\"menv-arraylike\"" then
        (rows n r).bind fun p => (expect c!"</mtable>" p.2).map fun r => (c!"\\begin{matrix}" ++ p.1 ++ c!"\\end{matrix}", r)
      else none
def items : Nat → Str → Option (Str × Str)
  | 0, _ => none
  | n + 1, s =>
    if stops s then some ([], s) else
    (match opening s with
      | none => none
      | some (t, r) =>
        if t = c!"mo" then
          match r with
          | c :: r => (expect c!"</mo>" r).map fun r => (signSource c, r)
          | [] => none
        else if t = c!"mspace width=\"0.1667em\" /" then some ([], r)
        else if t = c!"mi" ∧ r.takeWhile (· ≠ '<') = c!"+" then (expect c!"+</mi>" r).map fun r => (c!"+", r)
        else if t = c!"mi" ∧ r.takeWhile (· ≠ '<') = c!"−" then (expect c!"−</mi>" r).map fun r => (c!"-", r)
        else if t = c!"mi" ∧ 1 < (r.takeWhile (· ≠ '<')).length then
          (expect c!"</mi>" (r.dropWhile (· ≠ '<'))).map fun u => (c!"\\" ++ r.takeWhile (· ≠ '<') ++ c!" ", u)
        else if t = c!"msup" then (operand n r).bind fun a => (operand n a.2).bind fun b => (expect c!"</msup>" b.2).map fun r => (a.1 ++ c!"^" ++ unspaced b.1, r)
        else if t = c!"msub" ∨ t = c!"munder" then
          (match expect movable r with
            | some (c :: r) => (expect c!"</mo>" r).map fun r => (bigSource c, r)
            | _ => operand n r).bind fun a => (operand n a.2).bind fun b => (expect (c!"</" ++ t ++ c!">") b.2).map fun r => (a.1 ++ c!"_" ++ unspaced b.1, r)
        else if t = c!"msubsup" ∨ t = c!"munderover" then
          (match expect movable r with
            | some (c :: r) => (expect c!"</mo>" r).map fun r => (bigSource c, r)
            | _ => operand n r).bind fun a => (operand n a.2).bind fun b => (operand n b.2).bind fun c =>
              (expect (c!"</" ++ t ++ c!">") c.2).map fun r => (a.1 ++ c!"_" ++ unspaced b.1 ++ c!"^" ++ unspaced c.1, r)
        else operand n s : Option (Str × Str)).bind fun p => (items n p.2).map fun q => (p.1 ++ q.1, q.2)
def cells : Nat → Str → Option (Str × Str)
  | 0, _ => none
  | n + 1, s => (expect c!"<mtd>" s).bind fun r => (items n r).bind fun p => (expect c!"</mtd>" p.2).bind fun r =>
    if (expect c!"<mtd>" r).isSome then (cells n r).map fun q => (p.1 ++ c!"&" ++ q.1, q.2) else some (p.1, r)
def rows : Nat → Str → Option (Str × Str)
  | 0, _ => none
  | n + 1, s => (expect c!"<mtr>" s).bind fun r => (cells n r).bind fun p => (expect c!"</mtr>" p.2).bind fun r =>
    if (expect c!"<mtr>" r).isSome then (rows n r).map fun q => (p.1 ++ c!"\\\\" ++ q.1, q.2) else some (p.1, r)
end

theorem plain_tag (n x r : Str) : tag n [] x ++ r = c!"<" ++ n ++ c!">" ++ (x ++ (c!"</" ++ n ++ c!">" ++ r)) := by simp [tag]
theorem stretchy_tag (c : Char) (r : Str) : tag c!"mo" [(c!"stretchy", c!"true")] [c] ++ r = stretchy ++ (c :: (c!"</mo>" ++ r)) := rfl
theorem movable_tag (c : Char) (r : Str) : tag c!"mo" [(c!"movablelimits", c!"false")] [c] ++ r = movable ++ (c :: (c!"</mo>" ++ r)) := rfl
theorem thin_eq : void c!"mspace" [(c!"width", c!"0.1667em")] = thin := rfl

theorem expect_append (w s : Str) : expect w (w ++ s) = some s := by
  induction w with
  | nil => rfl
  | cons a w ih => simp [expect, ih]

def OperandBack (block : Bool) (style : MathStyle) (b : Operand) : Prop := ∃ n0, ∀ n ≥ n0, ∀ r, operand n (b.mathml block style ++ r) = some (b.source, r)
def PieceBack (block : Bool) (style : MathStyle) (i : Scripted) : Prop :=
  ∃ n0, ∀ n ≥ n0, ∀ r x u, items n r = some (x, u) → items (n + 1) (i.mathml block style ++ r) = some (i.source ++ x, u)
def ExprBack (block : Bool) (style : MathStyle) (e : Expr) : Prop := ∀ after, ∃ n0, ∀ n ≥ n0, ∀ r, stops r = true → items n (e.mathml block style after ++ r) = some (e.source, r)

theorem succ_of_ge {n m : Nat} (h : n ≥ m + 1) : ∃ k, n = k + 1 ∧ k ≥ m := ⟨n - 1, by omega, by omega⟩

/-! ## Steps -/

theorem step_frac (n : Nat) (s : Str) : operand (n + 1) (c!"<mfrac>" ++ s) =
    (operand n s).bind fun a => (operand n a.2).bind fun b => (expect c!"</mfrac>" b.2).map fun r => (c!"\\frac" ++ a.1 ++ b.1, r) := by
  rw [operand]; rfl
theorem step_root (n : Nat) (s : Str) : operand (n + 1) (c!"<msqrt>" ++ s) = (operand n s).bind fun a => (expect c!"</msqrt>" a.2).map fun r => (c!"\\sqrt" ++ a.1, r) := by
  rw [operand]; rfl
theorem step_nthRoot (n : Nat) (s : Str) : operand (n + 1) (c!"<mroot>" ++ s) =
    (operand n s).bind fun a => (operand n a.2).bind fun b => (expect c!"</mroot>" b.2).map fun r => (c!"\\sqrt[" ++ b.1 ++ c!"]" ++ a.1, r) := by
  rw [operand]; rfl
theorem step_group (n : Nat) (s : Str) (h : expect stretchy s = none) : operand (n + 1) (c!"<mrow>" ++ s) =
    (items n s).bind fun p => (expect c!"</mrow>" p.2).map fun r => (grouped p.1, r) := by
  rw [operand]
  show (match expect stretchy s with
        | some (c :: r) => if c = '{' then (expect casesStart r).bind fun r => (rows n r).bind fun p => (expect c!"</mtable></mrow>" p.2).map fun r => (c!"\\begin{cases}" ++ p.1 ++ c!"\\end{cases}", r)
          else (expect c!"</mo>" r).bind fun r => (items n r).bind fun p => (expect stretchy p.2).bind fun r =>
          match r with
          | d :: r => (expect c!"</mo></mrow>" r).map fun r => (c!"\\left" ++ [c] ++ p.1 ++ c!"\\right" ++ [d], r)
          | [] => none
        | _ => (items n s).bind fun p => (expect c!"</mrow>" p.2).map fun r => (grouped p.1, r)) = _
  rw [h]
theorem step_fence (n : Nat) (f : Fence) (s : Str) : operand (n + 1) (c!"<mrow>" ++ (stretchy ++ f.opening :: (c!"</mo>" ++ s))) =
    (items n s).bind fun p => (expect stretchy p.2).bind fun r =>
          match r with
          | d :: r => (expect c!"</mo></mrow>" r).map fun r => (c!"\\left" ++ [f.opening] ++ p.1 ++ c!"\\right" ++ [d], r)
          | [] => none := by
  cases f <;> (rw [operand]; rfl)
theorem step_cases (n : Nat) (s : Str) : operand (n + 1) (c!"<mrow>" ++ (stretchy ++ '{' :: (casesStart ++ s))) =
    (rows n s).bind fun p => (expect c!"</mtable></mrow>" p.2).map fun r => (c!"\\begin{cases}" ++ p.1 ++ c!"\\end{cases}", r) := by
  rw [operand]; rfl
theorem step_over (n : Nat) (s : Str) : operand (n + 1) (c!"<mover>" ++ s) =
    (operand n s).bind fun a => (accentMark a.2).map fun p => (p.1 ++ a.1, p.2) := by
  rw [operand]; rfl
theorem step_table (n : Nat) (s : Str) : operand (n + 1) (c!"<mtable class=\"menv-arraylike\">" ++ s) =
    (rows n s).bind fun p => (expect c!"</mtable>" p.2).map fun r => (c!"\\begin{matrix}" ++ p.1 ++ c!"\\end{matrix}", r) := by
  rw [operand]; rfl
theorem step_number (n : Nat) (s : Str) : operand (n + 1) (c!"<mn>" ++ s) = (expect c!"</mn>" (s.dropWhile inNumber)).map fun u => (s.takeWhile inNumber ++ c!" ", u) := by
  rw [operand]; rfl
theorem step_word (n : Nat) (s : Str) : operand (n + 1) (c!"<mtext>" ++ s) =
    (expect c!"</mtext>" (s.dropWhile inWords)).map fun u => (c!"\\text{" ++ s.takeWhile inWords ++ c!"}", u) := by
  rw [operand]; rfl
theorem step_italic (n : Nat) (c : Char) (s : Str) : operand (n + 1) (c!"<mi>" ++ c :: (c!"</mi>" ++ s)) = some (letterSource c, s) := by
  rw [operand]; rfl
theorem step_upright (n : Nat) (c : Char) (s : Str) : operand (n + 1) (c!"<mi mathvariant=\"normal\">" ++ c :: (c!"</mi>" ++ s)) = some (letterSource c, s) := by
  rw [operand]; rfl

abbrev joined (n : Nat) (o : Option (Str × Str)) : Option (Str × Str) := o.bind fun p => (items n p.2).map fun q => (p.1 ++ q.1, q.2)

theorem step_sign (n : Nat) (c : Char) (s : Str) : items (n + 1) (c!"<mo>" ++ c :: (c!"</mo>" ++ s)) = (items n s).map fun q => (signSource c ++ q.1, q.2) := by
  rw [items]; rfl
theorem step_thin (n : Nat) (s : Str) : items (n + 1) (thin ++ s) = (items n s).map fun q => ([] ++ q.1, q.2) := by
  rw [items]; rfl
theorem step_plus (n : Nat) (s : Str) : items (n + 1) (c!"<mi>+</mi>" ++ s) = (items n s).map fun q => (c!"+" ++ q.1, q.2) := by
  rw [items]; rfl
theorem step_minus (n : Nat) (s : Str) : items (n + 1) (c!"<mi>−</mi>" ++ s) = (items n s).map fun q => (c!"-" ++ q.1, q.2) := by
  rw [items]; rfl
theorem step_func (n : Nat) (f : Func) (s : Str) : items (n + 1) (c!"<mi>" ++ (f.name ++ (c!"</mi>" ++ s))) = (items n s).map fun q => (c!"\\" ++ f.name ++ c!" " ++ q.1, q.2) := by
  rw [items]; cases f <;> rfl
theorem step_sup (n : Nat) (s : Str) : items (n + 1) (c!"<msup>" ++ s) =
    joined n ((operand n s).bind fun a => (operand n a.2).bind fun b => (expect c!"</msup>" b.2).map fun r => (a.1 ++ c!"^" ++ unspaced b.1, r)) := by
  rw [items]; rfl
theorem step_sub (n : Nat) (s : Str) (h : expect movable s = none) : items (n + 1) (c!"<msub>" ++ s) =
    joined n ((operand n s).bind fun a => (operand n a.2).bind fun b => (expect c!"</msub>" b.2).map fun r => (a.1 ++ c!"_" ++ unspaced b.1, r)) := by
  rw [items]
  show joined n (((match expect movable s with
            | some (c :: r) => (expect c!"</mo>" r).map fun r => (bigSource c, r)
            | _ => operand n s : Option (Str × Str))).bind fun a => (operand n a.2).bind fun b => (expect c!"</msub>" b.2).map fun r => (a.1 ++ c!"_" ++ unspaced b.1, r)) = _
  rw [h]
theorem step_ranged (n : Nat) (b : Bool) (c : Char) (s : Str) : items (n + 1) (c!"<" ++ (if b then c!"munder" else c!"msub") ++ c!">" ++ (movable ++ c :: (c!"</mo>" ++ s))) =
    joined n ((operand n s).bind fun b' => (expect (c!"</" ++ (if b then c!"munder" else c!"msub") ++ c!">") b'.2).map fun r => (bigSource c ++ c!"_" ++ unspaced b'.1, r)) := by
  rw [items]; cases b <;> rfl

/-- The start tags of operands. -/
def tags : List Str := [c!"<mi>", c!"<mi mathvariant=\"normal\">", c!"<mn>", c!"<mtext>", c!"<mrow>", c!"<mfrac>", c!"<msqrt>", c!"<mroot>", c!"<mover>", c!"<mtable class=\"menv-arraylike\">"]

theorem step_subSup (n : Nat) (s : Str) (h : expect movable s = none) : items (n + 1) (c!"<msubsup>" ++ s) =
    joined n ((operand n s).bind fun a => (operand n a.2).bind fun b => (operand n b.2).bind fun c => (expect c!"</msubsup>" c.2).map fun r => (a.1 ++ c!"_" ++ unspaced b.1 ++ c!"^" ++ unspaced c.1, r)) := by
  rw [items]
  show joined n (((match expect movable s with
            | some (c :: r) => (expect c!"</mo>" r).map fun r => (bigSource c, r)
            | _ => operand n s : Option (Str × Str))).bind fun a => (operand n a.2).bind fun b => (operand n b.2).bind fun c =>
              (expect c!"</msubsup>" c.2).map fun r => (a.1 ++ c!"_" ++ unspaced b.1 ++ c!"^" ++ unspaced c.1, r)) = _
  rw [h]
theorem step_big (n : Nat) (b : Bool) (c : Char) (s : Str) : items (n + 1) (c!"<" ++ (if b then c!"munderover" else c!"msubsup") ++ c!">" ++ (movable ++ c :: (c!"</mo>" ++ s))) =
    joined n ((operand n s).bind fun b' => (operand n b'.2).bind fun d =>
      (expect (c!"</" ++ (if b then c!"munderover" else c!"msubsup") ++ c!">") d.2).map fun r => (bigSource c ++ c!"_" ++ unspaced b'.1 ++ c!"^" ++ unspaced d.1, r)) := by
  rw [items]; cases b <;> rfl

theorem step_other (n : Nat) (w s : Str) (h : w ∈ tags.tail) : items (n + 1) (w ++ s) = joined n (operand n (w ++ s)) := by
  simp only [tags, List.tail_cons, List.mem_cons, List.not_mem_nil, or_false] at h
  rcases h with rfl | rfl | rfl | rfl | rfl | rfl | rfl | rfl | rfl <;> (rw [items]; rfl)
theorem step_letter (n : Nat) (c : Char) (s : Str) (h : c ≠ '<' ∧ c ≠ '+' ∧ c ≠ '−') : items (n + 1) (c!"<mi>" ++ c :: (c!"</mi>" ++ s)) =
    joined n (operand n (c!"<mi>" ++ c :: (c!"</mi>" ++ s))) := by
  have e : (c :: (c!"</mi>" ++ s)).takeWhile (· ≠ '<') = [c] := by simp [List.takeWhile, h.1]
  rw [items]
  show joined n (if c!"mi" = c!"mi" ∧ (c :: (c!"</mi>" ++ s)).takeWhile (· ≠ '<') = c!"+" then (expect c!"+</mi>" (c :: (c!"</mi>" ++ s))).map fun r => (c!"+", r)
        else if c!"mi" = c!"mi" ∧ (c :: (c!"</mi>" ++ s)).takeWhile (· ≠ '<') = c!"−" then (expect c!"−</mi>" (c :: (c!"</mi>" ++ s))).map fun r => (c!"-", r)
        else if c!"mi" = c!"mi" ∧ 1 < ((c :: (c!"</mi>" ++ s)).takeWhile (· ≠ '<')).length then
          (expect c!"</mi>" ((c :: (c!"</mi>" ++ s)).dropWhile (· ≠ '<'))).map fun u => (c!"\\" ++ (c :: (c!"</mi>" ++ s)).takeWhile (· ≠ '<') ++ c!" ", u)
        else operand n (c!"<mi>" ++ c :: (c!"</mi>" ++ s))) = _
  rw [e, if_neg (by simp [h.2.1]), if_neg (by simp [h.2.2]), if_neg (by simp)]

/-! ## How MathML starts -/

theorem identifier_begins (style : MathStyle) (c : Char) (r : Str) : identifier style c ++ r = c!"<mi>" ++ c :: (c!"</mi>" ++ r) ∨
    identifier style c ++ r = c!"<mi mathvariant=\"normal\">" ++ c :: (c!"</mi>" ++ r) := by
  unfold identifier
  cases setUpright style c
  · exact .inl rfl
  · exact .inr rfl

section
variable {block : Bool} {style : MathStyle}

theorem operand_begins (b : Operand) (r : Str) : ∃ w ∈ tags, ∃ u, b.mathml block style ++ r = w ++ u := by
  have id : ∀ c, ∃ w ∈ tags, ∃ u, identifier style c ++ r = w ++ u := fun c => by
    rcases identifier_begins style c r with h | h
    · exact ⟨_, by decide, _, h⟩
    · exact ⟨_, by decide, _, h⟩
  have el : ∀ n x, c!"<" ++ n ++ c!">" ∈ tags → ∃ w ∈ tags, ∃ u, tag n [] x ++ r = w ++ u := fun n x h => ⟨_, h, _, plain_tag n x r⟩
  cases b with
  | letter c h => exact id c
  | named name c h => exact id c
  | matrix g => exact ⟨c!"<mtable class=\"menv-arraylike\">", by decide, _, by rw [Operand.mathml, tag]; simp; rfl⟩
  | _ => exact el _ _ (by decide)

theorem tags_facts : ∀ w ∈ tags, ∀ u, expect stretchy (w ++ u) = none ∧ expect movable (w ++ u) = none ∧ stops (w ++ u) = false := by
  intro w h u
  simp only [tags, List.mem_cons, List.not_mem_nil, or_false] at h
  rcases h with rfl | rfl | rfl | rfl | rfl | rfl | rfl | rfl | rfl | rfl <;> exact ⟨rfl, rfl, rfl⟩

theorem operand_facts (b : Operand) (r : Str) : expect stretchy (b.mathml block style ++ r) = none ∧ expect movable (b.mathml block style ++ r) = none ∧
    stops (b.mathml block style ++ r) = false := by
  obtain ⟨w, h, u, e⟩ := operand_begins (block := block) (style := style) b r
  rw [e]
  exact tags_facts w h u

theorem piece_facts (i : Scripted) (r : Str) : expect stretchy (i.mathml block style ++ r) = none := by
  cases i with
  | plain b => exact (operand_facts b r).1
  | _ => rw [Scripted.mathml, plain_tag]; rfl

theorem expr_facts (e : Expr) (after : Bool) (r : Str) : expect stretchy (e.mathml block style after ++ r) = none := by
  cases e with
  | one i => exact piece_facts i r
  | next i e => rw [Expr.mathml, List.append_assoc]; exact piece_facts i _
  | «infix» i o e => rw [Expr.mathml, List.append_assoc, List.append_assoc]; exact piece_facts i _
  | signed s e => rw [Expr.mathml, List.append_assoc, plain_tag]; cases after <;> rfl
  | apply f e => rw [Expr.mathml]; simp only [List.append_assoc]; cases after <;> rfl
  | big op l u e => rw [Expr.mathml, List.append_assoc, plain_tag]; cases op.stacked block <;> rfl
  | ranged op l e => rw [Expr.mathml, List.append_assoc, plain_tag]; cases op.stacked block <;> rfl

/-! ## Back -/

theorem grouped_source (e : Expr) : grouped e.source = c!"{" ++ e.source ++ c!"}" := by
  obtain ⟨c, u, h, -, hc, -⟩ := expr_starts e []
  rw [List.append_nil] at h
  rw [h]
  unfold grouped
  split
  · rename_i e; injection e with e1; exact absurd e1 hc
  · rfl

theorem group_back {e : Expr} (h : ExprBack block style e) : OperandBack block style (.group e) := by
  obtain ⟨n0, h⟩ := h false
  refine ⟨n0 + 1, fun n hn r => ?_⟩
  obtain ⟨k, rfl, hk⟩ := succ_of_ge hn
  rw [Operand.mathml, plain_tag]
  have h1 := h k hk (c!"</mrow>" ++ r) rfl
  have := step_group k (e.mathml block style false ++ (c!"</mrow>" ++ r)) (expr_facts e _ _)
  rw [h1] at this
  refine this.trans ?_
  show (expect c!"</mrow>" (c!"</mrow>" ++ r)).map _ = _
  rw [expect_append]
  show some (grouped e.source, r) = _
  rw [grouped_source]
  rfl

theorem letter_source {c : Char} (h : isLetter c = true) : letterSource c = [c] ∧ c ≠ '<' ∧ c ≠ '+' ∧ c ≠ '−' := by
  refine ⟨by simp [letterSource, h], ?_, ?_, ?_⟩ <;> rintro rfl <;> cases h

theorem named_source : ∀ p ∈ namedLetters, letterSource p.2 = c!"\\" ++ p.1 ++ c!" " ∧ p.2 ≠ '<' ∧ p.2 ≠ '+' ∧ p.2 ≠ '−' := by decide +kernel

theorem identifier_back (c : Char) (x : Str) (h : letterSource c = x) (n : Nat) (hn : n ≥ 1) (r : Str) : operand n (identifier style c ++ r) = some (x, r) := by
  obtain ⟨k, rfl, -⟩ := succ_of_ge hn
  subst h
  rcases identifier_begins style c r with e | e
  · rw [e]; exact step_italic k c r
  · rw [e]; exact step_upright k c r

theorem variant_source : ∀ p ∈ variants, letterSource p.2.2 = '^' :: (p.1.source ++ (c!"{" ++ [p.2.1] ++ c!"}")) ∧ p.2.2 ≠ '<' ∧ p.2.2 ≠ '+' ∧ p.2.2 ≠ '−' := by
  decide +kernel

theorem styled_back {a : Alphabet} {l c : Char} (h : (a, l, c) ∈ variants) : OperandBack block style (.styled a l c h) := by
  refine ⟨3, fun n hn r => ?_⟩
  obtain ⟨k, rfl⟩ : ∃ k, n = k + 3 := ⟨n - 3, by omega⟩
  obtain ⟨h1, h2⟩ := variant_source _ h
  have e1 : (Operand.styled a l c h).mathml block style ++ r = c!"<mrow>" ++ (c!"<mi>" ++ c :: (c!"</mi>" ++ (c!"</mrow>" ++ r))) := by
    simp [Operand.mathml, tag]
  have e2 : items (k + 1) (c!"</mrow>" ++ r) = some ([], c!"</mrow>" ++ r) := by rw [items]; rfl
  have e3 : items (k + 2) (c!"<mi>" ++ c :: (c!"</mi>" ++ (c!"</mrow>" ++ r))) = some (letterSource c, c!"</mrow>" ++ r) := by
    rw [step_letter (k + 1) c _ h2, step_italic k c, joined, Option.bind_some]
    simp only
    rw [e2]
    simp
  rw [e1, step_group (k + 2) _ rfl, e3]
  show (expect c!"</mrow>" (c!"</mrow>" ++ r)).map _ = _
  rw [expect_append]
  show some (grouped (letterSource c), r) = _
  rw [h1]
  rfl

theorem run_back {p : Char → Bool} : ∀ (t : Str) (_ : ∀ c ∈ t, p c = true) (d : Char) (_ : p d = false) (r : Str), (t ++ d :: r).takeWhile p = t ∧ (t ++ d :: r).dropWhile p = d :: r
  | [], _, d, hd, r => by simp [hd]
  | c :: t, h, d, hd, r => by
    obtain ⟨h1, h2⟩ := run_back t (fun c hc => h c (by simp [hc])) d hd r
    simp [h c (by simp), h1, h2]

theorem fence_back {f : Fence} {e : Expr} (h : ExprBack block style e) : OperandBack block style (.fenced f e) := by
  obtain ⟨n0, h⟩ := h false
  refine ⟨n0 + 1, fun n hn r => ?_⟩
  obtain ⟨k, rfl, hk⟩ := succ_of_ge hn
  have h1 := h k hk (stretchy ++ f.closing :: (c!"</mo></mrow>" ++ r)) rfl
  have := step_fence k f (e.mathml block style false ++ (stretchy ++ f.closing :: (c!"</mo></mrow>" ++ r)))
  rw [h1] at this
  have e1 : (Operand.fenced f e).mathml block style ++ r = c!"<mrow>" ++ (stretchy ++ f.opening :: (c!"</mo>" ++ (e.mathml block style false ++ (stretchy ++ f.closing :: (c!"</mo></mrow>" ++ r))))) := by
    simp [Operand.mathml, Scripted.mathml, tag, attr, stretchy]
  rw [e1, this]
  rfl

theorem frac_back {a b : Expr} (ha : ExprBack block style a) (hb : ExprBack block style b) : OperandBack block style (.fraction a b) := by
  obtain ⟨m, h1⟩ := group_back ha
  obtain ⟨m', h2⟩ := group_back hb
  refine ⟨m + m' + 1, fun n hn r => ?_⟩
  obtain ⟨k, rfl, hk⟩ := succ_of_ge hn
  have e1 : (Operand.fraction a b).mathml block style ++ r = c!"<mfrac>" ++ ((Operand.group a).mathml block style ++ ((Operand.group b).mathml block style ++ (c!"</mfrac>" ++ r))) := by
    simp [Operand.mathml, Scripted.mathml, tag, attr, stretchy]
  rw [e1, step_frac, h1 k (by omega), Option.bind_some, h2 k (by omega)]
  rfl

theorem root_back {a : Expr} (ha : ExprBack block style a) : OperandBack block style (.root a) := by
  obtain ⟨m, h1⟩ := group_back ha
  refine ⟨m + 1, fun n hn r => ?_⟩
  obtain ⟨k, rfl, hk⟩ := succ_of_ge hn
  have e1 : (Operand.root a).mathml block style ++ r = c!"<msqrt>" ++ ((Operand.group a).mathml block style ++ (c!"</msqrt>" ++ r)) := by
    simp [Operand.mathml, Scripted.mathml, tag, attr, stretchy]
  rw [e1, step_root, h1 k (by omega)]
  rfl

theorem nthRoot_back {i : Operand} {a : Expr} (hi : OperandBack block style i) (ha : ExprBack block style a) : OperandBack block style (.nthRoot i a) := by
  obtain ⟨m, h1⟩ := group_back ha
  obtain ⟨m', h2⟩ := hi
  refine ⟨m + m' + 1, fun n hn r => ?_⟩
  obtain ⟨k, rfl, hk⟩ := succ_of_ge hn
  have e1 : (Operand.nthRoot i a).mathml block style ++ r = c!"<mroot>" ++ ((Operand.group a).mathml block style ++ (i.mathml block style ++ (c!"</mroot>" ++ r))) := by
    simp [Operand.mathml, Scripted.mathml, tag, attr, stretchy]
  rw [e1, step_nthRoot, h1 k (by omega), Option.bind_some, h2 k (by omega)]
  rw [Operand.source, Operand.source]
  show some (c!"\\sqrt[" ++ i.source ++ c!"]" ++ (c!"{" ++ a.source ++ c!"}"), r) = _
  simp

theorem mark_back (x : Accent) (r : Str) : accentMark (x.mark style ++ (c!"</mover>" ++ r)) = some (x.source, r) := by
  have hx : accentSource x.wide x.sign = x.source := by cases x <;> decide
  cases hw : x.wide
  · rw [hw] at hx
    rw [Accent.mark, hw, if_neg (by decide), ← hx]
    rcases identifier_begins style x.sign (c!"</mover>" ++ r) with e | e <;> rw [e] <;> rfl
  · rw [hw] at hx
    rw [Accent.mark, hw, if_pos rfl, ← hx]
    rfl

theorem accent_back {x : Accent} {a : Expr} (ha : ExprBack block style a) : OperandBack block style (.accented x a) := by
  obtain ⟨m, h1⟩ := group_back ha
  refine ⟨m + 1, fun n hn r => ?_⟩
  obtain ⟨k, rfl, hk⟩ := succ_of_ge hn
  have e1 : (Operand.accented x a).mathml block style ++ r = c!"<mover>" ++ ((Operand.group a).mathml block style ++ (x.mark style ++ (c!"</mover>" ++ r))) := by
    simp [Operand.mathml, Scripted.mathml, tag]
  rw [e1, step_over, h1 k (by omega), Option.bind_some, mark_back]
  rfl

def CellsBack (block : Bool) (style : MathStyle) (es : Entries) : Prop :=
  ∃ n0, ∀ n ≥ n0, ∀ r, expect c!"<mtd>" r = none → cells n (es.mathml block style ++ r) = some (es.source, r)
def RowsBack (block : Bool) (style : MathStyle) (g : Grid) : Prop :=
  ∃ n0, ∀ n ≥ n0, ∀ r, expect c!"<mtr>" r = none → rows n (g.mathml block style ++ r) = some (g.source, r)

theorem cells_begin (es : Entries) (r : Str) : (expect c!"<mtd>" (es.mathml block style ++ r)).isSome = true := by
  cases es <;> (rw [Entries.mathml]; rfl)
theorem rows_begin (g : Grid) (r : Str) : (expect c!"<mtr>" (g.mathml block style ++ r)).isSome = true := by
  cases g <;> (rw [Grid.mathml]; rfl)

theorem lastCell_back {e : Expr} (h : ExprBack block style e) : CellsBack block style (.last e) := by
  obtain ⟨m, h1⟩ := h false
  refine ⟨m + 1, fun n hn r hr => ?_⟩
  obtain ⟨k, rfl, hk⟩ := succ_of_ge hn
  rw [Entries.mathml, plain_tag, cells]
  show (items k (e.mathml block style false ++ (c!"</mtd>" ++ r))).bind _ = _
  rw [h1 k hk _ rfl]
  show (if (expect c!"<mtd>" r).isSome then _ else _) = _
  rw [hr]
  rfl

theorem cell_back {e : Expr} {es : Entries} (h : ExprBack block style e) (hs : CellsBack block style es) : CellsBack block style (.cons e es) := by
  obtain ⟨m, h1⟩ := h false
  obtain ⟨m', h2⟩ := hs
  refine ⟨m + m' + 1, fun n hn r hr => ?_⟩
  obtain ⟨k, rfl, hk⟩ := succ_of_ge hn
  rw [Entries.mathml, List.append_assoc, plain_tag, cells]
  show (items k (e.mathml block style false ++ (c!"</mtd>" ++ (es.mathml block style ++ r)))).bind _ = _
  rw [h1 k (by omega) _ rfl]
  show (if (expect c!"<mtd>" (es.mathml block style ++ r)).isSome then (cells k (es.mathml block style ++ r)).map _ else _) = _
  rw [cells_begin, h2 k (by omega) r hr]
  rfl

theorem lastRow_back {es : Entries} (h : CellsBack block style es) : RowsBack block style (.last es) := by
  obtain ⟨m, h1⟩ := h
  refine ⟨m + 1, fun n hn r hr => ?_⟩
  obtain ⟨k, rfl, hk⟩ := succ_of_ge hn
  rw [Grid.mathml, plain_tag, rows]
  show (cells k (es.mathml block style ++ (c!"</mtr>" ++ r))).bind _ = _
  rw [h1 k hk _ rfl]
  show (if (expect c!"<mtr>" r).isSome then _ else _) = _
  rw [hr]
  rfl

theorem row_back {es : Entries} {g : Grid} (h : CellsBack block style es) (hs : RowsBack block style g) : RowsBack block style (.cons es g) := by
  obtain ⟨m, h1⟩ := h
  obtain ⟨m', h2⟩ := hs
  refine ⟨m + m' + 1, fun n hn r hr => ?_⟩
  obtain ⟨k, rfl, hk⟩ := succ_of_ge hn
  rw [Grid.mathml, List.append_assoc, plain_tag, rows]
  show (cells k (es.mathml block style ++ (c!"</mtr>" ++ (g.mathml block style ++ r)))).bind _ = _
  rw [h1 k (by omega) _ rfl]
  show (if (expect c!"<mtr>" (g.mathml block style ++ r)).isSome then (rows k (g.mathml block style ++ r)).map _ else _) = _
  rw [rows_begin, h2 k (by omega) r hr]
  rfl

theorem matrix_back {g : Grid} (h : RowsBack block style g) : OperandBack block style (.matrix g) := by
  obtain ⟨m, h1⟩ := h
  refine ⟨m + 1, fun n hn r => ?_⟩
  obtain ⟨k, rfl, hk⟩ := succ_of_ge hn
  have e1 : (Operand.matrix g).mathml block style ++ r = c!"<mtable class=\"menv-arraylike\">" ++ (g.mathml block style ++ (c!"</mtable>" ++ r)) := by
    simp [Operand.mathml, tag, attr]
  rw [e1, step_table, h1 k hk _ rfl]
  rfl

theorem choice_back {g : Grid} (h : RowsBack block style g) : OperandBack block style (.choice g) := by
  obtain ⟨m, h1⟩ := h
  refine ⟨m + 1, fun n hn r => ?_⟩
  obtain ⟨k, rfl, hk⟩ := succ_of_ge hn
  have e1 : (Operand.choice g).mathml block style ++ r = c!"<mrow>" ++ (stretchy ++ '{' :: (casesStart ++ (g.mathml block style ++ (c!"</mtable></mrow>" ++ r)))) := by
    simp [Operand.mathml, tag, attr, stretchy, casesStart]
  rw [e1, step_cases, h1 k hk _ rfl]
  rfl

/-! ### Pieces -/

theorem other_piece (b : Operand) (n : Nat) (r : Str) : items (n + 1) (b.mathml block style ++ r) = joined n (operand n (b.mathml block style ++ r)) := by
  have id : ∀ c, c ≠ '<' ∧ c ≠ '+' ∧ c ≠ '−' → items (n + 1) (identifier style c ++ r) = joined n (operand n (identifier style c ++ r)) := by
    intro c hc
    rcases identifier_begins style c r with e | e
    · rw [e]; exact step_letter n c r hc
    · rw [e]; exact step_other n _ _ (by decide)
  have el : ∀ t x, c!"<" ++ t ++ c!">" ∈ tags.tail → items (n + 1) (tag t [] x ++ r) = joined n (operand n (tag t [] x ++ r)) := fun t x h => by
    rw [plain_tag]; exact step_other n _ _ h
  cases b with
  | letter c h => exact id c (letter_source h).2
  | named name c h => exact id c (named_source _ h).2
  | matrix g =>
    have e1 : (Operand.matrix g).mathml block style ++ r = c!"<mtable class=\"menv-arraylike\">" ++ (g.mathml block style ++ (c!"</mtable>" ++ r)) := by
      simp [Operand.mathml, tag, attr]
    rw [e1]
    exact step_other n _ _ (by decide)
  | _ => exact el _ _ (by decide)

theorem plain_back {b : Operand} (h : OperandBack block style b) : PieceBack block style (.plain b) := by
  obtain ⟨m, h⟩ := h
  refine ⟨m, fun n hn r x u hx => ?_⟩
  rw [Scripted.mathml, other_piece, h n hn]
  show (items n r).map _ = _
  rw [hx]
  rfl

/-- The source of a script, from its MathML. -/
def IndexBack (block : Bool) (style : MathStyle) (s : Index) : Prop :=
  ∃ n0, ∀ n ≥ n0, ∀ r, ∃ x, operand n (s.mathml block style ++ r) = some (x, r) ∧ unspaced x = s.source

theorem sup_back {b : Operand} {e : Index} (h : OperandBack block style b) (he : IndexBack block style e) : PieceBack block style (.sup b e) := by
  obtain ⟨m, h⟩ := h
  obtain ⟨m', h'⟩ := he
  refine ⟨m + m', fun n hn r x u hx => ?_⟩
  have e1 : (Scripted.sup b e).mathml block style ++ r = c!"<msup>" ++ (b.mathml block style ++ (e.mathml block style ++ (c!"</msup>" ++ r))) := by
    simp [Operand.mathml, Scripted.mathml, tag, attr, stretchy]
  obtain ⟨y, hy, hy'⟩ := h' n (by omega) (c!"</msup>" ++ r)
  rw [e1, step_sup, h n (by omega), Option.bind_some, hy]
  show (items n r).map _ = _
  rw [hx]
  show some (b.source ++ c!"^" ++ unspaced y ++ x, u) = _
  rw [hy']
  rfl

theorem sub_back {b : Operand} {e : Index} (h : OperandBack block style b) (he : IndexBack block style e) : PieceBack block style (.sub b e) := by
  obtain ⟨m, h⟩ := h
  obtain ⟨m', h'⟩ := he
  refine ⟨m + m', fun n hn r x u hx => ?_⟩
  have e1 : (Scripted.sub b e).mathml block style ++ r = c!"<msub>" ++ (b.mathml block style ++ (e.mathml block style ++ (c!"</msub>" ++ r))) := by
    simp [Operand.mathml, Scripted.mathml, tag, attr, stretchy]
  obtain ⟨y, hy, hy'⟩ := h' n (by omega) (c!"</msub>" ++ r)
  rw [e1, step_sub _ _ (operand_facts b _).2.1, h n (by omega), Option.bind_some, hy]
  show (items n r).map _ = _
  rw [hx]
  show some (b.source ++ c!"_" ++ unspaced y ++ x, u) = _
  rw [hy']
  rfl

theorem subSup_back {b : Operand} {l e : Index} (h : OperandBack block style b) (hl : IndexBack block style l) (he : IndexBack block style e) : PieceBack block style (.subSup b l e) := by
  obtain ⟨m, h⟩ := h
  obtain ⟨m', h'⟩ := he
  obtain ⟨m2, h2⟩ := hl
  refine ⟨m + m' + m2, fun n hn r x u hx => ?_⟩
  have e1 : (Scripted.subSup b l e).mathml block style ++ r =
      c!"<msubsup>" ++ (b.mathml block style ++ (l.mathml block style ++ (e.mathml block style ++ (c!"</msubsup>" ++ r)))) := by
    simp [Operand.mathml, Scripted.mathml, tag, attr, stretchy]
  obtain ⟨y, hy, hy'⟩ := h' n (by omega) (c!"</msubsup>" ++ r)
  obtain ⟨z, hz, hz'⟩ := h2 n (by omega) (e.mathml block style ++ (c!"</msubsup>" ++ r))
  rw [e1, step_subSup _ _ (operand_facts b _).2.1, h n (by omega), Option.bind_some, hz, Option.bind_some, hy]
  show (items n r).map _ = _
  rw [hx]
  show some (b.source ++ c!"_" ++ unspaced z ++ c!"^" ++ unspaced y ++ x, u) = _
  rw [hy', hz']
  rfl

/-! ### Expressions -/

theorem one_back {i : Scripted} (h : PieceBack block style i) : ExprBack block style (.one i) := by
  intro after
  obtain ⟨m, h⟩ := h
  refine ⟨m + 2, fun n hn r hr => ?_⟩
  obtain ⟨k, rfl, hk⟩ := succ_of_ge hn
  obtain ⟨k, rfl, hk⟩ := succ_of_ge hk
  have h0 : items (k + 1) r = some ([], r) := by rw [items, if_pos hr]
  have := h (k + 1) (by omega) r _ _ h0
  rw [List.append_nil] at this
  exact this

theorem next_back {i : Scripted} {e : Expr} (h : PieceBack block style i) (he : ExprBack block style e) : ExprBack block style (.next i e) := by
  intro after
  obtain ⟨m, h⟩ := h
  obtain ⟨m', h'⟩ := he true
  refine ⟨m + m' + 1, fun n hn r hr => ?_⟩
  obtain ⟨k, rfl, hk⟩ := succ_of_ge hn
  rw [Expr.mathml, List.append_assoc]
  exact h k (by omega) _ _ _ (h' k (by omega) r hr)

theorem infix_back {i : Scripted} {o : Infix} {e : Expr} (h : PieceBack block style i) (he : ExprBack block style e) : ExprBack block style (.infix i o e) := by
  intro after
  obtain ⟨m, h⟩ := h
  obtain ⟨m', h'⟩ := he false
  refine ⟨m + m' + 2, fun n hn r hr => ?_⟩
  obtain ⟨k, rfl, hk⟩ := succ_of_ge hn
  obtain ⟨k, rfl, hk⟩ := succ_of_ge hk
  have hs : signSource o.sign = o.source := by
    cases o with
    | operation name c hc => exact command_source (name, c) (List.mem_append_left _ hc)
    | relation name c hc => exact command_source (name, c) (List.mem_append_right _ hc)
    | _ => decide
  have h1 := step_sign k o.sign (e.mathml block style false ++ r)
  rw [h' k (by omega) r hr, hs] at h1
  have := h (k + 1) (by omega) _ _ _ h1
  rw [Expr.mathml, Expr.source]
  simp only [List.append_assoc] at this ⊢
  exact this

theorem signed_back {s : Sign} {e : Expr} (he : ExprBack block style e) : ExprBack block style (.signed s e) := by
  intro after
  obtain ⟨m', h'⟩ := he (!after)
  refine ⟨m' + 1, fun n hn r hr => ?_⟩
  obtain ⟨k, rfl, hk⟩ := succ_of_ge hn
  have hs : signSource s.sign = s.source := by cases s <;> decide
  rw [Expr.mathml, List.append_assoc]
  cases after with
  | true =>
    have h1 := step_sign k s.sign (e.mathml block style (!true) ++ r)
    rw [h' k hk r hr, hs] at h1
    exact h1
  | false =>
    cases s with
    | plus =>
      have h1 := step_plus k (e.mathml block style (!false) ++ r)
      rw [h' k hk r hr] at h1
      exact h1
    | minus =>
      have h1 := step_minus k (e.mathml block style (!false) ++ r)
      rw [h' k hk r hr] at h1
      exact h1

theorem apply_back {f : Func} {e : Expr} (he : ExprBack block style e) : ExprBack block style (.apply f e) := by
  intro after
  obtain ⟨m', h'⟩ := he false
  have key : ∀ n ≥ m' + 3, ∀ r, stops r = true → items n (c!"<mi>" ++ (f.name ++ (c!"</mi>" ++ (c!"<mo>" ++ '⁡' :: (c!"</mo>" ++ (thin ++ (e.mathml block style false ++ r))))))) =
      some ((Expr.apply f e).source, r) := by
    intro n hn r hr
    obtain ⟨k, rfl⟩ : ∃ k, n = k + 3 := ⟨n - 3, by omega⟩
    rw [step_func, step_sign, step_thin, h' k (by omega) r hr]
    rfl
  refine ⟨m' + 4, fun n hn r hr => ?_⟩
  obtain ⟨k, rfl, hk⟩ := succ_of_ge hn
  have e1 : tag c!"mi" [] f.name ++ (tag c!"mo" [] ['⁡'] ++ (thin ++ (e.mathml block style false ++ r))) =
      c!"<mi>" ++ (f.name ++ (c!"</mi>" ++ (c!"<mo>" ++ '⁡' :: (c!"</mo>" ++ (thin ++ (e.mathml block style false ++ r)))))) := by
    rw [plain_tag]; rfl
  rw [Expr.mathml, thin_eq]
  simp only [List.append_assoc]
  rw [e1]
  cases after with
  | false => exact key (k + 1) (by omega) r hr
  | true =>
    have := step_thin k (c!"<mi>" ++ (f.name ++ (c!"</mi>" ++ (c!"<mo>" ++ '⁡' :: (c!"</mo>" ++ (thin ++ (e.mathml block style false ++ r)))))))
    rw [key k hk r hr] at this
    exact this

theorem big_back {op : BigOp} {l u : Index} {e : Expr} (hl : IndexBack block style l) (hu : IndexBack block style u) (he : ExprBack block style e) : ExprBack block style (.big op l u e) := by
  intro after
  obtain ⟨m1, h1⟩ := hl
  obtain ⟨m2, h2⟩ := hu
  obtain ⟨m3, h3⟩ := he (l.grouped || u.grouped)
  refine ⟨m1 + m2 + m3 + 1, fun n hn r hr => ?_⟩
  obtain ⟨k, rfl, hk⟩ := succ_of_ge hn
  have hs : bigSource op.sign = op.source := by cases op <;> decide
  have e1 : (Expr.big op l u e).mathml block style after ++ r =
      c!"<" ++ (if op.stacked block then c!"munderover" else c!"msubsup") ++ c!">" ++ (movable ++ op.sign :: (c!"</mo>" ++ (l.mathml block style ++
        (u.mathml block style ++ (c!"</" ++ (if op.stacked block then c!"munderover" else c!"msubsup") ++ c!">" ++ (e.mathml block style (l.grouped || u.grouped) ++ r)))))) := by
    simp [Expr.mathml, tag, attr, movable]
  obtain ⟨y, hy, hy'⟩ := h1 k (by omega) (u.mathml block style ++ (c!"</" ++ (if op.stacked block then c!"munderover" else c!"msubsup") ++ c!">" ++ (e.mathml block style (l.grouped || u.grouped) ++ r)))
  obtain ⟨z, hz, hz'⟩ := h2 k (by omega) (c!"</" ++ (if op.stacked block then c!"munderover" else c!"msubsup") ++ c!">" ++ (e.mathml block style (l.grouped || u.grouped) ++ r))
  rw [e1, step_big, hy, Option.bind_some, hz, Option.bind_some, expect_append]
  show (items k (e.mathml block style (l.grouped || u.grouped) ++ r)).map _ = _
  rw [h3 k (by omega) r hr, hs]
  show some (op.source ++ c!"_" ++ unspaced y ++ c!"^" ++ unspaced z ++ e.source, r) = _
  rw [hy', hz']
  rfl

theorem ranged_back {op : BigOp} {l : Index} {e : Expr} (hl : IndexBack block style l) (he : ExprBack block style e) : ExprBack block style (.ranged op l e) := by
  intro after
  obtain ⟨m1, h1⟩ := hl
  obtain ⟨m3, h3⟩ := he l.grouped
  refine ⟨m1 + m3 + 1, fun n hn r hr => ?_⟩
  obtain ⟨k, rfl, hk⟩ := succ_of_ge hn
  have hs : bigSource op.sign = op.source := by cases op <;> decide
  have e1 : (Expr.ranged op l e).mathml block style after ++ r =
      c!"<" ++ (if op.stacked block then c!"munder" else c!"msub") ++ c!">" ++ (movable ++ op.sign :: (c!"</mo>" ++ (l.mathml block style ++
        (c!"</" ++ (if op.stacked block then c!"munder" else c!"msub") ++ c!">" ++ (e.mathml block style l.grouped ++ r))))) := by
    simp [Expr.mathml, tag, attr, movable]
  obtain ⟨y, hy, hy'⟩ := h1 k (by omega) (c!"</" ++ (if op.stacked block then c!"munder" else c!"msub") ++ c!">" ++ (e.mathml block style l.grouped ++ r))
  rw [e1, step_ranged, hy, Option.bind_some, expect_append]
  show (items k (e.mathml block style l.grouped ++ r)).map _ = _
  rw [h3 k (by omega) r hr, hs]
  show some (op.source ++ c!"_" ++ unspaced y ++ e.source, r) = _
  rw [hy']
  rfl

theorem unspaced_last : ∀ {x : Str}, x.getLast? ≠ some ' ' → unspaced x = x
  | [], _ => rfl
  | [_], _ => rfl
  | [a, b], h => by
    unfold unspaced
    split
    · rename_i d e
      injection e with e1 e2
      injection e2 with e2
      subst e2
      exact absurd rfl h
    · rfl
  | _ :: _ :: _ :: _, _ => by simp [unspaced]

theorem letter_index {c : Char} (h : isLetter c = true) : IndexBack block style (.letter c h) :=
  ⟨1, fun n hn r => ⟨[c], identifier_back c _ (letter_source h).1 n hn r, rfl⟩⟩

theorem digit_index {c : Char} (h : isDigit c = true) : IndexBack block style (.digit c h) := by
  refine ⟨1, fun n hn r => ⟨[c, ' '], ?_, by simp [unspaced, h, Index.source]⟩⟩
  obtain ⟨k, rfl, -⟩ := succ_of_ge hn
  obtain ⟨h1, h2⟩ := run_back (p := inNumber) [c] (by simp [inNumber, h]) '<' (by decide) (c!"/mn>" ++ r)
  have := step_number k ([c] ++ '<' :: (c!"/mn>" ++ r))
  rw [h1, h2] at this
  rw [Index.mathml, plain_tag]
  exact this

theorem braced_index {e : Expr} (h : ExprBack block style e) : IndexBack block style (.braced e) := by
  obtain ⟨m, h⟩ := group_back h
  exact ⟨m, fun n hn r => ⟨_, h n hn r, unspaced_last (by rw [Operand.source, List.getLast?_append]; simp)⟩⟩

mutual
theorem operand_back : ∀ b : Operand, OperandBack block style b
  | .letter c h => ⟨1, identifier_back c _ (letter_source h).1⟩
  | .named _ c h => ⟨1, identifier_back c _ (named_source _ h).1⟩
  | .number ds h => ⟨1, fun n hn r => by
      obtain ⟨k, rfl, -⟩ := succ_of_ge hn
      obtain ⟨h1, h2⟩ := run_back ds h.2.2 '<' (by decide) (c!"/mn>" ++ r)
      have := step_number k (ds ++ '<' :: (c!"/mn>" ++ r))
      rw [h1, h2] at this
      rw [Operand.mathml, plain_tag]
      exact this⟩
  | .word t h => ⟨1, fun n hn r => by
      obtain ⟨k, rfl, -⟩ := succ_of_ge hn
      obtain ⟨h1, h2⟩ := run_back t h.2.2 '<' (by decide) (c!"/mtext>" ++ r)
      have := step_word k (t ++ '<' :: (c!"/mtext>" ++ r))
      rw [h1, h2] at this
      rw [Operand.mathml, plain_tag]
      exact this⟩
  | .group e => group_back (expr_back e)
  | .fraction a b => frac_back (expr_back a) (expr_back b)
  | .root e => root_back (expr_back e)
  | .nthRoot i e => nthRoot_back (operand_back i) (expr_back e)
  | .accented _ e => accent_back (expr_back e)
  | .styled _ _ _ h => styled_back h
  | .fenced _ e => fence_back (expr_back e)
  | .matrix g => matrix_back (grid_back g)
  | .choice g => choice_back (grid_back g)
theorem piece_back : ∀ i : Scripted, PieceBack block style i
  | .plain b => plain_back (operand_back b)
  | .sup b s => sup_back (operand_back b) (index_back s)
  | .sub b s => sub_back (operand_back b) (index_back s)
  | .subSup b l u => subSup_back (operand_back b) (index_back l) (index_back u)
theorem index_back : ∀ s : Index, IndexBack block style s
  | .braced e => braced_index (expr_back e)
  | .letter _ h => letter_index h
  | .digit _ h => digit_index h
theorem expr_back : ∀ e : Expr, ExprBack block style e
  | .one i => one_back (piece_back i)
  | .next i e => next_back (piece_back i) (expr_back e)
  | .infix i _ e => infix_back (piece_back i) (expr_back e)
  | .signed _ e => signed_back (expr_back e)
  | .apply _ e => apply_back (expr_back e)
  | .big _ l u e => big_back (index_back l) (index_back u) (expr_back e)
  | .ranged _ l e => ranged_back (index_back l) (expr_back e)
theorem entries_back : ∀ es : Entries, CellsBack block style es
  | .last e => lastCell_back (expr_back e)
  | .cons e es => cell_back (expr_back e) (entries_back es)
theorem grid_back : ∀ g : Grid, RowsBack block style g
  | .last es => lastRow_back (entries_back es)
  | .cons es g => row_back (entries_back es) (grid_back g)
end

/-- The MathML of an expression tells its LaTeX. -/
theorem same_source {e e' : Expr} (h : e.mathml block style false = e'.mathml block style false) : e.source = e'.source := by
  obtain ⟨n, h1⟩ := expr_back (block := block) (style := style) e false
  obtain ⟨n', h2⟩ := expr_back (block := block) (style := style) e' false
  have h1 := h1 (n + n') (by omega) [] rfl
  rw [h, h2 (n + n') (by omega) [] rfl] at h1
  injection h1 with h1
  exact (congrArg Prod.fst h1).symm

end
end PL.Props.Back
