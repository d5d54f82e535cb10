import Verif.Spec.Formula
set_option autoImplicit false
/-!
# Texts that can be put one after the other

When the second of two texts does not change how the first one is read. Stated on the texts only.
-/
namespace PL.Spec

/-- The commands that read a text, with the number of groups before it. -/
def textCommands : List (Str × Nat) := [
  (c!"operatorname", 0), (c!"text", 0), (c!"textrm", 0), (c!"textbf", 0), (c!"textit", 0), (c!"textsf", 0), (c!"texttt", 0), (c!"colorbox", 1), (c!"fcolorbox", 2)]

/-- After `k` groups comes a group, if there are so many. -/
def GroupAt : Nat → Str → Prop
  | 0, s => ∃ w u, Spaces w ∧ s = w ++ '{' :: u
  | k + 1, s => ∀ g r, Braced s g r → GroupAt k r

/-- Nothing in the text reaches out for what comes after the text: a comment ends in the text and does not end the text, a text command has its text in
braces, and there is no `\buildrel`. -/
structure Closed (t : Str) : Prop where
  comments : ∀ p q, t = p ++ '%' :: q → ∃ a b, q = a ++ '\n' :: b ∧ '%' ∉ b ∧ ∃ c ∈ b, isWs c = false
  texts : ∀ name k p s, (name, k) ∈ textCommands → t = p ++ '\\' :: (name ++ s) → (∀ c r, s = c :: r → isLetter c = false) → GroupAt k s
  over : ¬ c!"\\buildrel" <:+: t

/-- The text `u` does not go on with what `t` ends in: it does not start with white space or with a script or limits, which would belong to the last element of
`t`, nor with a letter after a control word, nor with a digit, full stop or comma after a number. After `\dots` no full stop or comma comes next, and a length
with stretch or the number of a character is not followed by a letter or digit. -/
structure Meets (t u : Str) : Prop where
  first : ∀ c v, u = c :: v → isWs c = false ∧ c ≠ '^' ∧ c ≠ '_'
  limits : ¬ c!"\\limits" <+: u ∧ ¬ c!"\\nolimits" <+: u
  word : ∀ c v, u = c :: v → isLetter c = true → ∀ p name, (∀ x ∈ name, isLetter x = true) → t ≠ p ++ '\\' :: name
  number : ∀ c v, u = c :: v → NumeralChar c → ∀ p d, NumeralChar d → t ≠ p ++ [d]
  low : ∀ c v, u = c :: v → c = '.' ∨ c = ',' → ∀ p w, Spaces w → t ≠ p ++ c!"\\dots" ++ w
  quantity : ∀ c v, u = c :: v → isLetter c = true ∨ isDigit c = true → ¬ c!"\\char" <:+: t ∧ ¬ c!"\\hskip" <:+: t ∧ ¬ c!"\\mskip" <:+: t

end PL.Spec
