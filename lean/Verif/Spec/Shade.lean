import Verif.Model.Str
set_option autoImplicit false
/-!
# What a browser makes of a colour in CSS

From CSS Color Module Level 4: the hexadecimal notation (section 5.2), where three or four digits are each repeated, and the function `rgb`
with three numbers separated by spaces (section 5.1). The result is red, green, blue and opacity, each from 0 to 255. Notations that the
renderer does not use are left out.
-/
namespace PL.Spec

/-- The value of a hexadecimal digit. -/
def nibble (c : Char) : Option Nat :=
  if '0' ≤ c ∧ c ≤ '9' then some (c.toNat - 48)
  else if 'a' ≤ c ∧ c ≤ 'f' then some (c.toNat - 87)
  else if 'A' ≤ c ∧ c ≤ 'F' then some (c.toNat - 55)
  else none

/-- The values of all digits of a text, or nothing if a character is not a digit. -/
def nibbles : Str → Option (List Nat)
  | [] => some []
  | c :: s => match nibble c, nibbles s with
    | some k, some ks => some (k :: ks)
    | _, _ => none

/-- The hexadecimal notation without `#`. -/
def hexColour (s : Str) : Option (Nat × Nat × Nat × Nat) :=
  match nibbles s with
  | some [r, g, b] => some (17 * r, 17 * g, 17 * b, 255)
  | some [r, g, b, a] => some (17 * r, 17 * g, 17 * b, 17 * a)
  | some [r, r', g, g', b, b'] => some (16 * r + r', 16 * g + g', 16 * b + b', 255)
  | some [r, r', g, g', b, b', a, a'] => some (16 * r + r', 16 * g + g', 16 * b + b', 16 * a + a')
  | _ => none

/-- A decimal number and the text after it. The first argument is the value of the digits read so far. -/
def decimalFrom (n : Nat) : Str → Nat × Str
  | [] => (n, [])
  | c :: s => if '0' ≤ c ∧ c ≤ '9' then decimalFrom (10 * n + (c.toNat - 48)) s else (n, c :: s)

/-- Three numbers separated by single spaces and closed by a parenthesis; numbers above 255 count as 255. -/
def rgbColour (s : Str) : Option (Nat × Nat × Nat × Nat) :=
  match decimalFrom 0 s with
  | (r, ' ' :: s) => match decimalFrom 0 s with
    | (g, ' ' :: s) => match decimalFrom 0 s with
      | (b, [')']) => some (min r 255, min g 255, min b 255, 255)
      | _ => none
    | _ => none
  | _ => none

/-- A colour as it is written in a declaration. -/
def shade : Str → Option (Nat × Nat × Nat × Nat)
  | '#' :: s => hexColour s
  | 'r' :: 'g' :: 'b' :: '(' :: s => rgbColour s
  | _ => none

end PL.Spec
