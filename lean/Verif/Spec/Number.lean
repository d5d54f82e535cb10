import Verif.Spec.Value
set_option autoImplicit false
/-!
# Specification of integer constants

The four notations of TeX: decimal digits, octal digits after an apostrophe, upper-case hexadecimal digits after a double
quote, and the code of a character after a backquote.
-/
namespace PL.Spec

/-- The value of a digit, decimal or upper-case hexadecimal. -/
def digitOf (c : Char) : Nat := if c.toNat ≤ 57 then c.toNat - 48 else c.toNat - 55

/-- The value of a numeral in base `b`, least significant digit first. -/
def valueIn (b : Nat) : Str → Nat
  | [] => 0
  | c :: s => digitOf c + b * valueIn b s

/-- `0` to `9`. -/
def DecDigit (c : Char) : Prop := 48 ≤ c.toNat ∧ c.toNat ≤ 57

/-- `0` to `9` and `A` to `F`. -/
def UpperHex (c : Char) : Prop := DecDigit c ∨ 65 ≤ c.toNat ∧ c.toNat ≤ 70

/-- The digits `ds` are read, as many as there are, and then perhaps one white space character of ASCII. -/
def Digits (p : Char → Prop) (s ds r : Str) : Prop := ∃ u, s = ds ++ u ∧ (∀ c ∈ ds, p c) ∧ (∀ c v, u = c :: v → ¬ p c) ∧
  OptSpace u r ∧ ∀ c v, u = c :: v → isWs c = true → c.toNat < 128

/-- `IntConst s n r`: an integer constant of value `n` starts `s`, and `r` follows. The octal notation accepts the digits 8 and 9,
and the octal and hexadecimal notations accept no digits at all. -/
inductive IntConst : Str → Nat → Str → Prop
  | dec {s ds r} : ds ≠ [] → Digits DecDigit s ds r → IntConst s (valueIn 10 ds.reverse) r
  | oct {s ds r} : Digits DecDigit s ds r → IntConst ('\'' :: s) (valueIn 8 ds.reverse) r
  | hex {s ds r} : Digits UpperHex s ds r → IntConst ('"' :: s) (valueIn 16 ds.reverse) r
  | char {c r} : c ≠ '\\' → c.toNat < 128 → IntConst ('`' :: c :: r) c.toNat r
  | escaped {c r} : c.toNat < 128 → IntConst ('`' :: '\\' :: c :: r) c.toNat r

end PL.Spec
