import Verif.Spec.Value
import Mathlib.Algebra.Order.Field.Rat
set_option autoImplicit false
/-!
# Specification of numbers that are right up to rounding

A number of single precision is a multiple of `2⁻¹⁴⁹`; numbers are compared as rationals.
-/
namespace PL.Spec

/-- The number of units of `2⁻¹⁴⁹` in one. -/
def unit : ℚ := 2 ^ 149

/-- One rounding changes a number by at most this factor. -/
def ρ : ℚ := 1 + 1 / 2 ^ 23

/-- `x` and `y` are the same up to a factor of `j` roundings. -/
def Near (j : ℕ) (x y : ℚ) : Prop := x ≤ y * ρ ^ j ∧ y ≤ x * ρ ^ j

/-- A number of at most 24 binary digits, at any place. -/
def Exact (k : ℕ) : Prop := ∃ m s, m < 2 ^ 24 ∧ k = m * 2 ^ s

/-- The decimal number with the digits `ip` before and `fp` after the point. -/
def decimalValue (ip fp : Str) : ℚ := (decValue (ip ++ fp) : ℚ) / 10 ^ fp.length

/-- The value of an exact number. -/
def numValue (n : Num) : ℚ := n.num / n.den

end PL.Spec
