set_option autoImplicit false
/-!
# Well-formed UTF-8

Table 3-7 of the Unicode standard (the same as in RFC 3629).
-/
namespace PL.Spec

/-- A continuation byte. -/
def Cont (b : Nat) : Prop := 0x80 ≤ b ∧ b ≤ 0xBF

/-- Byte sequences of single characters. -/
inductive Utf8Char : List Nat → Prop
  | one {a} : a ≤ 0x7F → Utf8Char [a]
  | two {a b} : 0xC2 ≤ a → a ≤ 0xDF → Cont b → Utf8Char [a, b]
  | three {a b c} : 0xE0 ≤ a → a ≤ 0xEF → Cont b → (a = 0xE0 → 0xA0 ≤ b) → (a = 0xED → b ≤ 0x9F) → Cont c →
      Utf8Char [a, b, c]
  | four {a b c d} : 0xF0 ≤ a → a ≤ 0xF4 → Cont b → (a = 0xF0 → 0x90 ≤ b) → (a = 0xF4 → b ≤ 0x8F) → Cont c → Cont d →
      Utf8Char [a, b, c, d]

/-- Well-formed byte sequences. -/
inductive Utf8 : List Nat → Prop
  | nil : Utf8 []
  | cons {x y} : Utf8Char x → Utf8 y → Utf8 (x ++ y)

/-- Every prefix that ends between two characters is well-formed, and so is what follows. -/
theorem Utf8.append {a b : List Nat} (ha : Utf8 a) (hb : Utf8 b) : Utf8 (a ++ b) := by
  induction ha with
  | nil => exact hb
  | cons h _ ih => rw [List.append_assoc]; exact .cons h ih

end PL.Spec
