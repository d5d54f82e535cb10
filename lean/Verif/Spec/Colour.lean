import Verif.Spec.Css
import Verif.Spec.Value
import Verif.Model.Lex
set_option autoImplicit false
/-!
# Specification of the names of colours
-/
namespace PL.Spec
open Lex

/-- The documented rules. -/
inductive Colour : Str → Nat × Nat × Nat → Prop
  | hex {a b c d e f x1 x2 x3 x4 x5 x6} : HexDigit a x1 → HexDigit b x2 → HexDigit c x3 → HexDigit d x4 →
      HexDigit e x5 → HexDigit f x6 → Colour ['#', a, b, c, d, e, f] (x1 * 16 + x2, x3 * 16 + x4, x5 * 16 + x6)
  | dvips {s v} : (s, v) ∈ dvipsnames → Colour s v
  | css {s n h} : (∀ v, (s, v) ∉ dvipsnames) → CaseFold s n → (n, h) ∈ cssSpec →
      Colour s (h / 65536, h / 256 % 256, h % 256)

end PL.Spec
