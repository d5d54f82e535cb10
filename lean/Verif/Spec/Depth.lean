import Verif.Spec.Items
set_option autoImplicit false
/-!
# Specification of the depth of calls

`Parser::next` calls itself when there is nothing to return yet (parser.rs 107 and 177).
-/
namespace PL.Spec
open PL

/-- A call of `next` returns `o`; it and the calls of `next` that it makes are nested to the depth `d`. -/
inductive CallTo (cf : Cfg) : Nat → State → Option Item → State → Prop
  | item {s i s'} : step cf s = .item i s' → CallTo cf 1 s (some i) s'
  | none {s} : step cf s = .done → CallTo cf 1 s none s
  | again {d s s' o s''} : step cf s = .again s' → CallTo cf d s' o s'' → CallTo cf (d + 1) s o s''

/-- The text `t`, `n` times, and then `r`. -/
def times (t : Str) : Nat → Str → Str
  | 0, r => r
  | n + 1, r => t ++ times t n r

end PL.Spec
