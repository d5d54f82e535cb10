import Verif.Spec.Tags
set_option autoImplicit false
/-!
# Text in which only tags of the vocabulary begin
-/
namespace PL.Spec

/-- Every `<` is the start of a tag of the vocabulary: it is followed by the name of an element, perhaps after a `/`, and
the name ends there. -/
def Marked (t : Str) : Prop := ∀ pre post, t = pre ++ '<' :: post → ∃ n ∈ elementNames, ∃ rest,
  (post = n ++ rest ∨ post = '/' :: (n ++ rest)) ∧ ∀ c r, rest = c :: r → c.isAlpha = false

end PL.Spec
