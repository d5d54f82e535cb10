import Verif.Spec.Stream
set_option autoImplicit false
/-!
# Operands that are one element of markup each
-/
namespace PL.Spec

/-- An operand that begins with such an event is rendered as one element: not a function name, which comes with
space and an application operator, nor a state change, nor a space without width. -/
def Visible : List Event → Prop
  | .content (.function _) :: _ => False
  | .content _ :: _ => True
  | .space w _ _ :: _ => w ≠ none
  | .begin_ _ :: _ => True
  | .visual _ :: _ => True
  | .script _ _ :: _ => True
  | _ => False

/-- `WF`, and if `strict`, every operand of a script or visual event is visible. -/
inductive Shown (strict : Bool) : Form → List Event → Prop
  | simple {e} : Simple e → Shown strict .elem [e]
  | group {g b} : Shown strict .body b → Shown strict .elem (.begin_ g :: (b ++ [.end_]))
  | script {ty p ds} : Shown strict (.elems (scriptOperands ty)) ds → Shown strict .elem (.script ty p :: ds)
  | visual {v ds} : Shown strict (.elems (visualOperands v)) ds → Shown strict .elem (.visual v :: ds)
  | nil : Shown strict (.elems 0) []
  | cons {n a b} : Shown strict .elem a → (strict = true → Visible a) → Shown strict (.elems n) b →
      Shown strict (.elems (n + 1)) (a ++ b)
  | empty : Shown strict .body []
  | element {a b} : Shown strict .elem a → Shown strict .body b → Shown strict .body (a ++ b)
  | flow {f b} : Shown strict .body b → Shown strict .body (.flow f :: b)

end PL.Spec
