import Verif.Model.Event
set_option autoImplicit false
/-! # Where the texts in events come from -/
namespace PL.Spec

/-- The names of functions that have a command of their own (`amsmath` and plain TeX). -/
def functionNames : List Str :=
  [c!"arccos", c!"arcsin", c!"arctan", c!"arg", c!"cos", c!"cosh", c!"cot", c!"coth", c!"csc", c!"deg", c!"det", c!"dim", c!"exp", c!"gcd", c!"hom",
   c!"inf", c!"ker", c!"lg", c!"lim", c!"lim inf", c!"lim sup", c!"ln", c!"log", c!"max", c!"min", c!"mod", c!"Pr", c!"sec", c!"sgn", c!"sin",
   c!"sinh", c!"sup", c!"tan", c!"tanh"]

/-- A text is taken as it is from what is described by `Q`, or it is the name of a function, or a space that does not break. -/
def Origin (Q : Str → Prop) : Event → Prop
  | .content (.text t) => Q t ∨ t = c!"&nbsp;"
  | .content (.number t) => Q t
  | .content (.function t) => Q t ∨ t ∈ functionNames
  | _ => True

end PL.Spec
