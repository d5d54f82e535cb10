import Verif.Model.Parser
import Verif.Spec.Clean
set_option autoImplicit false
/-!
# Specifications on the items a parser returns
-/
namespace PL.Spec

/-- The events among some items. -/
def events (its : List Item) : List Event := its.filterMap fun i => match i with
  | .ok e => some e
  | .err _ _ => none

/-- No item is an error. -/
def NoErr (its : List Item) : Prop := ∀ i ∈ its, ∃ e, i = .ok e

/-- What an item says: the event or the kind of error, without the excerpt of the input in the report. -/
def _root_.PL.Item.bare : Item → Event ⊕ ErrorKind
  | .ok e => .inl e
  | .err e _ => .inr e

/-- States reached by calling `next` on a new parser, with the items returned so far. -/
inductive Reached (cf : Cfg) (inp : Str) : List Item → State → Prop
  | new : Reached cf inp [] (State.init inp)
  | item {its s i s'} : Reached cf inp its s → step cf s = .item i s' → Reached cf inp (its ++ [i]) s'
  | again {its s s'} : Reached cf inp its s → step cf s = .again s' → Reached cf inp its s'

/-- A call to `next` returns an item or `None`, in a new state; calls of `next` to itself are part of it. -/
inductive Call (cf : Cfg) : State → Option Item → State → Prop
  | item {s i s'} : step cf s = .item i s' → Call cf s (some i) s'
  | none {s} : step cf s = .done → Call cf s none s
  | again {s s' o s''} : step cf s = .again s' → Call cf s' o s'' → Call cf s o s''

/-- A call to `next` panics. -/
inductive CallPanics (cf : Cfg) : State → Panic → Prop
  | here {s p} : step cf s = .panic p → CallPanics cf s p
  | again {s s' p} : step cf s = .again s' → CallPanics cf s' p → CallPanics cf s p

/-- All items of the input, when the iteration ends with `None`. -/
def Yields (cf : Cfg) (inp : Str) (its : List Item) : Prop := ∃ n, run cf n (State.init inp) = (its, .done)

end PL.Spec
