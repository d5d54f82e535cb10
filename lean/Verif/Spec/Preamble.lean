import Verif.Spec.Expansion
import Verif.Spec.Symbols
import Verif.Spec.Items
import Verif.Model.Tables
set_option autoImplicit false
/-! # Specification of texts that begin with definitions -/
namespace PL.Spec

/-- `Preamble Δ s Δ' t`: `s` is a sequence of definitions followed by `t`, and after them the macros are `Δ'`. -/
inductive Preamble : Known → Str → Known → Str → Prop
  | nil {Δ t} : Preamble Δ t Δ t
  | cons {Δ s Δ' u Δ'' t} : Defining Δ s Δ' u → Preamble Δ' u Δ'' t → Preamble Δ s Δ'' t

/-- The name is not that of a command or a delimiter, nor a blank. -/
structure Meaningless (name : Str) : Prop where
  unknown : name ∉ knownNames
  noDelimiter : controlSequenceDelimiterMap name = none
  visible : ∃ c ∈ name, isWs c = false

end PL.Spec
