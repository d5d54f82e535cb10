import Verif.Spec.Define
import Verif.Model.Lex
set_option autoImplicit false
/-!
# Specification of delimiters in the source
-/
namespace PL.Spec
open Lex

/-- A delimiter as a character or a command, with its character and its kind. -/
inductive Delim : Str → Char → DelimType → Str → Prop
  | chr {s c r d ty} : NextTok s (.chr c) r → charDelimiterMap c = some (d, ty) → Delim s d ty r
  | cs {s n r d ty} : NextTok s (.cs n) r → controlSequenceDelimiterMap n = some (d, ty) → Delim s d ty r

/-- What may follow `\left` and `\right`: a full stop directly after it for no delimiter, or a delimiter. -/
inductive DelimText : Str → Option Char → Str → Prop
  | dot {r} : DelimText ('.' :: r) none r
  | chr {s c r d ty} : s.head? ≠ some '.' → NextTok s (.chr c) r → charDelimiterMap c = some (d, ty) → DelimText s (some d) r
  | cs {s n r d ty} : s.head? ≠ some '.' → NextTok s (.cs n) r → controlSequenceDelimiterMap n = some (d, ty) → DelimText s (some d) r

end PL.Spec
