import Verif.Model.Parser
import Verif.Model.Mathml
set_option autoImplicit false
/-!
# Messages of errors, and what the renderer receives from a parser

`impl Display` of `src/parser/error.rs`.
-/
namespace PL

/-- `impl Display for ErrorKind`, error.rs 184-241. `write_str` takes braces literally. -/
def ErrorKind.message : ErrorKind → Str
  | .unbalancedGroup (some missing) =>
    c!"unbalanced group found, expected it to be closed with `" ++ missing.closingStr ++ c!"`"
  | .unbalancedGroup none => c!"unbalanced group found, unexpected group closing found"
  | .environment => c!"unkown mathematical environment found"
  | .mathShift => c!"unexpected math `$` (math shift) character - this character cannot be used inside math mode"
  | .hashSign => c!"unexpected hash sign `#` character - this character can only be used in macro definitions"
  | .mathUnit => c!"expected mathematical units (mu) in dimension specification"
  | .delimiter => c!"expected a delimiter token"
  | .controlSequence => c!"expected a control sequence"
  | .number => c!"expected a number"
  | .characterNumber => c!"expected a character representing a number after '`'. found a non ascii character"
  | .argument => c!"expected an argument"
  | .groupArgument => c!"expected an argument delimited by `{{}}`"
  | .doubleSubscript => c!"trying to add a subscript twice to the same element"
  | .doubleSuperscript => c!"trying to add a superscript twice to the same element"
  | .unknownPrimitive => c!"unknown primitive command found"
  | .controlSequenceAsArgument => c!"control sequence found as argument to a command that does not support them"
  | .scriptAsArgument => c!"subscript and/or superscript found as argument to a command"
  | .emptyControlSequence => c!"empty control sequence"
  | .unknownColor => c!"unkown color. colors must either be predefined or in the form `#RRGGBB`"
  | .invalidCharNumber => c!"expected a number in the range 0..=255 for it to be translated into a character"
  | .relax => c!"cannot use the `\\relax` command in this context"
  | .bracesInParamText => c!"macro definition of parameters contains '{{' or '}}'"
  | .commentInParamText => c!"macro definition of parameters contains a (`%`) comment"
  | .incorrectMacroParams found expected =>
    c!"macro definition found parameter #" ++ Mathml.decStr found ++ c!" but expected #" ++ Mathml.decStr expected
  | .incorrectReplacementParams found expected =>
    c!"macro definition found parameter #" ++ Mathml.decStr found ++ c!" but expected a parameter in the range [1, " ++
      Mathml.decStr expected ++ c!"]"
  | .tooManyParams => c!"macro definition contains too many parameters, the maximum is 9"
  | .standaloneHashSign => c!"macro definition contains a standalone '#'"
  | .incorrectMacroPrefix =>
    c!"macro use does not match its definition, expected it to begin with a prefix string as specified in the definition"
  | .macroSuffixNotFound =>
    c!"macro use does not match its definition, expected its argument(s) to end with a suffix string as specified in the definition"
  | .macroAlreadyDefined => c!"macro already defined"
  | .macroNotDefined => c!"macro not defined"
  | .dimensionArgument => c!"expected a dimension or glue argument"
  | .dimensionUnit => c!"expected a dimensional unit"
  | .alignment => c!"alignment not allowed in current environment"
  | .newLine => c!"new line command not allowed in current environment"
  | .arrayNoColumns => c!"array must have at least one column of the type `c`, `l` or `r`"
  | .missingExpansion => c!"The macro definition is missing an expansion"
  | .macroRecursionLimit => c!"macro expansion depth limit exceeded (possible infinite recursion)"
  | .token => c!"expected a token"

/-- `impl Display for ParserError`, error.rs 134-142 -/
def errorText (e : ErrorKind) (context : Str) : Str := c!"parsing error: " ++ e.message ++ c!"\n" ++ context

/-- What the renderer receives for an item of the parser: it displays errors, mathml.rs 572-585 -/
def Item.shown : Item → Mathml.RItem
  | .ok e => .ok e
  | .err e context => .err (errorText e context)

end PL
