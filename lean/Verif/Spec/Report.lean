import Verif.Model.Error
set_option autoImplicit false
/-!
# What a report of an error shows

Written from the documentation of `ParserError`: a window of the text around the place of failure, line by line with a
border, underlined, and below it the calls of macros that lead there, outermost last. From the model only `Str`, `blen`
and the record of an expansion (`ExpSpan`) are used.
-/
namespace PL.Spec

/-- The lines of a text: each ended by a newline, perhaps after a carriage return, or by the end of the text. -/
inductive Lines : Str → List Str → Prop
  | nil : Lines [] []
  | last {l : Str} : l ≠ [] → '\n' ∉ l → Lines l [l]
  | lf {l s : Str} {ls : List Str} : '\n' ∉ l → (∀ m, l ≠ m ++ ['\r']) → Lines s ls → Lines (l ++ '\n' :: s) (l :: ls)
  | crlf {l s : Str} {ls : List Str} : '\n' ∉ l → Lines s ls → Lines (l ++ '\r' :: '\n' :: s) (l :: ls)

/-- `p` is the longest beginning of `p ++ r` with at most `k` bytes. -/
def Longest (k : Nat) (p r : Str) : Prop := blen p ≤ k ∧ ∀ c r', r = c :: r' → k < blen (p ++ [c])

/-- `t` is the part of `text` between the bytes `a` and `b`, moved down to the start of a character; `p` is before it. -/
def Window (text : Str) (a b : Nat) (p t : Str) : Prop :=
  ∃ q, text = p ++ t ++ q ∧ Longest a p (t ++ q) ∧ Longest b (p ++ t) q

/-- The lines with their border; the first is marked if something was left out before it. -/
def bordered (cut : Bool) : List Str → Str
  | [] => []
  | l :: ls => '│' :: (if cut then '…' else ' ') :: l ++ c!"\n" ++ (ls.map fun l => c!"│ " ++ l ++ c!"\n").flatten

/-- The number of bytes of the last line. -/
def lastWidth (ls : List Str) (n : Nat) : Prop := (ls = [] ∧ n = 0) ∨ ∃ ls' l, ls = ls' ++ [l] ∧ n = blen l

/-- A report is a stack of windows: the last one is a part of the input, those before it are parts of texts that
macros were expanded to. The window into such a text is followed by one around the call. -/
inductive Reports (input : Str) : List ExpSpan → Nat → Nat → Str → Prop
  | input {a b n : Nat} {p t : Str} {ls : List Str} : Window input a b p t → Lines t ls → lastWidth ls n →
      Reports input [] a b (c!"│\n" ++ bordered (!p.isEmpty) ls ++ c!"│ " ++ List.replicate n '^' ++ c!"\n" ++
        c!"╰─" ++ List.replicate n '─')
  | call {e : ExpSpan} {es : List ExpSpan} {a b n : Nat} {p t r : Str} {ls : List Str} : Window e.full a b p t → Lines t ls →
      lastWidth ls n → Reports input es (e.callStart - 12) (e.callStop + 12) r →
      Reports input (e :: es) a b (c!"│\n" ++ bordered (!p.isEmpty) ls ++ c!"│ " ++ List.replicate n '^' ++ c!"\n" ++
        c!"├─► which was expanded from:\n" ++ r)

/-- The place is inside of the replacement text (or at most twelve bytes behind it), and the same holds for the calls
around it. -/
def Nested : List ExpSpan → Nat → Prop
  | [], _ => True
  | e :: es, i => i ≤ e.expLen + 12 ∧ Nested es e.callStart

/-- What the message of each kind of error has to say. -/
def words : ErrorKind → List Str
  | .unbalancedGroup (some k) => [c!"closed with `" ++ k.closingStr ++ c!"`"]
  | .unbalancedGroup none => [c!"unbalanced", c!"unexpected group closing"]
  | .environment => [c!"environment"]
  | .mathShift => [c!"`$`"]
  | .hashSign => [c!"`#`"]
  | .mathUnit => [c!"mathematical units (mu)"]
  | .delimiter => [c!"expected a delimiter"]
  | .controlSequence => [c!"expected a control sequence"]
  | .number => [c!"expected a number"]
  | .characterNumber => [c!"character", c!"number after '`'", c!"non ascii"]
  | .argument => [c!"expected an argument"]
  | .groupArgument => [c!"expected an argument delimited by"]
  | .doubleSubscript => [c!"subscript twice"]
  | .doubleSuperscript => [c!"superscript twice"]
  | .unknownPrimitive => [c!"unknown", c!"command"]
  | .controlSequenceAsArgument => [c!"control sequence", c!"as argument"]
  | .scriptAsArgument => [c!"subscript", c!"superscript", c!"as argument"]
  | .emptyControlSequence => [c!"empty control sequence"]
  | .unknownColor => [c!"color", c!"#RRGGBB"]
  | .invalidCharNumber => [c!"number", c!"0..=255", c!"character"]
  | .relax => [c!"`\\relax`"]
  | .bracesInParamText => [c!"definition of parameters", c!"{", c!"}"]
  | .commentInParamText => [c!"definition of parameters", c!"`%`"]
  | .incorrectMacroParams found expected => [c!"found parameter #" ++ (toString found).toList ++ c!" but expected #" ++ (toString expected).toList]
  | .incorrectReplacementParams found expected =>
    [c!"found parameter #" ++ (toString found).toList ++ c!" but expected a parameter in the range [1, " ++ (toString expected).toList ++ c!"]"]
  | .tooManyParams => [c!"definition", c!"too many parameters"]
  | .standaloneHashSign => [c!"standalone '#'"]
  | .incorrectMacroPrefix => [c!"macro use", c!"begin with a prefix"]
  | .macroSuffixNotFound => [c!"macro use", c!"end with a suffix"]
  | .macroAlreadyDefined => [c!"already defined"]
  | .macroNotDefined => [c!"not defined"]
  | .dimensionArgument => [c!"dimension or glue argument"]
  | .dimensionUnit => [c!"dimensional unit"]
  | .alignment => [c!"alignment not allowed"]
  | .newLine => [c!"new line", c!"not allowed"]
  | .arrayNoColumns => [c!"array must have at least one column"]
  | .missingExpansion => [c!"missing an expansion"]
  | .macroRecursionLimit => [c!"expansion", c!"limit exceeded"]
  | .token => [c!"expected a token"]

end PL.Spec
