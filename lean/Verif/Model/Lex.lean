import Verif.Model.Event
import Verif.Model.Tables
set_option autoImplicit false
/-!
# The lexer

`src/parser/lex.rs`. Each function takes `&mut &str`; here it is a computation over `Str`, the
remaining input. All remaining inputs are suffixes of the original one.

Rust scans bytes. All byte comparisons are against ASCII bytes or whole ASCII strings, which
match only at character boundaries, so scanning characters gives the same positions.
-/
namespace PL
namespace Lex

/-- Lexer computations. -/
abbrev L := M Str

/-- `Token`, parser.rs 375-379. A character token carries the whole remaining string starting with the
character (`CharToken::as_str`). -/
inductive Tok where
  | cs (name : Str)
  | chr (c : Char) (rest : Str)
  deriving DecidableEq, Repr

/-- `Argument`, parser.rs 408-412 -/
inductive Arg where
  | token (t : Tok)
  | group (s : Str)
  deriving DecidableEq, Repr

/-- Outcome of the loop of `group_content`. -/
inductive GC where
  /-- closer found: content and the text after the closer -/
  | found (content rest : Str)
  /-- end of input: the input is replaced by the empty string at its end -/
  | eof
  /-- comment without end of line: the input is left as it was -/
  | comment
  | panic (p : Panic)
  deriving DecidableEq, Repr

/-- The loop of `group_content`, lex.rs 72-101. `acc` is the reversed text already scanned.
The checks are in the order of the Rust loop condition and body. -/
def groupLoop (start end_ : Str) : Nat → Bool → Nat → Str → Str → GC
  | 0, _, _, _, _ => .panic .fuel
  | n + 1, escaped, depth, acc, rem =>
    if escaped || depth > 0 || !startsWith end_ rem then
      if blen rem < blen end_ then .eof
      else if !escaped && startsWith start rem then
        groupLoop start end_ n escaped (depth + 1) ((rem.take start.length).reverse ++ acc) (rem.drop start.length)
      else if !escaped && startsWith end_ rem then
        -- `depth.checked_sub(1).is_none()` breaks out of the loop
        if depth = 0 then .found acc.reverse (rem.drop end_.length)
        else groupLoop start end_ n escaped (depth - 1) ((rem.take end_.length).reverse ++ acc) (rem.drop end_.length)
      else
        match rem with
        | [] => .panic .index
        | c :: r =>
          if c = '\\' then groupLoop start end_ n (!escaped) depth (c :: acc) r
          else if c = '%' && !escaped then
            match splitOnce c!"\n" rem with
            | none => .comment
            | some (before, after) =>
              groupLoop start end_ n escaped depth ('\n' :: before.reverse ++ acc) after
          else groupLoop start end_ n false depth (c :: acc) r
    else .found acc.reverse (rem.drop end_.length)

/-- `group_content`, lex.rs 65-105 -/
def groupContent (k : GroupingKind) : L Str := fun s =>
  match groupLoop k.openingStr k.closingStr (s.length + 1) false 0 [] s with
  | .found content rest => .ok content rest
  | .eof => .err (.unbalancedGroup (some k)) []
  | .comment => .err (.unbalancedGroup (some k)) s
  | .panic p => .panic p

/-- `rhs_control_sequence`, lex.rs 213-229. The count of letters is compared with the byte length of
the first character. If the first character is a letter, it has one byte and the count is at least 1;
otherwise the count is 0 and the name is the first character. -/
def rhsControlSequence : L Str := fun s =>
  match s with
  | [] => .err .emptyControlSequence s
  | c :: _ =>
    let len := max (s.takeWhile isLetter).length c.utf8Size
    match splitBytes s len with
    | some (name, rest) => .ok name (trimStart rest)
    | none => .panic .sliceBoundary

/-- `control_sequence`, lex.rs 177-189 -/
def controlSequence : L Str := fun s =>
  match s with
  | '\\' :: rest => rhsControlSequence rest
  | [] => .err .emptyControlSequence s
  | _ :: _ => .err .controlSequence s

/-- `token`, lex.rs 463-484. The recursion after a comment is bounded by fuel. -/
def tokenLoop : Nat → L Tok
  | 0, _ => .panic .fuel
  | n + 1, s =>
    match trimStart s with
    | [] => .err .token []
    | c :: r =>
      if c = '\\' then
        match rhsControlSequence r with
        | .ok name rest => .ok (.cs name) rest
        | .err e rest => .err e rest
        | .panic p => .panic p
      else if c = '%' then
        match splitOnce c!"\n" (c :: r) with
        | some (_, rest) => tokenLoop n rest
        | none => tokenLoop n []
      else .ok (.chr c r) r

/-- `token`, lex.rs 463-484 -/
def token : L Tok := fun s => tokenLoop (s.length + 2) s

/-- `argument`, lex.rs 32-40 -/
def argument : L Arg := fun s =>
  match stripPrefix c!"{" (trimStart s) with
  | some rest => (do let g ← groupContent .normal; return Arg.group g : L Arg) rest
  | none => (do let t ← token; return Arg.token t : L Arg) s

/-- `optional_argument`, lex.rs 42-50. An error of `group_content` becomes `None`, with the input
left where the error left it. -/
def optionalArgument : L (Option Str) := fun s =>
  match stripPrefix c!"[" (trimStart s) with
  | some rest =>
    match groupContent .optionalArgument rest with
    | .ok g rest' => .ok (some g) rest'
    | .err _ rest' => .ok none rest'
    | .panic p => .panic p
  | none => .ok none s

/-- `brace_argument`, lex.rs 52-59 -/
def braceArgument : L Str := fun s =>
  match stripPrefix c!"{" (trimStart s) with
  | some rest => groupContent .normal rest
  | none => .err .groupArgument s

/-- `definition`, lex.rs 13-29: control sequence, parameter text, replacement text -/
def definition : L (Str × Str × Str) := do
  let name ← controlSequence
  let input ← M.get
  match splitOnce c!"{" input with
  | none => M.fail .missingExpansion
  | some (paramText, rest) =>
    match paramText.find? (fun c => c == '%' || c == '}') with
    | some c => M.fail (if c = '%' then .commentInParamText else .bracesInParamText)
    | none =>
      M.set rest
      let repl ← groupContent .normal
      return (name, paramText, repl)

/-- Outcome of the loop of `content_with_suffix`. -/
inductive SC where
  /-- suffix found: content and the text after the suffix -/
  | found (content rest : Str)
  /-- end of input: the input is replaced by the empty string at its end -/
  | eof
  /-- error of the inner `group_content`: the input is left as it was -/
  | inner (e : ErrorKind)
  | panic (p : Panic)
  deriving DecidableEq, Repr

/-- The loop of `content_with_suffix`, lex.rs 112-135. In Rust the bound check is made only when
`escaped` is false, so indexing can be out of bounds when the text ends with a backslash. -/
def suffixLoop (suffix : Str) : Nat → Bool → Str → Str → SC
  | 0, _, _, _ => .panic .fuel
  | n + 1, escaped, acc, rem =>
    if !escaped && blen rem < blen suffix then .eof
    else if escaped || !startsWith suffix rem then
      match rem with
      | [] => .panic .index
      | c :: r =>
        if c = '\\' then suffixLoop suffix n (!escaped) (c :: acc) r
        else if c = '%' && !escaped then
          match splitOnce c!"\n" rem with
          -- no end of line: the index moves beyond the end, and the next bound check fails
          | none => .eof
          | some (before, after) => suffixLoop suffix n escaped ('\n' :: before.reverse ++ acc) after
        else if c = '{' && !escaped then
          match groupContent .normal r with
          | .ok g rest => suffixLoop suffix n escaped ('}' :: g.reverse ++ '{' :: acc) rest
          | .err e _ => .inner e
          | .panic p => .panic p
        else suffixLoop suffix n false (c :: acc) r
    else .found acc.reverse (rem.drop suffix.length)

/-- `content_with_suffix`, lex.rs 108-139 -/
def contentWithSuffix (suffix : Str) : L Str := fun s =>
  match suffixLoop suffix (s.length + 1) false [] s with
  | .found content rest => .ok content rest
  | .eof => .err .macroSuffixNotFound []
  | .inner e => .err e s
  | .panic p => .panic p

/-- `token_to_delim`, tables.rs 183-188 -/
def tokenToDelim : Tok → Option (Char × DelimType)
  | .cs name => controlSequenceDelimiterMap name
  | .chr c _ => charDelimiterMap c

/-- `delimiter`, lex.rs 145-148 -/
def delimiter : L (Char × DelimType) := do
  let t ← token
  match tokenToDelim t with
  | some d => return d
  | none => M.fail .delimiter

/-- `futurelet_assignment`, lex.rs 154-162 -/
def futureletAssignment : L (Str × Tok × Str) := do
  let name ← controlSequence
  let input ← M.get
  let _ ← token
  let t ← token
  return (name, t, input)

/-- `let_assignment`, lex.rs 167-174 -/
def letAssignment : L (Str × Tok) := do
  let name ← controlSequence
  let input ← M.get
  match stripPrefix c!"=" (trimStart input) with
  | some s => M.set s
  | none => pure ⟨⟩
  let t ← token
  return (name, t)

/-- One iteration of the loop of `limit_modifiers`, lex.rs 193-206 -/
def limitStep (s : Str) : Option (Str × Bool) :=
  match stripPrefix c!"\\limits" (trimStart s) with
  | some rest => some (rest, true)
  | none => (stripPrefix c!"\\nolimits" (trimStart s)).map fun rest => (rest, false)

/-- `limit_modifiers`, lex.rs 191-208 -/
def limitLoop : Nat → Option Bool → Str → Option Bool × Str
  | 0, out, s => (out, s)
  | n + 1, out, s =>
    match limitStep s with
    | some (rest, l) => limitLoop n (some l) rest
    | none => (out, s)

def limitModifiers (s : Str) : Option Bool × Str := limitLoop s.length none s

/-- One iteration of the loop of `horizontal_lines`, lex.rs 504-514 -/
def lineStep (s : Str) : Option (Str × Line) :=
  match stripPrefix c!"\\hline" (trimStart s) with
  | some rest => some (rest, .solid)
  | none => (stripPrefix c!"\\hdashline" (trimStart s)).map fun rest => (rest, .dashed)

/-- `horizontal_lines`, lex.rs 502-520 -/
def linesLoop : Nat → Str → List Line × Str
  | 0, s => ([], s)
  | n + 1, s =>
    match lineStep s with
    | some (rest, l) => let (ls, s') := linesLoop n rest; (l :: ls, s')
    | none => ([], s)

def horizontalLines (s : Str) : List Line × Str := linesLoop s.length s

/-- `one_optional_space`, lex.rs 450-458: `&input[1..]` panics when the whitespace character is longer
than one byte. -/
def oneOptionalSpace : L Bool := fun s =>
  match s with
  | c :: r => if isWs c then (if c.utf8Size = 1 then .ok true r else .panic .sliceBoundary) else .ok false s
  | [] => .ok false s

/-- `signs`, lex.rs 353-366 -/
def signs : L Int := fun s =>
  let p := fun c => c == '-' || (c == '+' || isWs c)
  let minus := ((s.takeWhile p).filter (· == '-')).length
  .ok (if minus % 2 = 0 then 1 else -1) (trimStart (s.dropWhile p))

/-- Value of a digit run in base `b`, starting from `n`. -/
def digitsVal (b : Nat) (n : Nat) (ds : Str) : Nat := ds.foldl (fun n c => n * b + digitVal c) n

/-- `floating_point`, lex.rs 386-415, on exact decimals -/
def floatingPoint : L Num := do
  let sg ← signs
  let input ← M.get
  let ip := input.takeWhile isDigit
  let rest := input.dropWhile isDigit
  match rest with
  | c :: r =>
    if c = '.' || c = ',' then
      let fp := r.takeWhile isDigit
      M.set (r.dropWhile isDigit)
      return ⟨sg * (digitsVal 10 (digitsVal 10 0 ip) fp : Nat), 10 ^ fp.length⟩
    else
      M.set rest
      return ⟨sg * (digitsVal 10 0 ip : Nat), 1⟩
  | [] =>
    M.set rest
    return ⟨sg * (digitsVal 10 0 ip : Nat), 1⟩

/-- The units of `dimension_unit`, lex.rs 291-305 -/
def unitOf : Char → Char → Option Unit_
  | 'e', 'm' => some .em
  | 'e', 'x' => some .ex
  | 'p', 't' => some .pt
  | 'p', 'c' => some .pc
  | 'i', 'n' => some .in_
  | 'b', 'p' => some .bp
  | 'c', 'm' => some .cm
  | 'm', 'm' => some .mm
  | 'd', 'd' => some .dd
  | 'c', 'c' => some .cc
  | 's', 'p' => some .sp
  | 'm', 'u' => some .mu
  | _, _ => none

/-- `dimension_unit`, lex.rs 288-311. `input.get(0..2)` is `None` or not one of the units when one of
the first two characters is not ASCII, so comparing two characters is equivalent. -/
def dimensionUnit : L Unit_ := do
  M.modify trimStart
  let input ← M.get
  match input with
  | a :: b :: r =>
    match unitOf a b with
    | some u =>
      M.set r
      let _ ← oneOptionalSpace
      return u
    | none => M.fail .dimensionUnit
  | _ => M.fail .dimensionUnit

/-- `dimension`, lex.rs 264-268 -/
def dimension : L Dim := do
  let n ← floatingPoint
  let u ← dimensionUnit
  return ⟨n, u⟩

/-- Optional `plus`/`minus` part of a glue, lex.rs 234-241 -/
def glueTail (kw : Str) : L (Option Dim) := do
  let input ← M.get
  match stripPrefix kw (trimStart input) with
  | some s =>
    M.set s
    let d ← dimension
    return some d
  | none => return none

/-- `glue`, lex.rs 232-243 -/
def glue : L (Dim × Option Dim × Option Dim) := do
  let d ← dimension
  let p ← glueTail c!"plus"
  let m ← glueTail c!"minus"
  return (d, p, m)

/-- Run a lexer on a separate string (`&mut inner`), keeping only its result and what is left of
that string. -/
def onInner {α : Type} (m : L α) (inner : Str) : L (α × Str) := fun s =>
  match m inner with
  | .ok a rest => .ok (a, rest) s
  | .err e _ => .err e s
  | .panic p => .panic p

/-- Shared shape of `glue_or_braced` (lex.rs 249-261) and `dimension_or_braced` (lex.rs 274-285) -/
def orBraced {α : Type} (m : L α) : L α := do
  let input ← M.get
  if startsWith c!"{" (trimStart input) then
    let inner ← braceArgument
    let (r, left) ← onInner m inner
    if !(trimStart left).isEmpty then M.fail .dimensionArgument else return r
  else m

/-- `glue_or_braced`, lex.rs 249-261 -/
def glueOrBraced : L (Dim × Option Dim × Option Dim) := orBraced glue
/-- `dimension_or_braced`, lex.rs 274-285 -/
def dimensionOrBraced : L Dim := orBraced dimension

/-- A `usize` accumulation step `number * b + d` over a digit run. -/
def usizeDigits (cf : Cfg) (b : Nat) (val : Char → Nat) : Nat → Str → Except Panic Nat
  | n, [] => .ok n
  | n, c :: ds =>
    let r := n * b + val c
    if r < 2 ^ 64 then usizeDigits cf b val r ds
    else if cf.overflowChecks then .error .overflow
    else usizeDigits cf b val (r % 2 ^ 64) ds

/-- Common shape of `decimal`, `octal` and `hexadecimal` -/
def radix (cf : Cfg) (b : Nat) (p : Char → Bool) (val : Char → Nat) : L Nat := fun s =>
  match usizeDigits cf b val 0 (s.takeWhile p) with
  | .error e => .panic e
  | .ok n => (do let _ ← oneOptionalSpace; return n : L Nat) (s.dropWhile p)

/-- Upper-case hexadecimal digit: `c.is_ascii_alphanumeric() && c < 'G'`, lex.rs 372 -/
def isHexUpper (c : Char) : Bool := isDigit c || (65 ≤ c.toNat && c.toNat ≤ 70)
/-- `char::to_digit(16)` on such digits -/
def hexVal (c : Char) : Nat := if isDigit c then c.toNat - 48 else c.toNat - 55

/-- `decimal`, lex.rs 418-431 -/
def decimal (cf : Cfg) : L Nat := radix cf 10 isDigit digitVal
/-- `octal`, lex.rs 434-447 (accepts the digits 8 and 9) -/
def octal (cf : Cfg) : L Nat := radix cf 8 isDigit digitVal
/-- `hexadecimal`, lex.rs 369-383 -/
def hexadecimal (cf : Cfg) : L Nat := radix cf 16 isHexUpper hexVal

/-- The character-code case of `unsigned_integer` after the backquote, lex.rs 333-345 -/
def charCode : L Nat := fun s =>
  match s with
  | [] => .err .number s
  | '\\' :: r =>
    match r with
    | [] => .err .number r
    | c :: r' => if c.toNat < 128 then .ok c.toNat r' else .err .characterNumber r
  | c :: r => if c.toNat < 128 then .ok c.toNat r else .err .characterNumber s

/-- `unsigned_integer`, lex.rs 325-350 -/
def unsignedInteger (cf : Cfg) : L Nat := fun s =>
  match s with
  | [] => .err .number s
  | c :: r =>
    if isDigit c then decimal cf s
    else if c.utf8Size ≠ 1 then .panic .sliceBoundary
    else if c = '`' then charCode r
    else if c = '\'' then octal cf r
    else if c = '"' then hexadecimal cf r
    else .err .number r

/-- One hexadecimal digit of either case (`char::to_digit(16)`). -/
def hexDigit? (c : Char) : Option Nat :=
  let n := c.toNat
  if 48 ≤ n && n ≤ 57 then some (n - 48)
  else if 65 ≤ n && n ≤ 70 then some (n - 55)
  else if 97 ≤ n && n ≤ 102 then some (n - 87)
  else none

/-- `u8::from_str_radix(_, 16)` for strings of two bytes: an optional `+`, then at least one digit. -/
def u8Hex (s : Str) : Option Nat :=
  match s with
  | [a, b] =>
    if a = '+' then hexDigit? b
    else match hexDigit? a, hexDigit? b with
      | some x, some y => some (x * 16 + y)
      | _, _ => none
  | _ => none

/-- Result of `color`: a colour, `None`, or a panic. -/
inductive ColorRes where
  | some (rgb : Nat × Nat × Nat)
  | none
  | panic
  deriving DecidableEq, Repr

/-- `color`, lex.rs 486-500. Each slice is taken, and its boundary checked, before it is parsed. -/
def color (s : Str) : ColorRes :=
  match stripPrefix c!"#" s with
  | .some hex =>
    if blen hex = 6 then
      match splitBytes hex 2 with
      | .none => .panic
      | .some (rs, rest) =>
        match u8Hex rs with
        | .none => .none
        | .some r =>
          match splitBytes rest 2 with
          | .none => .panic
          | .some (gs, bs) =>
            match u8Hex gs with
            | .none => .none
            | .some g =>
              match u8Hex bs with
              | .none => .none
              | .some b => .some (r, g, b)
    else .none
  | .none =>
    match dvipsnamesColor s with
    | .some c => .some c
    | .none =>
      match primitiveColor s with
      | .some c => .some c
      | .none => .none

end Lex
end PL
