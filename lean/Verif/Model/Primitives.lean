import Verif.Model.PrimTable
import Verif.Model.Macros
set_option autoImplicit false
/-!
# Handling of tokens

`src/parser/primitives.rs` and `handle_argument` of `src/parser.rs`.
-/
namespace PL
open Lex

/-- `AlignmentCount`, parser.rs 424-446 -/
structure AlignCount where
  count : Nat
  max : Nat
  deriving DecidableEq, Repr

/-- `Instruction`, parser.rs 414-422 -/
inductive Instr where
  | ev (e : Event)
  | sub (s : Sl) (align : Option AlignCount)
  deriving DecidableEq, Repr

/-- What the handlers read and write: the fields of `InnerParser` (parser.rs 184-192) except the span
stack, which they never touch, and of `ParserState` (state.rs 6-29). -/
structure HSt where
  content : Sl
  buf : List Instr
  allowMods : Bool
  pos : ScriptPos
  skip : Bool
  harg : Bool
  align : Option AlignCount
  macros : Macros.Ctx
  deriving DecidableEq, Repr

/-- Handlers. -/
abbrev H := M HSt

/-- A token with the string it was read from (`CharToken::as_str` is `ctx`). -/
inductive HTok where
  | cs (name : Str)
  | chr (c : Char) (ctx : Sl)
  deriving DecidableEq, Repr

/-- `Argument`, parser.rs 408-412 -/
inductive HArg where
  | token (t : HTok)
  | group (s : Sl)
  deriving DecidableEq, Repr

/-- Position of a token read from `s`. -/
def HTok.ofTok (s : Sl) : Tok → HTok
  | .cs name => .cs name
  | .chr c rest => .chr c ⟨s.src, s.stop, c :: rest⟩

/-- Position of an argument read from `s`, where `rest` is what is left. A group ends one byte (`}`)
before the rest. -/
def HArg.ofArg (s : Sl) (rest : Str) : Arg → HArg
  | .token t => .token (.ofTok s t)
  | .group g => .group (s.part g 1 rest)

namespace H

/-- Run a lexer on `self.content`. -/
def lex {α : Type} (m : L α) : H α := fun s =>
  match m s.content.cs with
  | .ok a rest => .ok a { s with content := { s.content with cs := rest } }
  | .err e rest => .err e { s with content := { s.content with cs := rest } }
  | .panic p => .panic p

/-- A lexer result that cannot fail. -/
def lexPure {α : Type} (f : Str → α × Str) : H α := lex fun s => .ok (f s).1 (f s).2

/-- Run a lexer on another string, dropping what is left of it. -/
def onStr {α : Type} (m : L α) (str : Str) : H α := fun s =>
  match m str with
  | .ok a _ => .ok a s
  | .err e _ => .err e s
  | .panic p => .panic p

/-- `lex::argument(&mut self.content)` -/
def argument : H HArg := fun s =>
  match Lex.argument s.content.cs with
  | .ok a rest => .ok (.ofArg s.content rest a) { s with content := { s.content with cs := rest } }
  | .err e rest => .err e { s with content := { s.content with cs := rest } }
  | .panic p => .panic p

/-- `lex::group_content(&mut self.content, k)` -/
def groupContent (k : GroupingKind) : H Sl := fun s =>
  match Lex.groupContent k s.content.cs with
  | .ok g rest => .ok (s.content.part g (blen k.closingStr) rest) { s with content := { s.content with cs := rest } }
  | .err e rest => .err e { s with content := { s.content with cs := rest } }
  | .panic p => .panic p

/-- `lex::brace_argument(&mut self.content)` -/
def braceArgument : H Sl := fun s =>
  match Lex.braceArgument s.content.cs with
  | .ok g rest => .ok (s.content.part g 1 rest) { s with content := { s.content with cs := rest } }
  | .err e rest => .err e { s with content := { s.content with cs := rest } }
  | .panic p => .panic p

/-- `lex::optional_argument(&mut self.content)` -/
def optionalArgument : H (Option Sl) := fun s =>
  match Lex.optionalArgument s.content.cs with
  | .ok g rest => .ok (g.map fun g => s.content.part g 1 rest) { s with content := { s.content with cs := rest } }
  | .err e rest => .err e { s with content := { s.content with cs := rest } }
  | .panic p => .panic p

/-- `lex::content_with_suffix(&mut self.content, suffix)` -/
def contentWithSuffix (suffix : Str) : H Sl := fun s =>
  match Lex.contentWithSuffix suffix s.content.cs with
  | .ok g rest => .ok (s.content.part g (blen suffix) rest) { s with content := { s.content with cs := rest } }
  | .err e rest => .err e { s with content := { s.content with cs := rest } }
  | .panic p => .panic p

/-- `lex::argument(&mut over_content)` on a local slice, whose rest is dropped (primitives.rs 1434) -/
def argumentOf (sl : Sl) : H HArg := fun s =>
  match Lex.argument sl.cs with
  | .ok a rest => .ok (.ofArg sl rest a) s
  | .err e _ => .err e s
  | .panic p => .panic p

/-- `self.buffer.extend(..)` -/
def push (is : List Instr) : H PUnit := M.modify fun s => { s with buf := s.buf ++ is }
/-- `self.buffer.push(I::Event(e))` -/
def ev (e : Event) : H PUnit := push [.ev e]
def setContent (c : Sl) : H PUnit := M.modify fun s => { s with content := c }
/-- `allow_script_modifiers = true` -/
def allowMods : H PUnit := M.modify fun s => { s with allowMods := true }
/-- `script_position = p` -/
def setPos (p : ScriptPos) : H PUnit := M.modify fun s => { s with pos := p }
/-- `skip_scripts = true` -/
def setSkip : H PUnit := M.modify fun s => { s with skip := true }
/-- `handling_argument = true` -/
def setHarg : H PUnit := M.modify fun s => { s with harg := true }

/-- Result of a function on the macro table. -/
def macros (f : Macros.Ctx → Except (ErrorKind ⊕ Panic) Macros.Ctx) : H PUnit := fun s =>
  match f s.macros with
  | .ok m => .ok ⟨⟩ { s with macros := m }
  | .error (.inl e) => .err e s
  | .error (.inr p) => .panic p

end H
open H

/-- `ordinary`, `relation`, `binary`: primitives.rs 2275-2308 -/
def ordinary (c : Char) : Event := .content (.ordinary c false)
def relation (c : Char) : Event := .content (.relation c none false)
def binary (c : Char) : Event := .content (.binaryOp c false)

/-- The run of digits and separators of a number literal: `char` of length `n` is 1 byte each. -/
def isNumChar (c : Char) : Bool := c == '.' || (c == ',' || isDigit c)

/-- `'0'..='9'` case of `handle_char_token`, primitives.rs 86-108: number of characters taken from
`d :: rest` -/
def numberLen (harg : Bool) (rest : Str) : Nat :=
  if harg then 1
  else
    let run := rest.takeWhile isNumChar
    let len := run.length + 1
    if run.getLast? = some '.' || run.getLast? = some ',' then len - 1 else len

/-- The event of a character that has no special meaning, primitives.rs 109-128 -/
def plainCharEvent (c : Char) : Event :=
  if c = '.' || c = ',' || c = ';' then .content (.punctuation c)
  else if c = '\'' then ordinary '′'
  else if c = '-' then binary '−'
  else if c = '*' then binary '∗'
  else if isBinary c then binary c
  else if isRelation c then relation c
  else
    match charDelimiterMap c with
    | some (d, ty) => if ty = .fence then ordinary d else .content (.delimiter d none ty)
    | none => ordinary c

/-- `handle_char_token`, primitives.rs 29-132 -/
def handleChar (c : Char) (ctx : Sl) : H PUnit := do
  let st ← M.get
  if c = '\\' || c = '%' then M.boom .explicit
  else if c = '_' || c = '^' then
    if st.harg then M.fail .scriptAsArgument
    else
      push [.ev (.begin_ .normal)]
      setContent ctx
      ev .end_
  else if c = '$' then M.fail .mathShift
  else if c = '#' then M.fail .hashSign
  else if c = '&' then
    match st.align with
    | some a =>
      if a.count < a.max && !st.harg then
        M.set { st with align := some { a with count := a.count + 1 } }
        ev (.flow .alignment)
      else M.fail .alignment
    | none => M.fail .alignment
  else if c = '{' then
    let g ← groupContent .normal
    push [.ev (.begin_ .normal), .sub g none, .ev .end_]
  else if c = '}' then M.fail (.unbalancedGroup none)
  else if c = '~' then ev (.content (.text c!"&nbsp;"))
  else if isDigit c then
    let n := numberLen st.harg ctx.cs.tail
    setContent { ctx with cs := ctx.cs.drop n }
    ev (.content (.number (ctx.cs.take n)))
  else ev (plainCharEvent c)

/-- Which arm of `handle_primitive` a name selects: literal arms, then delimiters, then whitespace,
then the catch-all (primitives.rs 1923-1960). -/
def primOf (name : Str) : Prim :=
  match primTable.lookup name with
  | some p => p
  | none =>
    match controlSequenceDelimiterMap name with
    | some (c, ty) => .delim c ty
    | none => if (trimStart name).isEmpty then .nbsp else .unknown

section handlers
variable (cf : Cfg) (rec : HTok → H PUnit)

/-- `handle_argument`, parser.rs 199-221. `rec` is the token handler. -/
def handleArgument : HArg → H PUnit
  | .token t => do
    setHarg
    rec t
  | .group g => push [.ev (.begin_ .normal), .sub g none, .ev .end_]

/-- `let Argument::Group(g) = lex::argument(..)? else { return Err(e) }` -/
def groupArg (e : ErrorKind) : H Sl := do
  match ← argument with
  | .group g => return g
  | .token _ => M.fail e

/-- `lex::color(..).ok_or(UnknownColor)?` -/
def colorOf (s : Str) : H (Nat × Nat × Nat) :=
  match Lex.color s with
  | .some c => pure c
  | .none => M.fail .unknownColor
  | .panic => M.boom .sliceBoundary

/-- `sized_delim`, primitives.rs 1967-1976 -/
def sizedDelim (size : DelimSize) : H PUnit := do
  let (c, ty) ← lex delimiter
  ev (.content (.delimiter c (some size) ty))

/-- The event of a single character with a given class, primitives.rs 2012-2035 -/
def atomEvent (cls : AtomClass) (c : Char) : Event :=
  match cls with
  | .ord => ordinary c
  | .op => .content (.largeOp c false)
  | .bin => binary c
  | .rel => relation c
  | .open_ => .content (.delimiter c none .open_)
  | .close => .content (.delimiter c none .close)
  | .punct => .content (.punctuation c)
  | .inner => ordinary c

/-- `single_char` of `atom_group`, primitives.rs 1998-2010 -/
def singleChar : HArg → Option Char
  | .token (.chr c _) => some c
  | .token (.cs _) => none
  | .group g =>
    match trim g.cs with
    | [c] => some c
    | _ => none

/-- `atom_group`, primitives.rs 1992-2057 -/
def atomGroup (cls : AtomClass) : H PUnit := do
  let arg ← argument
  match singleChar arg with
  | some c => ev (atomEvent cls c)
  | none =>
    match cls, arg with
    | .op, .group g => ev (.content (.function g.cs))
    | _, _ =>
      ev (.begin_ .normal)
      handleArgument rec arg
      ev .end_

/-- `font_group`, primitives.rs 2060-2082 -/
def fontGroup (f : Option Font) : H PUnit := do
  let arg ← argument
  push [.ev (.begin_ .normal), .ev (.stateChange (.font f))]
  match arg with
  | .token t => rec t
  | .group g => push [.sub g none]
  ev .end_

/-- `accent`, primitives.rs 2085-2097 -/
def accent (c : Char) (stretchy : Bool) : H PUnit := do
  let arg ← argument
  ev (.script .sup .aboveBelow)
  handleArgument rec arg
  ev (.content (.ordinary c stretchy))

/-- `underscript`, primitives.rs 2100-2113 -/
def underscript (c : Char) : H PUnit := do
  let arg ← argument
  ev (.script .sub .aboveBelow)
  handleArgument rec arg
  ev (.content (.ordinary c true))

/-- `text_argument`, primitives.rs 2134-2152 -/
def textArgument (f : Option Font) : H PUnit := do
  let text ← (do
    match ← argument with
    | .token (.chr _ ctx) => return ctx.cs
    | .group g => return g.cs
    | .token (.cs _) => M.fail .controlSequenceAsArgument : H Str)
  match f with
  | some f =>
    push [.ev (.begin_ .normal), .ev (.stateChange (.font (some f))), .ev (.content (.text text)), .ev .end_]
  | none => ev (.content (.text text))

/-- `fraction_like`, primitives.rs 2154-2183 -/
def fractionLike (l r : Option Char) (bar : Option Dim) (style : Option Style) : H PUnit := do
  let oc := l.isSome || r.isSome
  if oc then ev (.begin_ (.leftRight l r))
  match style with
  | some s =>
    if !oc then ev (.begin_ .normal)
    ev (.stateChange (.style s))
  | none => pure ⟨⟩
  ev (.visual (.fraction bar))
  let num ← argument
  handleArgument rec num
  let den ← argument
  handleArgument rec den
  if oc || style.isSome then ev .end_

/-- One character of a column specification, primitives.rs 2195-2219 -/
def columnOf : Char → Option ArrayCol
  | 'c' => some (.column .center)
  | 'l' => some (.column .left)
  | 'r' => some (.column .right)
  | '|' => some (.separator .solid)
  | ':' => some (.separator .dashed)
  | _ => none

/-- The loop of `array_environment`, primitives.rs 2190-2220: columns, and `column_count` as a `u16`
which is incremented for every character (a separator decrements it again). -/
def columns : Nat → Str → Except (ErrorKind ⊕ Panic) (List ArrayCol × Nat)
  | n, [] => .ok ([], n)
  | n, c :: s =>
    if n + 1 ≥ 2 ^ 16 && cf.overflowChecks then .error (.inr .overflow)
    else
      match columnOf c with
      | none => .error (.inl .argument)
      | some col =>
        let n' := match col with
          | .column _ => (n + 1) % 2 ^ 16
          | .separator _ => n
        match columns n' s with
        | .error e => .error e
        | .ok (cols, m) => .ok (col :: cols, m)

/-- `contains_column` -/
def ArrayCol.isColumn : ArrayCol → Bool
  | .column _ => true
  | .separator _ => false

/-- `array_environment`, primitives.rs 2185-2227 -/
def arrayEnvironment : H (Grouping × Nat) := do
  let g ← groupArg .argument
  match columns cf 0 g.cs with
  | .error (.inl e) => M.fail e
  | .error (.inr p) => M.boom p
  | .ok (cols, n) =>
    if !cols.any ArrayCol.isColumn then M.fail .arrayNoColumns
    else return (.array cols, n - 1)

/-- `optional_alignment`, primitives.rs 2229-2238, with the default `Center` of its callers -/
def optionalAlignment : H ColAlign := do
  match ← optionalArgument with
  | none => return .center
  | some g =>
    if g.cs = c!"c" then return .center
    else if g.cs = c!"l" then return .left
    else if g.cs = c!"r" then return .right
    else M.fail .argument

/-- `str::parse::<u8>`: an optional `+`, then digits with a value below 256 -/
def parseU8 (s : Str) : Option Nat :=
  let ds := match s with
    | '+' :: r => r
    | _ => s
  if ds.isEmpty || !ds.all isDigit then none
  else
    let n := digitsVal 10 0 ds
    if n < 256 then some n else none

/-- `new_command`, primitives.rs 2240-2272 -/
def newCommand (should : Option Bool) : H PUnit := do
  let group ← braceArgument
  let cs ← onStr controlSequence group.cs
  let st ← M.get
  if should.isSome && should != some (st.macros.contains cs) then
    M.fail (if should = some true then .macroNotDefined else .macroAlreadyDefined)
  else
    match ← optionalArgument with
    | none => M.fail .argument
    | some n =>
      match parseU8 n.cs with
      | none => M.fail .number
      | some argCount =>
        let default ← optionalArgument
        if argCount > 9 then M.fail .tooManyParams
        else
          let repl ← braceArgument
          let st ← M.get
          if st.macros.contains cs && should.isNone then pure ⟨⟩
          else macros fun m => Macros.insertCommand m cs argCount (default.map (·.cs)) repl.cs

/-- The delimiter arguments of `\genfrac`, primitives.rs 1294-1319 -/
def genfracDelim : H (Option Char) := do
  match ← argument with
  | .token t =>
    let d := match t with
      | .cs n => controlSequenceDelimiterMap n
      | .chr c _ => charDelimiterMap c
    match d with
    | some (c, _) => return some c
    | none => M.fail .delimiter
  | .group g => if g.cs.isEmpty then return none else M.fail .delimiter

/-- The bar size argument of `\genfrac`, primitives.rs 1320-1331 -/
def genfracBar : H (Option Dim) := do
  match ← argument with
  | .token _ => M.fail .dimensionArgument
  | .group g =>
    if g.cs.isEmpty then return none
    else
      let (d, left) ← onStr (do let d ← dimension; let l ← M.get; return (d, l) : L (Dim × Str)) g.cs
      if left.isEmpty then return some d else M.fail .dimensionArgument

/-- Style number -/
def styleOf : Char → Option Style
  | '0' => some .display
  | '1' => some .text
  | '2' => some .script
  | '3' => some .scriptScript
  | _ => none

/-- The style argument of `\genfrac`, primitives.rs 1332-1352 -/
def genfracStyle : H (Option Style) := do
  match ← argument with
  | .token (.cs _) => M.fail .argument
  | .token (.chr c _) =>
    match styleOf c with
    | some s => return some s
    | none => M.fail .argument
  | .group g =>
    match g.cs with
    | [] => return none
    | [c] =>
      match styleOf c with
      | some s => return some s
      | none => M.fail .argument
    | _ => M.fail .argument

/-- `pairs` of `alignat`, primitives.rs 1817-1820: `usize as u16` -/
def pairsArg : H Nat := do
  let g ← groupArg .argument
  let n ← onStr (unsignedInteger cf) g.cs
  return n % 2 ^ 16

/-- `(pairs * 2).saturating_sub(1)` on `u16` -/
def pairsMax (pairs : Nat) : H Nat :=
  if pairs * 2 < 2 ^ 16 then pure (pairs * 2 - 1)
  else if cf.overflowChecks then M.boom .overflow
  else pure (pairs * 2 % 2 ^ 16 - 1)

/-- Alignment argument of `subarray`, primitives.rs 1861-1866 -/
def subarrayAlign : H ColAlign := do
  match ← argument with
  | .group g =>
    if g.cs = c!"l" then return .left
    else if g.cs = c!"c" then return .center
    else if g.cs = c!"r" then return .right
    else M.fail .argument
  | .token _ => M.fail .argument

/-- What `\begin` selects: the group, the number of alignments, the closer, the style and the
delimiters around. -/
structure Env where
  g : Grouping
  max : Nat
  kind : GroupingKind
  style : Option Style := none
  wrap : Option (Char × Char) := none
  deriving DecidableEq, Repr

def u16Max : Nat := 65535

/-- `matrix` and its variants, primitives.rs 1570-1730 -/
def matrixEnv (ty : MatrixType) (spec : Bool) (style : Option Style) (wrap : Option (Char × Char)) : H Env := do
  let a ← if spec then optionalAlignment else pure .center
  return { g := .matrix a, max := u16Max, kind := .matrix ty spec, style := style, wrap := wrap }

/-- `alignat` and variants -/
def alignatEnv (g : Nat → Grouping) (kind : GroupingKind) : H Env := do
  let pairs ← pairsArg cf
  let m ← pairsMax cf pairs
  return { g := g pairs, max := m, kind := kind }

/-- The table of environments, primitives.rs 1560-1871 -/
def environments : List (Str × H Env) := [
  (c!"array", do let (g, n) ← arrayEnvironment cf; return { g := g, max := n, kind := .array false }),
  (c!"darray", do
    let (g, n) ← arrayEnvironment cf
    return { g := g, max := n, kind := .array true, style := some .display }),
  (c!"matrix", matrixEnv .normal false none none),
  (c!"matrix*", matrixEnv .normal true none none),
  (c!"smallmatrix", matrixEnv .small false (some .text) none),
  (c!"pmatrix", matrixEnv .parens false none (some ('(', ')'))),
  (c!"pmatrix*", matrixEnv .parens true none (some ('(', ')'))),
  (c!"bmatrix", matrixEnv .brackets false none (some ('[', ']'))),
  (c!"bmatrix*", matrixEnv .brackets true none (some ('[', ']'))),
  (c!"vmatrix", matrixEnv .vertical false none (some ('|', '|'))),
  (c!"vmatrix*", matrixEnv .vertical true none (some ('|', '|'))),
  (c!"Vmatrix", matrixEnv .doubleVertical false none (some ('‖', '‖'))),
  (c!"Vmatrix*", matrixEnv .doubleVertical true none (some ('‖', '‖'))),
  (c!"Bmatrix", matrixEnv .braces false none (some ('{', '}'))),
  (c!"Bmatrix*", matrixEnv .braces true none (some ('{', '}'))),
  (c!"cases", pure { g := .cases true, max := 1, kind := .cases true false }),
  (c!"dcases", pure { g := .cases true, max := 1, kind := .cases true true, style := some .display }),
  (c!"rcases", pure { g := .cases false, max := 1, kind := .cases false false }),
  (c!"drcases", pure { g := .cases false, max := 1, kind := .cases false true, style := some .display }),
  (c!"equation", pure { g := .equation true, max := 0, kind := .equation true }),
  (c!"equation*", pure { g := .equation false, max := 0, kind := .equation false }),
  (c!"align", pure { g := .align true, max := u16Max, kind := .align true }),
  (c!"align*", pure { g := .align false, max := u16Max, kind := .align false }),
  (c!"aligned", pure { g := .aligned, max := u16Max, kind := .aligned }),
  (c!"gather", pure { g := .gather true, max := 0, kind := .gather true }),
  (c!"gather*", pure { g := .gather false, max := 0, kind := .gather false }),
  (c!"gathered", pure { g := .gathered, max := 0, kind := .gathered }),
  (c!"alignat", alignatEnv cf (.alignat · true) (.alignat true)),
  (c!"alignat*", alignatEnv cf (.alignat · false) (.alignat false)),
  (c!"alignedat", alignatEnv cf (.alignedat ·) .alignedat),
  (c!"subarray", do let a ← subarrayAlign; return { g := .subArray a, max := 0, kind := .subArray }),
  (c!"multline", pure { g := .multline, max := 0, kind := .multline }),
  (c!"split", pure { g := .split, max := 1, kind := .split })]

/-- `\begin`, primitives.rs 1552-1900 -/
def beginEnv : H PUnit := do
  let name ← groupArg .argument
  match (environments cf).lookup name.cs with
  | none => M.fail .environment
  | some m =>
    let env ← m
    match env.wrap with
    | some (l, r) => ev (.begin_ (.leftRight (some l) (some r)))
    | none => pure ⟨⟩
    let lines ← lexPure horizontalLines
    let content ← groupContent env.kind
    push ([.ev (.begin_ env.g)] ++
      (match env.style with
        | some s => [.ev (.stateChange (.style s))]
        | none => []) ++
      (if lines.isEmpty then [] else [.ev (.flow (.startLines lines))]) ++
      [.sub content (some ⟨0, env.max⟩), .ev .end_] ++
      (if env.wrap.isSome then [.ev .end_] else []))

/-- The delimiter after `\left` and `\right`, primitives.rs 541-547 and 551-556 -/
def leftDelim : H (Option Char) := do
  let st ← M.get
  match st.content.cs with
  | '.' :: rest =>
    setContent { st.content with cs := rest }
    return none
  | _ =>
    let (c, _) ← lex delimiter
    return some c

/-- `over`/`base` reordering by `split_off` and `extend`, primitives.rs 1398-1440. `n` is the length of
the buffer before the script's events. -/
def scriptSwap (over : H HArg) : H PUnit := do
  let n := (← M.get).buf.length
  let arg ← over
  handleArgument rec arg
  let overEvents := (← M.get).buf.drop n
  M.modify fun s => { s with buf := s.buf.take n }
  let base ← argument
  handleArgument rec base
  push overEvents

/-- The arms of `handle_primitive`, primitives.rs 135-1964 -/
def execPrim : Prim → H PUnit
  | .func s => ev (.content (.function s))
  | .funcMov s => do
    allowMods
    setPos .movable
    ev (.content (.function s))
  | .operatorname => do
    allowMods
    match ← argument with
    | .token (.cs _) => M.fail .controlSequenceAsArgument
    | .token (.chr _ ctx) => ev (.content (.function ctx.cs))
    | .group g => ev (.content (.function g.cs))
  | .pmod => do
    let arg ← argument
    push [.ev (.space (some ⟨⟨1, 1⟩, .em⟩) none none), .ev (.begin_ .normal),
      .ev (.content (.delimiter '(' none .open_)), .ev (.content (.function c!"mod"))]
    handleArgument rec arg
    push [.ev .end_, .ev (.content (.delimiter ')' none .close))]
  | .atom cls => do
    if cls = .op then
      allowMods
      setPos .movable
    atomGroup rec cls
  | .ord c => ev (ordinary c)
  | .rel c small => ev (.content (.relation c none small))
  | .rel2 c d => ev (.content (.relation c (some d) false))
  | .bin c => ev (binary c)
  | .dots => do
    let st ← M.get
    match trimStart st.content.cs with
    | c :: _ => if c = '.' || c = ',' then ev (ordinary '…') else ev (ordinary '⋯')
    | [] => ev (ordinary '⋯')
  | .fontChange f => do
    setSkip
    ev (.stateChange (.font (some f)))
  | .fontGroup f => fontGroup rec f
  | .style s => do
    setSkip
    ev (.stateChange (.style s))
  | .color => do
    let g ← groupArg .argument
    setSkip
    let c ← colorOf g.cs
    ev (.stateChange (.color c .text))
  | .textcolor => do
    let g ← groupArg .argument
    let c ← colorOf g.cs
    let arg ← argument
    push [.ev (.begin_ .normal), .ev (.stateChange (.color c .text))]
    handleArgument rec arg
    ev .end_
  | .colorbox => do
    let g ← groupArg .argument
    let c ← colorOf g.cs
    push [.ev (.begin_ .normal), .ev (.stateChange (.color c .background))]
    textArgument none
    ev .end_
  | .fcolorbox => do
    let f ← groupArg .argument
    let b ← groupArg .argument
    let fc ← colorOf f.cs
    let bc ← colorOf b.cs
    push [.ev (.begin_ .normal), .ev (.stateChange (.color fc .border)),
      .ev (.stateChange (.color bc .background))]
    textArgument none
    ev .end_
  | .sized s => sizedDelim s
  | .left => do
    let opening ← leftDelim
    let content ← groupContent .leftRight
    let closing ← leftDelim
    push [.ev (.begin_ (.leftRight opening closing)), .sub content none, .ev .end_]
  | .middle => do
    let (c, _) ← lex delimiter
    ev (.content (.delimiter c (some .big) .fence))
  | .unbalanced => M.fail (.unbalancedGroup none)
  | .largeOp c movable => do
    allowMods
    setPos (if movable then .movable else .right)
    ev (.content (.largeOp c false))
  | .smallint => do
    allowMods
    ev (.content (.largeOp '∫' true))
  | .accent c stretchy above => do
    if above then setPos .aboveBelow
    accent rec c stretchy
  | .under c above => do
    if above then setPos .aboveBelow
    underscript rec c
  | .space w h => ev (.space w h none)
  | .nbsp => ev (.content (.text c!"&nbsp;"))
  | .kern => do
    let d ← lex dimensionOrBraced
    ev (.space (some d) none none)
  | .hskip => do
    let (d, _, _) ← lex glueOrBraced
    ev (.space (some d) none none)
  | .mkern => do
    let d ← lex dimensionOrBraced
    if d.unit = .mu then ev (.space (some d) none none) else M.fail .mathUnit
  | .mskip => do
    let (d, p, m) ← lex glueOrBraced
    if d.unit = .mu && p.all (·.unit = .mu) && m.all (·.unit = .mu) then ev (.space (some d) none none)
    else M.fail .mathUnit
  | .hspace => do
    let g ← groupArg .dimensionArgument
    let (d, _, _) ← onStr glue g.cs
    ev (.space (some d) none none)
  | .space3 => do
    let g ← groupArg .dimensionArgument
    let w ← onStr dimension g.cs
    let g ← groupArg .dimensionArgument
    let h ← onStr dimension g.cs
    let g ← groupArg .dimensionArgument
    let d ← onStr dimension g.cs
    ev (.space (some w) (some h) (some d))
  | .xarrow c => do
    let below ← optionalArgument
    let above ← argument
    push [.ev (.script (if below.isSome then .subSup else .sup) .aboveBelow), .ev (relation c)]
    match below with
    | some b => handleArgument rec (.group b)
    | none => pure ⟨⟩
    handleArgument rec above
  | .frac l r bar style => fractionLike rec l r bar style
  | .genfrac => do
    let l ← genfracDelim
    let r ← genfracDelim
    let bar ← genfracBar
    let style ← genfracStyle
    fractionLike rec l r bar style
  | .overset ty => do
    ev (.script ty .aboveBelow)
    scriptSwap rec argument
  | .buildrel => do
    let over ← contentWithSuffix c!"\\over"
    ev (.script .sup .aboveBelow)
    scriptSwap rec (argumentOf over)
  | .substack => do
    let g ← braceArgument
    push [.ev (.begin_ (.subArray .center)), .sub g (some ⟨0, 0⟩), .ev .end_]
  | .sideset => do
    let _ ← argument
    let _ ← argument
    let base ← argument
    handleArgument rec base
  | .sqrt => do
    match ← optionalArgument with
    | some index =>
      ev (.visual .root)
      let arg ← argument
      handleArgument rec arg
      push [.sub index none]
    | none =>
      ev (.visual .squareRoot)
      let arg ← argument
      handleArgument rec arg
  | .surd => push [.ev (.visual .squareRoot), .ev (.space (some ⟨⟨0, 1⟩, .em⟩) (some ⟨⟨7, 10⟩, .em⟩) none)]
  | .text f => textArgument f
  | .not_ => do
    ev (.visual .negation)
    let arg ← argument
    handleArgument rec arg
  | .char => do
    let n ← lex (unsignedInteger cf)
    if n > 255 then M.fail .invalidCharNumber else ev (ordinary (Char.ofNat n))
  | .relax => do
    let st ← M.get
    if st.harg then M.fail .relax
  | .begingroup => do
    let g ← groupContent .beginEnd
    push [.ev (.begin_ .normal), .sub g none, .ev .end_]
  | .begin_ => beginEnv cf
  | .newline => do
    let st ← M.get
    match st.align with
    | some a =>
      if st.harg then M.fail .newLine
      else
        M.set { st with align := some { a with count := 0 } }
        let spacing ← (do
          match ← optionalArgument with
          | some g => return some (← onStr dimension g.cs)
          | none => return none : H (Option Dim))
        let lines ← lexPure horizontalLines
        ev (.flow (.newLine spacing lines))
    | none => M.fail .newLine
  | .def_ => do
    let (name, params, repl) ← lex definition
    setSkip
    macros fun m => Macros.define m name params repl
  | .let_ => do
    let (name, t) ← lex letAssignment
    setSkip
    macros fun m => .ok (m.assign name t)
  | .futurelet => do
    let (name, t, rest) ← lex futureletAssignment
    setSkip
    macros fun m => .ok (m.assign name t)
    M.modify fun s => { s with content := { s.content with cs := rest } }
  | .newcommand should => newCommand should
  | .delim c ty => ev (.content (.delimiter c none ty))
  | .unknown => M.fail .unknownPrimitive

end handlers

/-- `handle_primitive` and `handle_char_token`, by recursion bounded by fuel. -/
def handleToken (cf : Cfg) : Nat → HTok → H PUnit
  | 0, _ => M.boom .fuel
  | n + 1, .cs name => execPrim cf (handleToken cf n) (primOf name)
  | _ + 1, .chr c ctx => handleChar c ctx

end PL
