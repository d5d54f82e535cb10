import Verif.Spec.Mistakes
set_option autoImplicit false
/-!
# What a text does, element by element

For every token, argument and element at the start of a text: either where the text goes on after it, or the error it is. Together with the cases that have
neither (numbers that do not fit, characters cut in two) this leaves nothing open. What the elements stand for is not said here but in `Spec.Formula`.
-/
namespace PL.Spec
open Lex

/-! ## Arguments that are not formulas -/

/-- Two hexadecimal digits. A plus sign may take the place of the first. -/
def HexPair (a b : Char) : Prop := (a = '+' ∨ ∃ x, HexDigit a x) ∧ ∃ y, HexDigit b y

/-- A colour that is understood. -/
inductive ColourText : Str → Prop
  | hex {a b c d e f} : HexPair a b → HexPair c d → HexPair e f → ColourText ['#', a, b, c, d, e, f]
  | named {s v} : s.head? ≠ some '#' → Colour s v → ColourText s

/-- A colour that is not understood. In the hexadecimal notation the text is cut every two bytes as far as needed, and a cut is between two characters. -/
inductive NotColour : Str → Prop
  | named {s} : s.head? ≠ some '#' → (∀ v, ¬ Colour s v) → NotColour s
  | size {x} : blen x ≠ 6 → NotColour ('#' :: x)
  | red {p q} : blen p = 2 → blen q = 4 → (∀ a b, p = [a, b] → ¬ HexPair a b) → NotColour ('#' :: (p ++ q))
  | green {a b p q} : HexPair a b → blen p = 2 → blen q = 2 → (∀ c d, p = [c, d] → ¬ HexPair c d) → NotColour ('#' :: a :: b :: (p ++ q))
  | blue {a b c d p} : HexPair a b → HexPair c d → blen p = 2 → (∀ e f, p = [e, f] → ¬ HexPair e f) → NotColour ('#' :: a :: b :: c :: d :: p)

/-- There is no integer constant. -/
inductive NoConst : Str → ErrorKind → Prop
  | nothing {s} : NoNumber s → NoConst s .number
  | backquote : NoConst ['`'] .number
  | backslash : NoConst ['`', '\\'] .number
  | wide {c r} : c ≠ '\\' → 128 ≤ c.toNat → NoConst ('`' :: c :: r) .characterNumber
  | wideEscaped {c r} : 128 ≤ c.toNat → NoConst ('`' :: '\\' :: c :: r) .characterNumber

/-- There is no glue: one of its lengths is missing. -/
inductive NoGlue : Str → Prop
  | length {s} : NoLength s → NoGlue s
  | plus {s d w t} : Length s d (w ++ c!"plus" ++ t) → Spaces w → NoLength t → NoGlue s
  | minus {s d t p w u} : Length s d t → Stretch c!"plus" t p (w ++ c!"minus" ++ u) → Spaces w → NoLength u → NoGlue s

/-- Neither the thing nor the thing in braces. `No` are the texts that do not start with it. -/
inductive NotBraced {α : Type} (What : Str → α → Str → Prop) (No : Str → Prop) : Str → ErrorKind → Prop
  | bare {s} : (∀ w u, Spaces w → s ≠ w ++ '{' :: u) → No s → NotBraced What No s .dimensionUnit
  | unclosed {w t} : Spaces w → Unclosed ['{'] ['}'] t → NotBraced What No (w ++ '{' :: t) (.unbalancedGroup (some .normal))
  | braced {s g r} : Braced s g r → No g → NotBraced What No s .dimensionUnit
  | more {s g a u r} : Braced s g r → What g a u → ¬ Spaces u → NotBraced What No s .dimensionArgument

/-- The units of a glue are all math units. -/
def MathUnits : Dim × Option Dim × Option Dim → Prop
  | (d, p, m) => d.unit = .mu ∧ (∀ x, p = some x → x.unit = .mu) ∧ ∀ x, m = some x → x.unit = .mu

/-- The delimiter `d` is not found: the text is too short, or a group in it is never closed. -/
inductive NotDelimited (d : Str) : Str → ErrorKind → Prop
  | short {s} : blen s < blen d → NotDelimited d s .macroSuffixNotFound
  | unfinished {line} : ¬ d <+: '%' :: line → '\n' ∉ line → NotDelimited d ('%' :: line) .macroSuffixNotFound
  | unclosed {s} : ¬ d <+: '{' :: s → blen d ≤ blen ('{' :: s) → Unclosed ['{'] ['}'] s → NotDelimited d ('{' :: s) (.unbalancedGroup (some .normal))
  | comment {line s k} : ¬ d <+: '%' :: (line ++ '\n' :: s) → '\n' ∉ line → NotDelimited d s k → NotDelimited d ('%' :: (line ++ '\n' :: s)) k
  | escaped {c s k} : ¬ d <+: '\\' :: c :: s → NotDelimited d s k → NotDelimited d ('\\' :: c :: s) k
  | braces {s g s' k} : ¬ d <+: '{' :: s → Split ['{'] ['}'] 0 s g s' → NotDelimited d s' k → NotDelimited d ('{' :: s) k
  | char {c s k} : ¬ d <+: c :: s → c ≠ '\\' → c ≠ '%' → c ≠ '{' → NotDelimited d s k → NotDelimited d (c :: s) k

/-- The arguments of the environment `name` are right, and `r` follows them. At most 65535 columns are counted; the number of pairs is taken modulo
2¹⁶. -/
inductive EnvArgs : Str → Str → Str → Prop
  | plain {name sh s} : (name, sh) ∈ plainEnvironments → EnvArgs name s s
  | default {name w s r} : (name, w) ∈ starredMatrices → NoOptional s r → EnvArgs name s r
  | aligned {name w s c a r} : (name, w) ∈ starredMatrices → Bracketed s [c] r → AlignFor c a → EnvArgs name s r
  | array {name st s g cols r} : (name, st) ∈ arrayEnvironments → Braced s g r → ColumnsFor g cols → 0 < columnCount cols →
      (∀ p c q cs, g = p ++ c :: q → ColumnsFor p cs → columnCount cs < 65535) → EnvArgs name s r
  | pairs {name f s g n u r} : (name, f) ∈ pairEnvironments → Braced s g r → IntConst g n u → n < 2 ^ 64 → n % 2 ^ 16 < 2 ^ 15 → EnvArgs name s r
  | subarray {s c a r} : Braced s [c] r → AlignFor c a → EnvArgs c!"subarray" s r

/-- The arguments of the environment `name` are wrong. -/
inductive BadEnvArgs : Str → Str → ErrorKind → Prop
  | absent {name s k} : NoEnvArgs name s k → BadEnvArgs name s k
  | noNumber {name f s g r k} : (name, f) ∈ pairEnvironments → Braced s g r → NoConst g k → BadEnvArgs name s k

/-! ## Control sequences to be defined -/

/-- There is no control sequence. -/
inductive NoCs : Str → ErrorKind → Prop
  | nothing : NoCs [] .emptyControlSequence
  | backslash : NoCs ['\\'] .emptyControlSequence
  | char {c s} : c ≠ '\\' → NoCs (c :: s) .controlSequence

/-- There is no token. -/
inductive NoTok : Str → ErrorKind → Prop
  | nothing {s} : BlankEnd s → NoTok s .token
  | backslash {b} : Blank b → NoTok (b ++ ['\\']) .emptyControlSequence

/-- `BadParams i s k`: where `#i` and the parameters after it should be, `s` has something else. -/
inductive BadParams : Nat → Str → ErrorKind → Prop
  | last {i} : BadParams i ['#'] .standaloneHashSign
  | other {i c s} : isDigit c = false → BadParams i ('#' :: c :: s) .standaloneHashSign
  | number {i c s} : isDigit c = true → c.toNat ≠ 48 + i → BadParams i ('#' :: c :: s) (.incorrectMacroParams (c.toNat - 48) i)
  | later {i d s k} : i ≤ 9 → '#' ∉ d → BadParams (i + 1) s k → BadParams i ('#' :: paramDigit i :: (d ++ s)) k

/-- The parameter text of `\def` is wrong. A `#` at its end is not one of a parameter. -/
inductive BadParamText : Str → ErrorKind → Prop
  | plain {pre s k} : '#' ∉ pre → BadParams 1 s k → (pre ++ s).getLast? ≠ some '#' → BadParamText (pre ++ s) k
  | brace {pre s k} : '#' ∉ pre → BadParams 1 s k → BadParamText (pre ++ s ++ ['#']) k

/-- A replacement text for `n` parameters is wrong. -/
inductive BadRepl (n : Nat) : Str → ErrorKind → Prop
  | last : BadRepl n ['#'] .standaloneHashSign
  | other {c s} : c ≠ '#' → isDigit c = false → BadRepl n ('#' :: c :: s) .standaloneHashSign
  | number {c s} : isDigit c = true → (c = '0' ∨ n < c.toNat - 48) → BadRepl n ('#' :: c :: s) (.incorrectReplacementParams (c.toNat - 48) n)
  | hash {s k} : BadRepl n s k → BadRepl n ('#' :: '#' :: s) k
  | param {i s k} : 1 ≤ i → i ≤ n → i ≤ 9 → BadRepl n s k → BadRepl n ('#' :: paramDigit i :: s) k
  | char {c s k} : c ≠ '#' → BadRepl n s k → BadRepl n (c :: s) k

/-- The text after `\def` is wrong. -/
inductive BadDef : Str → ErrorKind → Prop
  | name {s k} : NoCs s k → BadDef s k
  | missing {g name u} : CsName g name u → '{' ∉ u → BadDef ('\\' :: g) .missingExpansion
  | comment {g name p q t} : CsName g name (p ++ '%' :: (q ++ '{' :: t)) → '{' ∉ p → '{' ∉ q → '%' ∉ p → '}' ∉ p → BadDef ('\\' :: g) .commentInParamText
  | brace {g name p q t} : CsName g name (p ++ '}' :: (q ++ '{' :: t)) → '{' ∉ p → '{' ∉ q → '%' ∉ p → '}' ∉ p → BadDef ('\\' :: g) .bracesInParamText
  | unclosed {g name pt t} : CsName g name (pt ++ '{' :: t) → '{' ∉ pt → '%' ∉ pt → '}' ∉ pt → Unclosed ['{'] ['}'] t →
      BadDef ('\\' :: g) (.unbalancedGroup (some .normal))
  | params {s name pt rt r k} : DefCommand s name pt rt r → BadParamText pt k → BadDef s k
  | repl {s name pt rt r pre ds b k} : DefCommand s name pt rt r → DefText pt pre ds b → BadRepl ds.length rt k → BadDef s k

/-- The text after `\let` is wrong. -/
inductive BadLet : Str → ErrorKind → Prop
  | name {s k} : NoCs s k → BadLet s k
  | equals {g name w u k} : CsName g name (w ++ '=' :: u) → Spaces w → NoTok u k → BadLet ('\\' :: g) k
  | plain {g name u k} : CsName g name u → (∀ w v, Spaces w → u ≠ w ++ '=' :: v) → NoTok u k → BadLet ('\\' :: g) k

/-- The text after `\futurelet` is wrong. -/
inductive BadFuture : Str → ErrorKind → Prop
  | name {s k} : NoCs s k → BadFuture s k
  | first {g name u k} : CsName g name u → NoTok u k → BadFuture ('\\' :: g) k
  | second {g name u x v k} : CsName g name u → NextTok u x v → NoTok v k → BadFuture ('\\' :: g) k

/-- Where a group in braces must be, with nothing but white space before it. -/
inductive NoBraces : Str → ErrorKind → Prop
  | other {s} : (∀ w u, Spaces w → s ≠ w ++ '{' :: u) → NoBraces s .groupArgument
  | unclosed {w t} : Spaces w → Unclosed ['{'] ['}'] t → NoBraces (w ++ '{' :: t) (.unbalancedGroup (some .normal))

/-- A number below 256: decimal digits, perhaps with a sign `+` and leading zeros. -/
def ByteText (g : Str) (n : Nat) : Prop :=
  ∃ ds, (g = ds ∨ g = '+' :: ds) ∧ ds ≠ [] ∧ (∀ c ∈ ds, isDigit c = true) ∧ n = ds.foldl (fun v c => v * 10 + (c.toNat - 48)) 0 ∧ n < 256

/-- An optional argument or nothing, and the text after it. -/
inductive MaybeOptional : Str → Option Str → Str → Prop
  | given {s g r} : Bracketed s g r → MaybeOptional s (some g) r
  | absent {s r} : NoOptional s r → MaybeOptional s none r

/-- What a command of the family of `\newcommand` says about a name that is or is not defined already. -/
inductive Refuses (Δ : Known) (name : Str) : Option Bool → ErrorKind → Prop
  | new {d} : Δ name = some d → Refuses Δ name (some false) .macroAlreadyDefined
  | renew : Δ name = none → Refuses Δ name (some true) .macroNotDefined

/-- The text after `\newcommand` and its variants is wrong. -/
inductive BadNew (Δ : Known) (should : Option Bool) : Str → ErrorKind → Prop
  | group {s k} : NoBraces s k → BadNew Δ should s k
  | name {s g r k} : Braced s g r → NoCs g k → BadNew Δ should s k
  | refused {s name r k} : Names s name r → Refuses Δ name should k → BadNew Δ should s k
  | noNumber {s name r t} : Names s name r → (∀ k, ¬ Refuses Δ name should k) → NoOptional r t → BadNew Δ should s .argument
  | badNumber {s name r g t} : Names s name r → (∀ k, ¬ Refuses Δ name should k) → Bracketed r g t → (∀ n, ¬ ByteText g n) → BadNew Δ should s .number
  | tooMany {s name r g t n} : Names s name r → (∀ k, ¬ Refuses Δ name should k) → Bracketed r g t → ByteText g n → 9 < n → BadNew Δ should s .tooManyParams
  | noBody {s name r g t n d u k} : Names s name r → (∀ k, ¬ Refuses Δ name should k) → Bracketed r g t → ByteText g n → n ≤ 9 → MaybeOptional t d u → NoBraces u k →
      BadNew Δ should s k
  | repl {s name r g t n d u rt v k} : Names s name r → (∀ k, ¬ Refuses Δ name should k) → Bracketed r g t → ByteText g n → n ≤ 9 → MaybeOptional t d u →
      Braced u rt v → should ≠ none ∨ Δ name = none → BadRepl n rt k → BadNew Δ should s k

/-- The text after `\newcommand` and its variants is right: the macros afterwards and the rest of the text. -/
inductive NewMacro (Δ : Known) (should : Option Bool) : Str → Known → Str → Prop
  | set {s name r g t n d u rt v} : Names s name r → (∀ k, ¬ Refuses Δ name should k) → Bracketed r g t → ByteText g n → n ≤ 9 → MaybeOptional t d u →
      Braced u rt v → should ≠ none ∨ Δ name = none → ReplText n rt → NewMacro Δ should s (Δ.set name (.command n d rt)) v
  | kept {s name r g t n d u rt v x} : Names s name r → Bracketed r g t → ByteText g n → n ≤ 9 → MaybeOptional t d u →
      Braced u rt v → should = none → Δ name = some x → NewMacro Δ should s Δ v

/-! ## Kinds of arguments -/

/-- What a command needs after it. -/
inductive Need where
  /-- a formula in braces or one token -/
  | operand
  /-- the same for commands that set the class of a symbol: a character stands for itself -/
  | classOperand
  /-- what comes before `\over` -/
  | over
  | text
  | colour
  /-- two groups, of which the colours are looked at afterwards -/
  | colours
  | braces
  | any
  | optional
  | delim
  | delimOrDot
  /-- a group that ends in the closer of `k` -/
  | between (k : GroupingKind)
  /-- a length; `mu` if it must be in math units -/
  | length (mu : Bool)
  | glue (mu : Bool)
  | lengthGroup
  | glueGroup
  | genDelim
  | genBar
  | genStyle
  | code
  | environment

/-- `Takes n s r`: `s` starts with what is needed, and `r` follows. -/
inductive Takes : Need → Str → Str → Prop
  | text {s g r} : TextArg s g r → Takes .text s r
  | colour {s g r} : Braced s g r → ColourText g → Takes .colour s r
  | colours {s g t g' r} : Braced s g t → Braced t g' r → ColourText g → ColourText g' → Takes .colours s r
  | braces {s g r} : Braced s g r → Takes .braces s r
  | any {s w r} : ReadArg s w r → Takes .any s r
  | optional {s g r} : MaybeOptional s g r → Takes .optional s r
  | delim {s d ty r} : Delim s d ty r → Takes .delim s r
  | delimOrDot {s d r} : DelimText s d r → Takes .delimOrDot s r
  | between {k s g r} : Split k.openingStr k.closingStr 0 s g r → Takes (.between k) s r
  | length {mu s d r} : MaybeBraced Length s d r → (mu = true → d.unit = .mu) → Takes (.length mu) s r
  | glue {mu s x r} : MaybeBraced Glue s x r → (mu = true → MathUnits x) → Takes (.glue mu) s r
  | lengthGroup {s g d u r} : Braced s g r → Length g d u → Takes .lengthGroup s r
  | glueGroup {s g x u r} : Braced s g r → Glue g x u → Takes .glueGroup s r
  | genDelim {s d r} : GenDelim s d r → Takes .genDelim s r
  | genBar {s d r} : GenBar s d r → Takes .genBar s r
  | genStyle {s d r} : GenStyle s d r → Takes .genStyle s r
  | code {s m r} : IntConst s m r → m ≤ 255 → Takes .code s r
  | environment {s name r0 r1 r2 X r} {ls : List Line} : Braced s name r0 → EnvArgs name r0 r1 →
      WordSeq [(c!"\\hline", .solid), (c!"\\hdashline", .dashed)] r1 ls r2 → Split (c!"\\begin{" ++ name ++ c!"}") (c!"\\end{" ++ name ++ c!"}") 0 r2 X r →
      Takes .environment s r

/-- `Lacks n s k`: `s` does not start with what is needed, and the error is `k`. -/
inductive Lacks : Need → Str → ErrorKind → Prop
  | text {s k} : NoText s k → Lacks .text s k
  | noColour {s k} : NoGroup .argument s k → Lacks .colour s k
  | colour {s g r} : Braced s g r → NotColour g → Lacks .colour s .unknownColor
  | noColours {s k} : NoGroup .argument s k → Lacks .colours s k
  | noSecond {s g t k} : Braced s g t → NoGroup .argument t k → Lacks .colours s k
  | firstColour {s g t g' r} : Braced s g t → Braced t g' r → NotColour g → Lacks .colours s .unknownColor
  | secondColour {s g t g' r} : Braced s g t → Braced t g' r → ColourText g → NotColour g' → Lacks .colours s .unknownColor
  | braces {s k} : NoBraces s k → Lacks .braces s k
  | any {s k} : NoArgument s k → Lacks .any s k
  | delim {s k} : NoDelim s k → Lacks .delim s k
  | delimOrDot {s k} : s.head? ≠ some '.' → NoDelim s k → Lacks .delimOrDot s k
  | between {k s} : Unclosed k.openingStr k.closingStr s → Lacks (.between k) s (.unbalancedGroup (some k))
  | length {mu s k} : NotBraced Length NoLength s k → Lacks (.length mu) s k
  | lengthUnit {s d r} : MaybeBraced Length s d r → d.unit ≠ .mu → Lacks (.length true) s .mathUnit
  | glue {mu s k} : NotBraced Glue NoGlue s k → Lacks (.glue mu) s k
  | glueUnit {s x r} : MaybeBraced Glue s x r → ¬ MathUnits x → Lacks (.glue true) s .mathUnit
  | noLengthGroup {s k} : NoGroup .dimensionArgument s k → Lacks .lengthGroup s k
  | lengthGroup {s g r} : Braced s g r → NoLength g → Lacks .lengthGroup s .dimensionUnit
  | noGlueGroup {s k} : NoGroup .dimensionArgument s k → Lacks .glueGroup s k
  | glueGroup {s g r} : Braced s g r → NoGlue g → Lacks .glueGroup s .dimensionUnit
  | genDelim {s k} : NoGenDelim s k → Lacks .genDelim s k
  | genBar {s k} : NoGenBar s k → Lacks .genBar s k
  | genStyle {s k} : NoGenStyle s k → Lacks .genStyle s k
  | noCode {s k} : NoConst s k → Lacks .code s k
  | code {s m r} : IntConst s m r → 255 < m → m < 2 ^ 64 → Lacks .code s .invalidCharNumber
  | noName {s k} : NoGroup .argument s k → Lacks .environment s k
  | unknown {s name r} : Braced s name r → name ∉ environmentNames → Lacks .environment s .environment
  | arguments {s name r k} : Braced s name r → BadEnvArgs name r k → Lacks .environment s k
  | unclosed {s name r0 r1 r2 k} {ls : List Line} : Braced s name r0 → EnvArgs name r0 r1 →
      WordSeq [(c!"\\hline", .solid), (c!"\\hdashline", .dashed)] r1 ls r2 → Unclosed (c!"\\begin{" ++ name ++ c!"}") (c!"\\end{" ++ name ++ c!"}") r2 →
      k.closingStr = c!"\\end{" ++ name ++ c!"}" → Lacks .environment s (.unbalancedGroup (some k))

/-! ## Commands by what they need -/

/-- Whether limit modifiers may follow an element, and whether it takes no scripts. -/
structure Marks where
  mods : Bool := false
  skip : Bool := false
  deriving DecidableEq

def Marks.or (m m' : Marks) : Marks := ⟨m.mods || m'.mods, m.skip || m'.skip⟩

/-- The marks of a command and what it needs, for all commands for which this depends on nothing else. -/
def signature : Prim → Option (Marks × List Need)
  | .func _ | .ord _ | .rel .. | .rel2 .. | .bin _ | .dots | .space .. | .nbsp | .surd | .delim .. => some ({}, [])
  | .funcMov _ | .largeOp .. | .smallint => some ({ mods := true }, [])
  | .fontChange _ | .style _ => some ({ skip := true }, [])
  | .operatorname => some ({ mods := true }, [.text])
  | .text _ => some ({}, [.text])
  | .pmod | .accent .. | .under .. | .not_ => some ({}, [.operand])
  | .atom c => some ({ mods := c = .op }, [.classOperand])
  | .color => some ({ skip := true }, [.colour])
  | .textcolor => some ({}, [.colour, .operand])
  | .colorbox => some ({}, [.colour, .text])
  | .fcolorbox => some ({}, [.colours, .text])
  | .sized _ | .middle => some ({}, [.delim])
  | .left => some ({}, [.delimOrDot, .between .leftRight, .delimOrDot])
  | .kern => some ({}, [.length false])
  | .mkern => some ({}, [.length true])
  | .hskip => some ({}, [.glue false])
  | .mskip => some ({}, [.glue true])
  | .hspace => some ({}, [.glueGroup])
  | .space3 => some ({}, [.lengthGroup, .lengthGroup, .lengthGroup])
  | .xarrow _ | .sqrt => some ({}, [.optional, .operand])
  | .frac .. | .overset _ => some ({}, [.operand, .operand])
  | .genfrac => some ({}, [.genDelim, .genDelim, .genBar, .genStyle, .operand, .operand])
  | .buildrel => some ({}, [.over, .operand])
  | .substack => some ({}, [.braces])
  | .sideset => some ({}, [.any, .any, .operand])
  | .char => some ({}, [.code])
  | .begingroup => some ({}, [.between .beginEnd])
  | .begin_ => some ({}, [.environment])
  | .fontGroup _ | .relax | .newline | .unbalanced | .def_ | .let_ | .futurelet | .newcommand _ | .unknown => none

/-! ## The effects -/

/-- What comes of a token, of arguments or of an element: the text goes on with `r` and the macros are `Δ`, or there is an error. -/
inductive Effect where
  | right (m : Marks) (r : Str) (Δ : Known)
  | wrong (k : ErrorKind)

/-- Marks set before. -/
def Effect.mark (m : Marks) : Effect → Effect
  | .right m' r Δ => .right (m.or m') r Δ
  | .wrong k => .wrong k

/-- What something comes of. -/
inductive Source where
  /-- the token `x` with the text `s` after it; `arg` if it is an argument of a command or a script -/
  | token (arg : Bool) (x : Word) (s : Str)
  /-- the text `s`, at the start of which `n` is needed -/
  | need (n : Need) (s : Str)
  | needs (ns : List Need) (s : Str)

open Source Effect in
/-- `Gives T Δ p e`: what comes of `p` is `e`, when the known macros are `Δ`. In an environment, `T` is the number of alignments that may still come in the
line. -/
inductive Gives (T : Option Nat) : Known → Source → Effect → Prop
  -- ### Characters
  | plain {Δ a c s} : special c = false → Gives T Δ (token a (.chr c) s) (right {} s Δ)
  | tie {Δ a s} : Gives T Δ (token a (.chr '~') s) (right {} s Δ)
  /-- a number is as long as possible -/
  | number {Δ c s lit r} : isDigit c = true → NumberLit (c :: s) lit r → Gives T Δ (token false (.chr c) s) (right {} r Δ)
  /-- but a single digit as an argument -/
  | digit {Δ c s} : isDigit c = true → Gives T Δ (token true (.chr c) s) (right {} s Δ)
  | mathShift {Δ a s} : Gives T Δ (token a (.chr '$') s) (wrong .mathShift)
  | hashSign {Δ a s} : Gives T Δ (token a (.chr '#') s) (wrong .hashSign)
  | braces {Δ a s g r} : Split ['{'] ['}'] 0 s g r → Gives T Δ (token a (.chr '{') s) (right {} r Δ)
  | unclosed {Δ a s} : Unclosed ['{'] ['}'] s → Gives T Δ (token a (.chr '{') s) (wrong (.unbalancedGroup (some .normal)))
  | closing {Δ a s} : Gives T Δ (token a (.chr '}') s) (wrong (.unbalancedGroup none))
  /-- a script without a base -/
  | noBase {Δ c s} : c = '^' ∨ c = '_' → Gives T Δ (token false (.chr c) s) (right {} (c :: s) Δ)
  | noOperand {Δ c s} : c = '^' ∨ c = '_' → Gives T Δ (token true (.chr c) s) (wrong .scriptAsArgument)
  | alignment {Δ s m} : T = some (m + 1) → Gives T Δ (token false (.chr '&') s) (right {} s Δ)
  /-- outside of an environment, or one too many in a line, or as an argument -/
  | noAlignment {Δ a s} : a = true ∨ T = none ∨ T = some 0 → Gives T Δ (token a (.chr '&') s) (wrong .alignment)
  -- ### Commands
  | command {Δ a name s m ns e} : signature (primOf name) = some (m, ns) → Gives T Δ (needs ns s) e → Gives T Δ (token a (.cs name) s) (e.mark m)
  | unknown {Δ a name s} : primOf name = .unknown → Gives T Δ (token a (.cs name) s) (wrong .unknownPrimitive)
  /-- `\right` without `\left`, `\end` without `\begin` and so on -/
  | unbalanced {Δ a name s} : primOf name = .unbalanced → Gives T Δ (token a (.cs name) s) (wrong (.unbalancedGroup none))
  | relax {Δ name s} : primOf name = .relax → Gives T Δ (token false (.cs name) s) (right {} s Δ)
  | noRelax {Δ name s} : primOf name = .relax → Gives T Δ (token true (.cs name) s) (wrong .relax)
  | noFont {Δ a name f s k} : primOf name = .fontGroup f → NoArgument s k → Gives T Δ (token a (.cs name) s) (wrong k)
  | font {Δ a name f s g r} : primOf name = .fontGroup f → Braced s g r → Gives T Δ (token a (.cs name) s) (right {} r Δ)
  /-- the token after a font command is not an argument by itself -/
  | fontToken {Δ a name f s x t e} : primOf name = .fontGroup f → TokArg s x t → Gives T Δ (token a x t) e → Gives T Δ (token a (.cs name) s) e
  | newLine {Δ name s r m u} {ls : List Line} : primOf name = .newline → T = some m → NoOptional s r → WordSeq [(c!"\\hline", .solid), (c!"\\hdashline", .dashed)] r ls u →
      Gives T Δ (token false (.cs name) s) (right {} u Δ)
  | newLineLength {Δ name s g d e r m u} {ls : List Line} : primOf name = .newline → T = some m → Bracketed s g r → Length g d e →
      WordSeq [(c!"\\hline", .solid), (c!"\\hdashline", .dashed)] r ls u → Gives T Δ (token false (.cs name) s) (right {} u Δ)
  | newLineNoLength {Δ name s g r m} : primOf name = .newline → T = some m → Bracketed s g r → NoLength g → Gives T Δ (token false (.cs name) s) (wrong .dimensionUnit)
  /-- outside of an environment, or as an argument -/
  | noNewLine {Δ a name s} : primOf name = .newline → a = true ∨ T = none → Gives T Δ (token a (.cs name) s) (wrong .newLine)
  -- ### Definitions
  | define {Δ a name s nm pt rt r pre ds b} : primOf name = .def_ → DefCommand s nm pt rt r → DefText pt pre ds b → ReplText ds.length rt →
      Gives T Δ (token a (.cs name) s) (right { skip := true } r (Δ.set nm (.plain pre ds b rt)))
  | noDefine {Δ a name s k} : primOf name = .def_ → BadDef s k → Gives T Δ (token a (.cs name) s) (wrong k)
  | let_ {Δ a name s nm x r} : primOf name = .let_ → LetText s nm x r → Gives T Δ (token a (.cs name) s) (right { skip := true } r (Δ.set nm (.alias x)))
  | noLet {Δ a name s k} : primOf name = .let_ → BadLet s k → Gives T Δ (token a (.cs name) s) (wrong k)
  | future {Δ a name s nm x r} : primOf name = .futurelet → FutureText s nm x r → Gives T Δ (token a (.cs name) s) (right { skip := true } r (Δ.set nm (.alias x)))
  | noFuture {Δ a name s k} : primOf name = .futurelet → BadFuture s k → Gives T Δ (token a (.cs name) s) (wrong k)
  | new {Δ a name s should Δ' r} : primOf name = .newcommand should → NewMacro Δ should s Δ' r → Gives T Δ (token a (.cs name) s) (right {} r Δ')
  | noNew {Δ a name s should k} : primOf name = .newcommand should → BadNew Δ should s k → Gives T Δ (token a (.cs name) s) (wrong k)
  -- ### Arguments
  | takes {Δ n s r} : Takes n s r → Gives T Δ (need n s) (right {} r Δ)
  | lacks {Δ n s k} : Lacks n s k → Gives T Δ (need n s) (wrong k)
  | noOperandAt {Δ s k} : NoArgument s k → Gives T Δ (need .operand s) (wrong k)
  | operandGroup {Δ s g r} : Braced s g r → Gives T Δ (need .operand s) (right {} r Δ)
  | operandToken {Δ s x t e} : TokArg s x t → Gives T Δ (token true x t) e → Gives T Δ (need .operand s) e
  | noClass {Δ s k} : NoArgument s k → Gives T Δ (need .classOperand s) (wrong k)
  | classGroup {Δ s g r} : Braced s g r → Gives T Δ (need .classOperand s) (right {} r Δ)
  | classChar {Δ s c r} : TokArg s (.chr c) r → Gives T Δ (need .classOperand s) (right {} r Δ)
  | classToken {Δ s x t e} : TokArg s (.cs x) t → Gives T Δ (token true (.cs x) t) e → Gives T Δ (need .classOperand s) e
  | noOver {Δ s k} : NotDelimited c!"\\over" s k → Gives T Δ (need .over s) (wrong k)
  | overNothing {Δ s o t k} : Delimited c!"\\over" s o t → NoArgument o k → Gives T Δ (need .over s) (wrong k)
  | overGroup {Δ s o t g v} : Delimited c!"\\over" s o t → Braced o g v → Gives T Δ (need .over s) (right {} t Δ)
  /-- a command before `\over` finds its arguments after it -/
  | overToken {Δ s o t x v e} : Delimited c!"\\over" s o t → TokArg o x v → (∀ c, x = .chr c → isDigit c = false) → Gives T Δ (token true x t) e →
      Gives T Δ (need .over s) e
  /-- after a digit, the text goes on before `\over`, and what comes after it is lost -/
  | overDigit {Δ s o t c v} : Delimited c!"\\over" s o t → TokArg o (.chr c) v → isDigit c = true → Gives T Δ (need .over s) (right {} v Δ)
  | nil {Δ s} : Gives T Δ (needs [] s) (right {} s Δ)
  | cons {Δ n ns s m r Δ' e} : Gives T Δ (need n s) (right m r Δ') → Gives T Δ' (needs ns r) e → Gives T Δ (needs (n :: ns) s) (e.mark m)
  | stop {Δ n ns s k} : Gives T Δ (need n s) (wrong k) → Gives T Δ (needs (n :: ns) s) (wrong k)

/-- A script is next. -/
def ScriptAt (r : Str) (c : Char) (v : Str) : Prop := ∃ w, Spaces w ∧ r = w ++ c :: v ∧ (c = '^' ∨ c = '_')

/-- `Meant T Δ s e`: what comes of the element at the start of `s`, with its scripts, when it is not the name of a macro. The white space before the place
where a script could be belongs to the element. -/
inductive Meant (T : Option Nat) (Δ : Known) : Str → Effect → Prop
  | nothing {s} : BlankEnd s → Meant T Δ s (.right {} [] Δ)
  | backslash {b} : Blank b → Meant T Δ (b ++ ['\\']) (.wrong .emptyControlSequence)
  | wrong {s x t k} : NextTok s x t → Δ.Free x → Gives T Δ (.token false x t) (.wrong k) → Meant T Δ s (.wrong k)
  /-- a change of the state or a definition takes no scripts -/
  | skipping {s x t m r Δ'} : NextTok s x t → Δ.Free x → Gives T Δ (.token false x t) (.right m r Δ') → m.skip = true → Meant T Δ s (.right {} r Δ')
  | plain {s x t m r Δ' vs w u} : NextTok s x t → Δ.Free x → Gives T Δ (.token false x t) (.right m r Δ') → m.skip = false → Limits m.mods r vs (w ++ u) → Spaces w →
      (∀ c v, u = c :: v → isWs c = false ∧ c ≠ '^' ∧ c ≠ '_') → Meant T Δ s (.right {} u Δ')
  | badScript {s x t m r Δ' vs r' c v k} : NextTok s x t → Δ.Free x → Gives T Δ (.token false x t) (.right m r Δ') → m.skip = false → Limits m.mods r vs r' →
      ScriptAt r' c v → Gives T Δ' (.need .operand v) (.wrong k) → Meant T Δ s (.wrong k)
  | script {s x t m r Δ' vs r' c v m' v' Δ''} : NextTok s x t → Δ.Free x → Gives T Δ (.token false x t) (.right m r Δ') → m.skip = false → Limits m.mods r vs r' →
      ScriptAt r' c v → Gives T Δ' (.need .operand v) (.right m' v' Δ'') → NoScriptHere v' → Meant T Δ s (.right {} v' Δ'')
  /-- a second script of the same kind -/
  | double {s x t m r Δ' vs r' c v m' v' Δ''} : NextTok s x t → Δ.Free x → Gives T Δ (.token false x t) (.right m r Δ') → m.skip = false → Limits m.mods r vs r' →
      ScriptAt r' c v → Gives T Δ' (.need .operand v) (.right m' (c :: v') Δ'') → Meant T Δ s (.wrong (doubleScript c))
  | badSecond {s x t m r Δ' vs r' c v m' c' v' Δ'' k} : NextTok s x t → Δ.Free x → Gives T Δ (.token false x t) (.right m r Δ') → m.skip = false → Limits m.mods r vs r' →
      ScriptAt r' c v → Gives T Δ' (.need .operand v) (.right m' (c' :: v') Δ'') → c = '^' ∧ c' = '_' ∨ c = '_' ∧ c' = '^' →
      Gives T Δ'' (.need .operand v') (.wrong k) → Meant T Δ s (.wrong k)
  | scripts {s x t m r Δ' vs r' c v m' c' v' Δ'' m'' v'' Δ'''} : NextTok s x t → Δ.Free x → Gives T Δ (.token false x t) (.right m r Δ') → m.skip = false →
      Limits m.mods r vs r' → ScriptAt r' c v → Gives T Δ' (.need .operand v) (.right m' (c' :: v') Δ'') → c = '^' ∧ c' = '_' ∨ c = '_' ∧ c' = '^' →
      Gives T Δ'' (.need .operand v') (.right m'' v'' Δ''') → NoScriptHere v'' → Meant T Δ s (.right {} v'' Δ''')
  /-- a third script -/
  | triple {s x t m r Δ' vs r' c v m' c' v' Δ'' m'' e v'' Δ'''} : NextTok s x t → Δ.Free x → Gives T Δ (.token false x t) (.right m r Δ') → m.skip = false →
      Limits m.mods r vs r' → ScriptAt r' c v → Gives T Δ' (.need .operand v) (.right m' (c' :: v') Δ'') → c = '^' ∧ c' = '_' ∨ c = '_' ∧ c' = '^' →
      Gives T Δ'' (.need .operand v') (.right m'' (e :: v'') Δ''') → e = '^' ∨ e = '_' → Meant T Δ s (.wrong (doubleScript e))

end PL.Spec
