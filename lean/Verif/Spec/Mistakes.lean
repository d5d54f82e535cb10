import Verif.Spec.Formula
set_option autoImplicit false
/-!
# Mistakes in a text

Which mistake a text makes at its start, and the kind of error that names it. This goes with the grammar of `Spec.Formula`: a text that is right up to
some place is followed there by one of the mistakes below. As there, the rules speak of texts only.
-/
namespace PL.Spec
open Lex

/-! ## Arguments that are not there -/

/-- A group is opened but never closed. -/
def Unclosed (op cl s : Str) : Prop := ¬ ∃ g r, Split op cl 0 s g r

/-- There is no argument: nothing is left, a group is never closed, or the text ends in a backslash. -/
inductive NoArgument : Str → ErrorKind → Prop
  | nothing {s} : BlankEnd s → NoArgument s .token
  | unclosed {w t} : Spaces w → Unclosed ['{'] ['}'] t → NoArgument (w ++ '{' :: t) (.unbalancedGroup (some .normal))
  | backslash {b} : Blank b → NoArgument (b ++ ['\\']) .emptyControlSequence

/-- There is no group in braces. `e` is the error for a token in its place. -/
inductive NoGroup (e : ErrorKind) : Str → ErrorKind → Prop
  | nothing {s k} : NoArgument s k → NoGroup e s k
  | token {s x t} : TokArg s x t → NoGroup e s e

/-- There is no text: a command is next. -/
inductive NoText : Str → ErrorKind → Prop
  | nothing {s k} : NoArgument s k → NoText s k
  | command {s x t} : TokArg s (.cs x) t → NoText s .controlSequenceAsArgument

/-- There is no delimiter. -/
inductive NoDelim : Str → ErrorKind → Prop
  | nothing {s} : BlankEnd s → NoDelim s .token
  | backslash {b} : Blank b → NoDelim (b ++ ['\\']) .emptyControlSequence
  | chr {s c r} : NextTok s (.chr c) r → charDelimiterMap c = none → NoDelim s .delimiter
  | cs {s n r} : NextTok s (.cs n) r → controlSequenceDelimiterMap n = none → NoDelim s .delimiter

/-- There is no length. -/
def NoLength (s : Str) : Prop := ∀ neg ip fp u t, ¬ DimText s neg ip fp u t

/-- There is no number. -/
def NoNumber (s : Str) : Prop := ∀ c r, s = c :: r → c.toNat < 128 ∧ isDigit c = false ∧ c ≠ '`' ∧ c ≠ '\'' ∧ c ≠ '"'

/-- A group in braces without a colour. -/
inductive NoColour : Str → ErrorKind → Prop
  | group {s k} : NoGroup .argument s k → NoColour s k
  | name {s g r} : Braced s g r → (∀ c ∈ g, c.toNat < 128 ∧ c ≠ '+') → (∀ c, ¬ Colour g c) → NoColour s .unknownColor

/-- A group in braces without a length. -/
inductive NoLengthArg : Str → ErrorKind → Prop
  | group {s k} : NoGroup .dimensionArgument s k → NoLengthArg s k
  | length {s g r} : Braced s g r → NoLength g → NoLengthArg s .dimensionUnit

/-- Neither a length nor a group with a length. -/
inductive NoLengthHere : Str → ErrorKind → Prop
  | bare {s} : (∀ w u, Spaces w → s ≠ w ++ '{' :: u) → NoLength s → NoLengthHere s .dimensionUnit
  | unclosed {w t} : Spaces w → Unclosed ['{'] ['}'] t → NoLengthHere (w ++ '{' :: t) (.unbalancedGroup (some .normal))
  | braced {s g r} : Braced s g r → NoLength g → NoLengthHere s .dimensionUnit

/-- The arguments of `\genfrac`. -/
inductive NoGenDelim : Str → ErrorKind → Prop
  | nothing {s k} : NoArgument s k → NoGenDelim s k
  | chr {s c r} : TokArg s (.chr c) r → charDelimiterMap c = none → NoGenDelim s .delimiter
  | cs {s n r} : TokArg s (.cs n) r → controlSequenceDelimiterMap n = none → NoGenDelim s .delimiter
  | group {s g r} : Braced s g r → g ≠ [] → NoGenDelim s .delimiter
inductive NoGenBar : Str → ErrorKind → Prop
  | group {s k} : NoGroup .dimensionArgument s k → NoGenBar s k
  | length {s g r} : Braced s g r → g ≠ [] → NoLength g → NoGenBar s .dimensionUnit
  | more {s g d u r} : Braced s g r → Length g d u → u ≠ [] → NoGenBar s .dimensionArgument
inductive NoGenStyle : Str → ErrorKind → Prop
  | nothing {s k} : NoArgument s k → NoGenStyle s k
  | cs {s n r} : TokArg s (.cs n) r → NoGenStyle s .argument
  | chr {s c r} : TokArg s (.chr c) r → c ∉ ['0', '1', '2', '3'] → NoGenStyle s .argument
  | group {s g r} : Braced s g r → g ∉ [[], ['0'], ['1'], ['2'], ['3']] → NoGenStyle s .argument

/-- The arguments of the environment `name`. -/
inductive NoEnvArgs : Str → Str → ErrorKind → Prop
  | starred {name w s g r} : (name, w) ∈ starredMatrices → Bracketed s g r → (∀ c a, AlignFor c a → g ≠ [c]) → NoEnvArgs name s .argument
  | array {name st s k} : (name, st) ∈ arrayEnvironments → NoGroup .argument s k → NoEnvArgs name s k
  | column {name st s p c q cols r} : (name, st) ∈ arrayEnvironments → Braced s (p ++ c :: q) r → ColumnsFor p cols → columnCount cols < 65535 →
      (∀ col, ¬ ColumnFor c col) → NoEnvArgs name s .argument
  | noColumns {name st s g cols r} : (name, st) ∈ arrayEnvironments → Braced s g r → ColumnsFor g cols → columnCount cols = 0 →
      NoEnvArgs name s .arrayNoColumns
  | pairs {name f s k} : (name, f) ∈ pairEnvironments → NoGroup .argument s k → NoEnvArgs name s k
  | noNumber {name f s g r} : (name, f) ∈ pairEnvironments → Braced s g r → NoNumber g → NoEnvArgs name s .number
  | subarray {s k} : NoGroup .argument s k → NoEnvArgs c!"subarray" s k
  | noAlignment {s g r} : Braced s g r → (∀ c a, AlignFor c a → g ≠ [c]) → NoEnvArgs c!"subarray" s .argument

/-! ## Commands by their arguments -/

/-- Commands that start with an operand. -/
def wantsOperand : Prim → Bool
  | .pmod | .accent .. | .under .. | .frac .. | .overset .. | .not_ => true
  | _ => false

/-- Commands with two operands. -/
def wantsTwo : Prim → Bool
  | .frac .. | .overset .. => true
  | _ => false

/-- Commands that take a text. -/
def wantsText : Prim → Bool
  | .operatorname | .text .. => true
  | _ => false

/-- Commands that start with a colour. -/
def wantsColour : Prim → Bool
  | .color | .textcolor | .colorbox => true
  | _ => false

/-- Commands with an operand after an optional argument. -/
def wantsOptional : Prim → Bool
  | .sqrt | .xarrow .. => true
  | _ => false

/-- The error of a script for which there is no room. -/
def doubleScript (c : Char) : ErrorKind := if c = '_' then .doubleSubscript else .doubleSuperscript

/-! ## The mistakes -/

/-- Where a mistake is made. -/
inductive Spot where
  /-- by the token `x` with the text `s` after it; `arg` if it is an argument of a command or a script -/
  | token (arg : Bool) (x : Word) (s : Str)
  /-- by the argument at the start of `s` -/
  | operand (s : Str)
  /-- by the element at the start of `s` -/
  | element (s : Str)

open Spot in
/-- `Wrong Δ T p k`: a mistake of the kind `k` is made at `p`. In an environment, `T` is the number of alignments that may still come in the line. -/
inductive Wrong (Δ : Known) (T : Option Nat) : Spot → ErrorKind → Prop
  -- ### Characters
  | mathShift {a s} : Wrong Δ T (token a (.chr '$') s) .mathShift
  | hashSign {a s} : Wrong Δ T (token a (.chr '#') s) .hashSign
  | closing {a s} : Wrong Δ T (token a (.chr '}') s) (.unbalancedGroup none)
  | unclosed {a s} : Unclosed ['{'] ['}'] s → Wrong Δ T (token a (.chr '{') s) (.unbalancedGroup (some .normal))
  /-- a script where an operand should be -/
  | noOperand {c s} : c = '^' ∨ c = '_' → Wrong Δ T (token true (.chr c) s) .scriptAsArgument
  /-- outside of an environment, or one too many in a line, or as an argument -/
  | alignment {a s} : a = true ∨ T = none ∨ T = some 0 → Wrong Δ T (token a (.chr '&') s) .alignment
  -- ### Commands
  | unknown {a name s} : primOf name = .unknown → Wrong Δ T (token a (.cs name) s) .unknownPrimitive
  /-- `\right` without `\left`, `\end` without `\begin` and so on -/
  | unbalanced {a name s} : primOf name = .unbalanced → Wrong Δ T (token a (.cs name) s) (.unbalancedGroup none)
  | relax {name s} : primOf name = .relax → Wrong Δ T (token true (.cs name) s) .relax
  /-- outside of an environment, or as an argument -/
  | newLine {a name s} : primOf name = .newline → a = true ∨ T = none → Wrong Δ T (token a (.cs name) s) .newLine
  | newLineLength {name s g r m} : primOf name = .newline → T = some m → Bracketed s g r → NoLength g → Wrong Δ T (token false (.cs name) s) .dimensionUnit
  | text {a name s k} : wantsText (primOf name) = true → NoText s k → Wrong Δ T (token a (.cs name) s) k
  | char {a name s} : primOf name = .char → NoNumber s → Wrong Δ T (token a (.cs name) s) .number
  | charCode {a name s m r} : primOf name = .char → IntConst s m r → 255 < m → m < 2 ^ 64 → Wrong Δ T (token a (.cs name) s) .invalidCharNumber
  /-- the group is looked for between `\begin` and `\end` -/
  | begingroup {a name s} : primOf name = .begingroup → Unclosed c!"\\begin" c!"\\end" s →
      Wrong Δ T (token a (.cs name) s) (.unbalancedGroup (some .beginEnd))
  -- ### Delimiters
  | sized {a name size s k} : primOf name = .sized size → NoDelim s k → Wrong Δ T (token a (.cs name) s) k
  | middle {a name s k} : primOf name = .middle → NoDelim s k → Wrong Δ T (token a (.cs name) s) k
  | left {a name s k} : primOf name = .left → s.head? ≠ some '.' → NoDelim s k → Wrong Δ T (token a (.cs name) s) k
  | leftUnclosed {a name s l t} : primOf name = .left → DelimText s l t → Unclosed c!"\\left" c!"\\right" t →
      Wrong Δ T (token a (.cs name) s) (.unbalancedGroup (some .leftRight))
  | right {a name s l t g u k} : primOf name = .left → DelimText s l t → Split c!"\\left" c!"\\right" 0 t g u → u.head? ≠ some '.' → NoDelim u k →
      Wrong Δ T (token a (.cs name) s) k
  -- ### Spaces
  | kern {a name s k} : primOf name = .kern ∨ primOf name = .mkern → NoLengthHere s k → Wrong Δ T (token a (.cs name) s) k
  | mkern {a name s d r} : primOf name = .mkern → MaybeBraced Length s d r → d.unit ≠ .mu → Wrong Δ T (token a (.cs name) s) .mathUnit
  /-- something after the length in the braces -/
  | kernMore {a name s g d u r} : primOf name = .kern ∨ primOf name = .mkern → Braced s g r → Length g d u → ¬ Spaces u →
      Wrong Δ T (token a (.cs name) s) .dimensionArgument
  | hskip {a name s k} : primOf name = .hskip ∨ primOf name = .mskip → NoLengthHere s k → Wrong Δ T (token a (.cs name) s) k
  | mskip {a name s d p m r} : primOf name = .mskip → MaybeBraced Glue s (d, p, m) r →
      d.unit ≠ .mu ∨ (∃ x, p = some x ∧ x.unit ≠ .mu) ∨ (∃ x, m = some x ∧ x.unit ≠ .mu) → Wrong Δ T (token a (.cs name) s) .mathUnit
  | hskipMore {a name s g x u r} : primOf name = .hskip ∨ primOf name = .mskip → Braced s g r → Glue g x u → ¬ Spaces u →
      Wrong Δ T (token a (.cs name) s) .dimensionArgument
  | hspace {a name s k} : primOf name = .hspace → NoLengthArg s k → Wrong Δ T (token a (.cs name) s) k
  | width {a name s k} : primOf name = .space3 → NoLengthArg s k → Wrong Δ T (token a (.cs name) s) k
  | height {a name s g w u t k} : primOf name = .space3 → Braced s g t → Length g w u → NoLengthArg t k → Wrong Δ T (token a (.cs name) s) k
  | depth {a name s g w u t g' h u' t' k} : primOf name = .space3 → Braced s g t → Length g w u → Braced t g' t' → Length g' h u' → NoLengthArg t' k →
      Wrong Δ T (token a (.cs name) s) k
  -- ### Commands with formulas as arguments
  | first {a name s k} : wantsOperand (primOf name) = true → Wrong Δ T (operand s) k → Wrong Δ T (token a (.cs name) s) k
  | second {a name s n t pl k} : wantsTwo (primOf name) = true → Reads Δ (.operand s n t pl) → Wrong Δ T (operand t) k →
      Wrong Δ T (token a (.cs name) s) k
  | withoutOptional {a name s t k} : wantsOptional (primOf name) = true → NoOptional s t → Wrong Δ T (operand t) k → Wrong Δ T (token a (.cs name) s) k
  | afterOptional {a name s b t k} : wantsOptional (primOf name) = true → Bracketed s b t → Wrong Δ T (operand t) k → Wrong Δ T (token a (.cs name) s) k
  | class_ {a name cls s k} : primOf name = .atom cls → NoArgument s k → Wrong Δ T (token a (.cs name) s) k
  | classToken {a name cls s x t k} : primOf name = .atom cls → TokArg s (.cs x) t → Δ.Free (.cs x) → Wrong Δ T (token true (.cs x) t) k →
      Wrong Δ T (token a (.cs name) s) k
  | font {a name f s k} : primOf name = .fontGroup f → NoArgument s k → Wrong Δ T (token a (.cs name) s) k
  | fontToken {a name f s x t k} : primOf name = .fontGroup f → TokArg s x t → Δ.Free x → Wrong Δ T (token a x t) k → Wrong Δ T (token a (.cs name) s) k
  | colour {a name s k} : wantsColour (primOf name) = true → NoColour s k → Wrong Δ T (token a (.cs name) s) k
  | textcolor {a name s c t k} : primOf name = .textcolor → ColourArg s c t → Wrong Δ T (operand t) k → Wrong Δ T (token a (.cs name) s) k
  | colorbox {a name s c t k} : primOf name = .colorbox → ColourArg s c t → NoText t k → Wrong Δ T (token a (.cs name) s) k
  | frame {a name s k} : primOf name = .fcolorbox → NoGroup .argument s k → Wrong Δ T (token a (.cs name) s) k
  | frameColour {a name s g t g' u} : primOf name = .fcolorbox → Braced s g t → Braced t g' u → (∀ c ∈ g, c.toNat < 128 ∧ c ≠ '+') → (∀ c, ¬ Colour g c) →
      Wrong Δ T (token a (.cs name) s) .unknownColor
  | background {a name s c t k} : primOf name = .fcolorbox → ColourArg s c t → NoColour t k → Wrong Δ T (token a (.cs name) s) k
  | framed {a name s c t d u k} : primOf name = .fcolorbox → ColourArg s c t → ColourArg t d u → NoText u k → Wrong Δ T (token a (.cs name) s) k
  | genfracLeft {a name s k} : primOf name = .genfrac → NoGenDelim s k → Wrong Δ T (token a (.cs name) s) k
  | genfracRight {a name s l s1 k} : primOf name = .genfrac → GenDelim s l s1 → NoGenDelim s1 k → Wrong Δ T (token a (.cs name) s) k
  | genfracBar {a name s l s1 r s2 k} : primOf name = .genfrac → GenDelim s l s1 → GenDelim s1 r s2 → NoGenBar s2 k → Wrong Δ T (token a (.cs name) s) k
  | genfracStyle {a name s l s1 r s2 bar s3 k} : primOf name = .genfrac → GenDelim s l s1 → GenDelim s1 r s2 → GenBar s2 bar s3 → NoGenStyle s3 k →
      Wrong Δ T (token a (.cs name) s) k
  | genfracFirst {a name s l s1 r s2 bar s3 style s4 k} : primOf name = .genfrac → GenDelim s l s1 → GenDelim s1 r s2 → GenBar s2 bar s3 →
      GenStyle s3 style s4 → Wrong Δ T (operand s4) k → Wrong Δ T (token a (.cs name) s) k
  | genfracSecond {a name s l s1 r s2 bar s3 style s4 n t pl k} : primOf name = .genfrac → GenDelim s l s1 → GenDelim s1 r s2 → GenBar s2 bar s3 →
      GenStyle s3 style s4 → Reads Δ (.operand s4 n t pl) → Wrong Δ T (operand t) k → Wrong Δ T (token a (.cs name) s) k
  | sideset {a name s k} : primOf name = .sideset → NoArgument s k → Wrong Δ T (token a (.cs name) s) k
  | sidesetSecond {a name s w t k} : primOf name = .sideset → ReadArg s w t → NoArgument t k → Wrong Δ T (token a (.cs name) s) k
  | sidesetBase {a name s w t w' u k} : primOf name = .sideset → ReadArg s w t → ReadArg t w' u → Wrong Δ T (operand u) k →
      Wrong Δ T (token a (.cs name) s) k
  -- ### Environments
  | environmentName {a s k} : NoGroup .argument s k → Wrong Δ T (token a (.cs c!"begin") s) k
  | environment {a s name r} : Braced s name r → name ∉ environmentNames → Wrong Δ T (token a (.cs c!"begin") s) .environment
  | environmentArgs {a s name r k} : Braced s name r → NoEnvArgs name r k → Wrong Δ T (token a (.cs c!"begin") s) k
  | environmentUnclosed {a s name r0 sh r1 r2 k} {ls : List Line} : Braced s name r0 → Selects name r0 sh r1 →
      WordSeq [(c!"\\hline", .solid), (c!"\\hdashline", .dashed)] r1 ls r2 → Unclosed (c!"\\begin{" ++ name ++ c!"}") (c!"\\end{" ++ name ++ c!"}") r2 →
      k.closingStr = c!"\\end{" ++ name ++ c!"}" → Wrong Δ T (token a (.cs c!"begin") s) (.unbalancedGroup (some k))
  -- ### Macros
  | alreadyDefined {a s name r d} : Names s name r → Δ name = some d → Wrong Δ T (token a (.cs c!"newcommand") s) .macroAlreadyDefined
  | notDefined {a s name r} : Names s name r → Δ name = none → Wrong Δ T (token a (.cs c!"renewcommand") s) .macroNotDefined
  -- ### Arguments
  | noArgument {s k} : NoArgument s k → Wrong Δ T (operand s) k
  | argument {s x t k} : TokArg s x t → Δ.Free x → Wrong Δ T (token true x t) k → Wrong Δ T (operand s) k
  -- ### Elements
  | backslash {b} : Blank b → Wrong Δ T (element (b ++ ['\\'])) .emptyControlSequence
  | here {s x t k} : NextTok s x t → Δ.Free x → Wrong Δ T (token false x t) k → Wrong Δ T (element s) k
  /-- in the first script of an element -/
  | script {s x t n r pl vs w c v k} : NextTok s x t → Δ.Free x → Reads Δ (.means false x t n r pl) → pl.skip = false → Limits pl.mods r vs (w ++ c :: v) → Spaces w →
      c = '^' ∨ c = '_' → Wrong Δ T (operand v) k → Wrong Δ T (element s) k
  /-- in the second script -/
  | scriptTwo {s x t n r pl vs w c v m c' v' pl' k} : NextTok s x t → Δ.Free x → Reads Δ (.means false x t n r pl) → pl.skip = false → Limits pl.mods r vs (w ++ c :: v) →
      Spaces w → c = '^' ∧ c' = '_' ∨ c = '_' ∧ c' = '^' → Reads Δ (.operand v m (c' :: v') pl') → Wrong Δ T (operand v') k → Wrong Δ T (element s) k
  /-- a second script of the same kind -/
  | double {s x t n r pl vs w c v m v' pl'} : NextTok s x t → Δ.Free x → Reads Δ (.means false x t n r pl) → pl.skip = false → Limits pl.mods r vs (w ++ c :: v) →
      Spaces w → c = '^' ∨ c = '_' → Reads Δ (.operand v m (c :: v') pl') → Wrong Δ T (element s) (doubleScript c)
  /-- a third script -/
  | triple {s x t n r pl vs w c v m c' v' pl' m' e v'' pl''} : NextTok s x t → Δ.Free x → Reads Δ (.means false x t n r pl) → pl.skip = false →
      Limits pl.mods r vs (w ++ c :: v) → Spaces w → c = '^' ∧ c' = '_' ∨ c = '_' ∧ c' = '^' → Reads Δ (.operand v m (c' :: v') pl') →
      Reads Δ (.operand v' m' (e :: v'') pl'') → e = '^' ∨ e = '_' → Wrong Δ T (element s) (doubleScript e)

/-- `Upto Δ s ns Δ' t`: what stands before `t` in `s` is right and stands for `ns`. Definitions come between the elements, and the known macros become `Δ'`. -/
inductive Upto : Known → Str → Nodes → Known → Str → Prop
  | elements {Δ s ns t} : Reads Δ (.elements s ns t) → Upto Δ s ns Δ t
  | define {Δ s ns t Δ' u ms Δ'' v} : Reads Δ (.elements s ns t) → Defining Δ t Δ' u → Upto Δ' u ms Δ'' v → Upto Δ s (ns.append ms) Δ'' v

end PL.Spec
