import Verif.Model.Str
set_option autoImplicit false
/-!
# Events

`src/event.rs`. The `f32` of a dimension is an exact decimal `num / den`; text contents are owned strings.
-/
namespace PL

/-- An exact number `num / den` standing for an `f32` (rounding is not modelled). -/
structure Num where
  num : Int
  den : Nat
  deriving DecidableEq, Repr

/-- `DimensionUnit`, event.rs 798-824 -/
inductive Unit_ where
  | em | mu | ex | pt | pc | in_ | bp | cm | mm | dd | cc | sp
  deriving DecidableEq, Repr

/-- `Dimension`, event.rs 731-745 -/
structure Dim where
  value : Num
  unit : Unit_
  deriving DecidableEq, Repr

/-- `Font`, event.rs 222-261 -/
inductive Font where
  | boldScript | boldItalic | bold | boldSymbol | fraktur | script | monospace | sansSerif
  | doubleStruck | doubleStruckItalic | italic | boldFraktur | sansSerifBoldItalic
  | sansSerifItalic | boldSansSerif | upRight
  deriving DecidableEq, Repr

/-- `Style`, event.rs 267-278 -/
inductive Style where
  | display | text | script | scriptScript
  deriving DecidableEq, Repr

/-- `ColorTarget`, event.rs 297-305 -/
inductive ColorTarget where
  | text | background | border
  deriving DecidableEq, Repr

/-- `StateChange`, event.rs 206-220 (a colour is a triple of bytes, here naturals below 256) -/
inductive StateChange where
  | font (f : Option Font)
  | color (rgb : Nat × Nat × Nat) (target : ColorTarget)
  | style (s : Style)
  deriving DecidableEq, Repr

/-- `DelimiterSize`, event.rs 640-650 -/
inductive DelimSize where
  | big | BIG | bigg | BIGG
  deriving DecidableEq, Repr

/-- `DelimiterType`, event.rs 664-672 -/
inductive DelimType where
  | open_ | fence | close
  deriving DecidableEq, Repr

/-- `Line`, event.rs 675-681 -/
inductive Line where
  | solid | dashed
  deriving DecidableEq, Repr

/-- `ColumnAlignment`, event.rs 616-624 -/
inductive ColAlign where
  | left | center | right
  deriving DecidableEq, Repr

/-- `ArrayColumn`, event.rs 629-636 -/
inductive ArrayCol where
  | column (a : ColAlign)
  | separator (l : Line)
  deriving DecidableEq, Repr

/-- `Content`, event.rs 100-152 (`RelationContent` is the pair of characters) -/
inductive Content where
  | text (s : Str)
  | number (s : Str)
  | function (s : Str)
  | ordinary (c : Char) (stretchy : Bool)
  | largeOp (c : Char) (small : Bool)
  | binaryOp (c : Char) (small : Bool)
  | relation (c : Char) (second : Option Char) (small : Bool)
  | delimiter (c : Char) (size : Option DelimSize) (ty : DelimType)
  | punctuation (c : Char)
  deriving DecidableEq, Repr

/-- `Visual`, event.rs 154-174 -/
inductive Visual where
  | squareRoot
  | root
  | fraction (bar : Option Dim)
  | negation
  deriving DecidableEq, Repr

/-- `ScriptType`, event.rs 180-188 -/
inductive ScriptType where
  | sub | sup | subSup
  deriving DecidableEq, Repr

/-- `ScriptPosition`, event.rs 190-202 -/
inductive ScriptPos where
  | right | aboveBelow | movable
  deriving DecidableEq, Repr

/-- `Grouping`, event.rs 311-390 -/
inductive Grouping where
  | normal
  | leftRight (l r : Option Char)
  | array (cols : List ArrayCol)
  | matrix (a : ColAlign)
  | cases (left : Bool)
  | equation (eqNumbers : Bool)
  | align (eqNumbers : Bool)
  | aligned
  | subArray (a : ColAlign)
  | alignat (pairs : Nat) (eqNumbers : Bool)
  | alignedat (pairs : Nat)
  | gather (eqNumbers : Bool)
  | gathered
  | multline
  | split
  deriving DecidableEq, Repr

/-- `Grouping::is_math_env`, event.rs 393-395 -/
def Grouping.isMathEnv : Grouping → Bool
  | .normal => false
  | .leftRight _ _ => false
  | _ => true

/-- `EnvironmentFlow`, event.rs 398-480 -/
inductive Flow where
  | alignment
  | newLine (spacing : Option Dim) (lines : List Line)
  | startLines (lines : List Line)
  deriving DecidableEq, Repr

/-- `Event`, event.rs 57-97 -/
inductive Event where
  | content (c : Content)
  | begin_ (g : Grouping)
  | end_
  | visual (v : Visual)
  | script (ty : ScriptType) (pos : ScriptPos)
  | space (width height depth : Option Dim)
  | stateChange (sc : StateChange)
  | flow (f : Flow)
  deriving DecidableEq, Repr

/-- `MatrixType`, event.rs 603-612 -/
inductive MatrixType where
  | normal | small | parens | brackets | braces | vertical | doubleVertical
  deriving DecidableEq, Repr

/-- `GroupingKind`, event.rs 483-501 -/
inductive GroupingKind where
  | normal
  | optionalArgument
  | beginEnd
  | leftRight
  | array (display : Bool)
  | matrix (ty : MatrixType) (columnSpec : Bool)
  | cases (left display : Bool)
  | equation (eqNumbers : Bool)
  | align (eqNumbers : Bool)
  | aligned
  | subArray
  | alignat (eqNumbers : Bool)
  | alignedat
  | gather (eqNumbers : Bool)
  | gathered
  | multline
  | split
  deriving DecidableEq, Repr

/-- `GroupingKind::opening_str`, event.rs 504-547 -/
def GroupingKind.openingStr : GroupingKind → Str
  | .normal => c!"{"
  | .optionalArgument => c!"["
  | .beginEnd => c!"\\begin"
  | .leftRight => c!"\\left"
  | .array false => c!"\\begin{array}"
  | .array true => c!"\\begin{darray}"
  | .matrix .normal true => c!"\\begin{matrix*}"
  | .matrix .normal false => c!"\\begin{matrix}"
  | .matrix .small true => c!"\\begin{smallmatrix*}"
  | .matrix .small false => c!"\\begin{smallmatrix}"
  | .matrix .parens true => c!"\\begin{pmatrix*}"
  | .matrix .parens false => c!"\\begin{pmatrix}"
  | .matrix .brackets true => c!"\\begin{bmatrix*}"
  | .matrix .brackets false => c!"\\begin{bmatrix}"
  | .matrix .braces true => c!"\\begin{Bmatrix*}"
  | .matrix .braces false => c!"\\begin{Bmatrix}"
  | .matrix .vertical true => c!"\\begin{vmatrix*}"
  | .matrix .vertical false => c!"\\begin{vmatrix}"
  | .matrix .doubleVertical true => c!"\\begin{Vmatrix*}"
  | .matrix .doubleVertical false => c!"\\begin{Vmatrix}"
  | .cases true false => c!"\\begin{cases}"
  | .cases true true => c!"\\begin{dcases}"
  | .cases false false => c!"\\begin{rcases}"
  | .cases false true => c!"\\begin{drcases}"
  | .equation true => c!"\\begin{equation}"
  | .equation false => c!"\\begin{equation*}"
  | .align true => c!"\\begin{align}"
  | .align false => c!"\\begin{align*}"
  | .aligned => c!"\\begin{aligned}"
  | .subArray => c!"\\begin{subarray}"
  | .alignat true => c!"\\begin{alignat}"
  | .alignat false => c!"\\begin{alignat*}"
  | .alignedat => c!"\\begin{alignedat}"
  | .gather true => c!"\\begin{gather}"
  | .gather false => c!"\\begin{gather*}"
  | .gathered => c!"\\begin{gathered}"
  | .multline => c!"\\begin{multline}"
  | .split => c!"\\begin{split}"

/-- `GroupingKind::closing_str`, event.rs 549-600 -/
def GroupingKind.closingStr : GroupingKind → Str
  | .normal => c!"}"
  | .optionalArgument => c!"]"
  | .beginEnd => c!"\\end"
  | .leftRight => c!"\\right"
  | .array false => c!"\\end{array}"
  | .array true => c!"\\end{darray}"
  | .matrix .normal true => c!"\\end{matrix*}"
  | .matrix .normal false => c!"\\end{matrix}"
  | .matrix .small true => c!"\\end{smallmatrix*}"
  | .matrix .small false => c!"\\end{smallmatrix}"
  | .matrix .parens true => c!"\\end{pmatrix*}"
  | .matrix .parens false => c!"\\end{pmatrix}"
  | .matrix .brackets true => c!"\\end{bmatrix*}"
  | .matrix .brackets false => c!"\\end{bmatrix}"
  | .matrix .braces true => c!"\\end{Bmatrix*}"
  | .matrix .braces false => c!"\\end{Bmatrix}"
  | .matrix .vertical true => c!"\\end{vmatrix*}"
  | .matrix .vertical false => c!"\\end{vmatrix}"
  | .matrix .doubleVertical true => c!"\\end{Vmatrix*}"
  | .matrix .doubleVertical false => c!"\\end{Vmatrix}"
  | .cases true false => c!"\\end{cases}"
  | .cases true true => c!"\\end{dcases}"
  | .cases false false => c!"\\end{rcases}"
  | .cases false true => c!"\\end{drcases}"
  | .equation true => c!"\\end{equation}"
  | .equation false => c!"\\end{equation*}"
  | .align true => c!"\\end{align}"
  | .align false => c!"\\end{align*}"
  | .aligned => c!"\\end{aligned}"
  | .subArray => c!"\\end{subarray}"
  | .alignat true => c!"\\end{alignat}"
  | .alignat false => c!"\\end{alignat*}"
  | .alignedat => c!"\\end{alignedat}"
  | .gather true => c!"\\end{gather}"
  | .gather false => c!"\\end{gather*}"
  | .gathered => c!"\\end{gathered}"
  | .multline => c!"\\end{multline}"
  | .split => c!"\\end{split}"

/-- `ErrorKind`, error.rs 147-186 -/
inductive ErrorKind where
  | unbalancedGroup (missing : Option GroupingKind)
  | environment | mathShift | hashSign | dimensionArgument | dimensionUnit | mathUnit | delimiter
  | controlSequence | number | characterNumber | argument | groupArgument | doubleSubscript
  | doubleSuperscript | unknownPrimitive | controlSequenceAsArgument | scriptAsArgument
  | emptyControlSequence | unknownColor | invalidCharNumber | relax | bracesInParamText
  | commentInParamText
  | incorrectMacroParams (found expected : Nat)
  | incorrectReplacementParams (found expected : Nat)
  | tooManyParams | standaloneHashSign | incorrectMacroPrefix | macroSuffixNotFound
  | macroAlreadyDefined | macroNotDefined | alignment | newLine | arrayNoColumns | missingExpansion
  | macroRecursionLimit | token
  deriving DecidableEq, Repr

/-- The panics the modelled code can reach, by cause. -/
inductive Panic where
  /-- slicing a `str` at a byte position inside a character -/
  | sliceBoundary
  /-- slice or index out of bounds -/
  | index
  /-- arithmetic overflow, in builds with overflow checks -/
  | overflow
  /-- the `assert!` of `reach_original_call_site` -/
  | assertion
  /-- an `expect`, `unwrap`, `unreachable!` or explicit `panic!` -/
  | explicit
  /-- not a Rust panic: the model's recursion fuel ran out (proved unreachable) -/
  | fuel
  deriving DecidableEq, Repr

/-- Outcome of a Rust function `fn(&mut σ) -> Result<α, ErrorKind>`. -/
inductive Res (σ α : Type) where
  | ok (a : α) (s : σ)
  | err (e : ErrorKind) (s : σ)
  | panic (p : Panic)
  deriving DecidableEq, Repr

/-- Computations over a mutable `σ` that can fail or panic. -/
def M (σ α : Type) := σ → Res σ α

namespace M
variable {σ α β : Type}

@[inline] def pure (a : α) : M σ α := fun s => .ok a s
@[inline] def bind (m : M σ α) (f : α → M σ β) : M σ β := fun s =>
  match m s with
  | .ok a s' => f a s'
  | .err e s' => .err e s'
  | .panic p => .panic p

instance : Monad (M σ) where
  pure := pure
  bind := bind

/-- `return Err(e)` -/
@[inline] def fail (e : ErrorKind) : M σ α := fun s => .err e s
/-- a panic -/
@[inline] def boom (p : Panic) : M σ α := fun _ => .panic p
@[inline] def get : M σ σ := fun s => .ok s s
@[inline] def set (s : σ) : M σ PUnit := fun _ => .ok ⟨⟩ s
@[inline] def modify (f : σ → σ) : M σ PUnit := fun s => .ok ⟨⟩ (f s)
end M

/-- Compile-time and run-time parameters of the Rust program that the model leaves open. -/
structure Cfg where
  /-- whether arithmetic overflow panics (debug builds) or wraps (release builds) -/
  overflowChecks : Bool
  /-- base address of each string allocation: `0` is the input, `k` the `k`-th expansion -/
  addr : Nat → Nat

end PL
