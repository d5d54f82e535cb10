import Verif.Spec.Define
import Verif.Spec.Number
import Verif.Spec.Columns
import Verif.Model.Primitives
set_option autoImplicit false
/-!
# Specification of the environments

What `\begin{name}` stands for: the group it opens, the greatest number of alignments in a line, a style its content starts in, and
delimiters around it.
-/
namespace PL.Spec

structure EnvShape where
  group : Grouping
  alignments : Nat
  style : Option Style := none
  around : Option (Char × Char) := none

/-- Environments that take no argument. -/
def plainEnvironments : List (Str × EnvShape) := [
  (c!"matrix", ⟨.matrix .center, 65535, none, none⟩),
  (c!"smallmatrix", ⟨.matrix .center, 65535, some .text, none⟩),
  (c!"pmatrix", ⟨.matrix .center, 65535, none, some ('(', ')')⟩),
  (c!"bmatrix", ⟨.matrix .center, 65535, none, some ('[', ']')⟩),
  (c!"Bmatrix", ⟨.matrix .center, 65535, none, some ('{', '}')⟩),
  (c!"vmatrix", ⟨.matrix .center, 65535, none, some ('|', '|')⟩),
  (c!"Vmatrix", ⟨.matrix .center, 65535, none, some ('‖', '‖')⟩),
  (c!"cases", ⟨.cases true, 1, none, none⟩),
  (c!"rcases", ⟨.cases false, 1, none, none⟩),
  (c!"dcases", ⟨.cases true, 1, some .display, none⟩),
  (c!"drcases", ⟨.cases false, 1, some .display, none⟩),
  (c!"equation", ⟨.equation true, 0, none, none⟩),
  (c!"equation*", ⟨.equation false, 0, none, none⟩),
  (c!"align", ⟨.align true, 65535, none, none⟩),
  (c!"align*", ⟨.align false, 65535, none, none⟩),
  (c!"aligned", ⟨.aligned, 65535, none, none⟩),
  (c!"gather", ⟨.gather true, 0, none, none⟩),
  (c!"gather*", ⟨.gather false, 0, none, none⟩),
  (c!"gathered", ⟨.gathered, 0, none, none⟩),
  (c!"multline", ⟨.multline, 0, none, none⟩),
  (c!"split", ⟨.split, 1, none, none⟩)]

/-- Matrices that take an optional column alignment, and the delimiters around them. -/
def starredMatrices : List (Str × Option (Char × Char)) := [
  (c!"matrix*", none), (c!"pmatrix*", some ('(', ')')), (c!"bmatrix*", some ('[', ']')),
  (c!"Bmatrix*", some ('{', '}')), (c!"vmatrix*", some ('|', '|')), (c!"Vmatrix*", some ('‖', '‖'))]

/-- A letter for a column alignment. -/
inductive AlignFor : Char → ColAlign → Prop
  | center : AlignFor 'c' .center
  | left : AlignFor 'l' .left
  | right : AlignFor 'r' .right

/-- Environments that take a column specification, and the style of their content. -/
def arrayEnvironments : List (Str × Option Style) := [(c!"array", none), (c!"darray", some .display)]

/-- Environments that take a number of pairs of columns. -/
def pairEnvironments : List (Str × (Nat → Grouping)) := [
  (c!"alignat", fun n => .alignat n true), (c!"alignat*", fun n => .alignat n false), (c!"alignedat", fun n => .alignedat n)]

/-- `Selects name s sh r`: after `\begin{name}` the arguments at the start of `s` select `sh`, and `r` follows them. Counts are below 2¹⁶. -/
inductive Selects : Str → Str → EnvShape → Str → Prop
  | plain {name sh s} : (name, sh) ∈ plainEnvironments → Selects name s sh s
  | default {name w s r} : (name, w) ∈ starredMatrices → NoOptional s r → Selects name s ⟨.matrix .center, 65535, none, w⟩ r
  | aligned {name w s c a r} : (name, w) ∈ starredMatrices → Bracketed s [c] r → AlignFor c a →
      Selects name s ⟨.matrix a, 65535, none, w⟩ r
  | array {name st s g cols r} : (name, st) ∈ arrayEnvironments → Braced s g r → ColumnsFor g cols → 0 < columnCount cols →
      columnCount cols < 65535 → Selects name s ⟨.array cols, columnCount cols - 1, st, none⟩ r
  | pairs {name f s g n u r} : (name, f) ∈ pairEnvironments → Braced s g r → IntConst g n u → n < 32768 →
      Selects name s ⟨f n, 2 * n - 1, none, none⟩ r
  | subarray {s c a r} : Braced s [c] r → AlignFor c a → Selects c!"subarray" s ⟨.subArray a, 0, none, none⟩ r

/-- Arguments outside `Selects` that are not refused: counts that do not fit. -/
inductive Degenerate : Str → Str → Prop
  | columns {name st s g r} : (name, st) ∈ arrayEnvironments → Braced s g r → 65535 ≤ g.length → Degenerate name s
  | pairs {name f s g n u r} : (name, f) ∈ pairEnvironments → Braced s g r → IntConst g n u → 32768 ≤ n → Degenerate name s

/-- All names of environments. -/
def environmentNames : List Str :=
  plainEnvironments.map (·.1) ++ starredMatrices.map (·.1) ++ arrayEnvironments.map (·.1) ++ pairEnvironments.map (·.1) ++ [c!"subarray"]

/-- The instructions an environment stands for: delimiters, the group, its style, lines at its top, and its content. -/
def shapeOf (sh : EnvShape) (ls : List Line) (x : Sl) : List Instr :=
  (match sh.around with | some (l, r) => [.ev (.begin_ (.leftRight (some l) (some r)))] | none => []) ++
  .ev (.begin_ sh.group) ::
  ((match sh.style with | some s => [.ev (.stateChange (.style s))] | none => []) ++
  (if ls = [] then [] else [.ev (.flow (.startLines ls))]) ++
  .sub x (some ⟨0, sh.alignments⟩) :: .ev .end_ ::
  (if sh.around.isSome then [.ev .end_] else []))

end PL.Spec
