import Verif.Model.Event
set_option autoImplicit false
/-!
# Markup with balanced tags
-/
namespace PL.Spec

/-- The elements of the renderer's vocabulary. -/
def elementNames : List Str := [c!"math", c!"semantics", c!"annotation", c!"mrow", c!"mi", c!"mn", c!"mo", c!"mtext",
  c!"mspace", c!"merror", c!"mtable", c!"mtr", c!"mtd", c!"msqrt", c!"mroot", c!"mfrac", c!"msub", c!"msup",
  c!"msubsup", c!"munder", c!"mover", c!"munderover"]

/-- The number of children that MathML prescribes for an element. -/
def childrenOf (n : Str) : Option Nat :=
  if n ∈ [c!"mroot", c!"mfrac", c!"msub", c!"msup", c!"munder", c!"mover"] then some 2
  else if n ∈ [c!"msubsup", c!"munderover"] then some 3
  else none

/-- The text between the name and the end of a start tag: a sequence of words, `=` and quoted values. -/
def attrsOk : Bool → Str → Bool
  | quoted, [] => !quoted
  | true, c :: s => if c = '"' then attrsOk false s else c ≠ '<' && attrsOk true s
  | false, c :: s =>
    if c = '"' then attrsOk true s else (c.isAlpha || c = '-' || c = '=' || c = ' ') && attrsOk false s

def Attrs (a : Str) : Prop := (a = [] ∨ ∃ r, a = ' ' :: r) ∧ attrsOk false a = true

/-- One more child of the innermost open element. -/
def addChild : List (Str × Nat) → List (Str × Nat)
  | (n, k) :: S => (n, k + 1) :: S
  | [] => []

/-- The text opens and closes elements of the vocabulary in order, starting with the open elements `S` and ending with
`S'`, where each open element has its number of children so far. If `counted`, elements with a prescribed number of
children have that number when they are closed. -/
inductive Tags (counted : Bool) : List (Str × Nat) → Str → List (Str × Nat) → Prop
  | nil {S} : Tags counted S [] S
  | char {S c t S'} : c ≠ '<' → Tags counted S t S' → Tags counted S (c :: t) S'
  | start {S n a t S'} : n ∈ elementNames → Attrs a → Tags counted ((n, 0) :: S) t S' →
      Tags counted S ('<' :: (n ++ a ++ '>' :: t)) S'
  | empty {S n a t S'} : n ∈ elementNames → Attrs a → Tags counted (addChild S) t S' →
      Tags counted S ('<' :: (n ++ a ++ c!"/>" ++ t)) S'
  | stop {n k S t S'} : (counted = true → ∀ m, childrenOf n = some m → k = m) → Tags counted (addChild S) t S' →
      Tags counted ((n, k) :: S) (c!"</" ++ n ++ '>' :: t) S'

end PL.Spec
