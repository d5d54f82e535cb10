import Verif.Spec.Document
set_option autoImplicit false
/-!
# TeX's classes of atoms

The rules by which TeX decides whether a binary operator is one (The TeXbook, appendix G, rules 5 and 6), on lists of
classes.
-/
namespace PL.Spec
open Mathml (Atom)

/-- One atom. The classes so far are in reverse order. Rule 5: a binary operator at the start, or after a binary operator,
a large operator, a relation, an opening or a punctuation, becomes ordinary. Rule 6: a binary operator before a
relation, a closing or a punctuation becomes ordinary. -/
def texAtom (acc : List Atom) (a : Atom) : List Atom :=
  match a with
  | .bin =>
    match acc with
    | [] => [.ord]
    | p :: _ => if p ∈ [.bin, .op, .rel, .open_, .punct] then .ord :: acc else .bin :: acc
  | .rel | .close | .punct =>
    match acc with
    | .bin :: r => a :: .ord :: r
    | _ => a :: acc
  | _ => a :: acc

/-- The final classes: a binary operator at the end is ordinary. -/
def texClasses (as : List Atom) : List Atom :=
  match as.foldl texAtom [] with
  | .bin :: r => (.ord :: r).reverse
  | acc => acc.reverse

/-- The operator between `before` and `after` is a binary operator. -/
def texBinary (before after : List Atom) : Bool := (texClasses (before ++ .bin :: after))[before.length]? = some .bin

/-- The class of a content. -/
def contentClass : Content → Atom
  | .function _ => .op
  | c => ahead c

mutual
/-- The class of an element: a script has the class of its base, fractions are inner, subformulas are ordinary. Spaces
and changes of state have none. -/
def Node.texClass : Node → Option Atom
  | .content c => some (contentClass c)
  | .space _ _ _ => none
  | .change _ => none
  | .group none _ _ => some .ord
  | .group (some _) _ _ => some .inner
  | .table _ _ _ => some .inner
  | .script _ _ ops => ops.baseClass
  | .visual .negation ops => ops.baseClass
  | .visual (.fraction _) _ => some .inner
  | .visual _ _ => some .ord
def Nodes.baseClass : Nodes → Option Atom
  | .nil => none
  | .cons n _ => n.texClass
end

/-- The classes of a list of elements. -/
def Nodes.texClasses : Nodes → List Atom
  | .nil => []
  | .cons n ns => n.texClass.toList ++ ns.texClasses

/-- Neither a vertical bar or other symbol that is both an opening and a closing, nor an accent. -/
def clearContent : Content → Bool
  | .delimiter _ _ .fence => false
  | .ordinary _ true => false
  | _ => true

/-- A group, table or square root. -/
def Node.block : Node → Bool
  | .group _ _ _ => true
  | .table _ _ _ => true
  | .visual .squareRoot _ => true
  | _ => false

/-- A letter, number, text, group, table or square root. -/
def Node.solid : Node → Bool
  | .content (.text _) => true
  | .content (.number _) => true
  | .content (.ordinary _ false) => true
  | n => n.block

/-- A content, group, table or square root. -/
def Node.simple : Node → Bool
  | .content _ => true
  | n => n.block

def Nodes.all (p : Node → Bool) : Nodes → Bool
  | .nil => true
  | .cons n ns => p n && ns.all p

def Node.isContent : Node → Bool
  | .content _ => true
  | _ => false

/-- A content other than a binary operator. -/
def Node.fixed : Node → Bool
  | .content (.binaryOp _ _) => false
  | .content c => clearContent c
  | _ => false

/-- A function name. -/
def Node.named : Node → Bool
  | .content (.function _) => true
  | _ => false

/-- Operands of scripts: the base has the class of a letter, or the scripts are single symbols. -/
def Nodes.clearScript : Nodes → Bool
  | .nil => false
  | .cons b ss => (b.solid && ss.all Node.simple) || (b.fixed && ss.all Node.isContent)

/-- Operands of fractions and roots. -/
def Nodes.clearPair : Nodes → Bool
  | .nil => false
  | .cons n ds => n.solid && ds.all Node.simple

/-- Operands of negations. -/
def Nodes.clearNegated : Nodes → Bool
  | .cons n .nil => n.block || (n.fixed && !n.named)
  | _ => false

/-- Elements whose class the renderer determines as TeX does. -/
def Node.clear : Node → Bool
  | .content c => clearContent c
  | .script _ _ ops => ops.clearScript
  | .visual .negation ops => ops.clearNegated
  | .visual (.fraction _) ops => ops.clearPair
  | .visual .root ops => ops.clearPair
  | _ => true

end PL.Spec
