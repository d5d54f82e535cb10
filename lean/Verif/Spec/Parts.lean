import Verif.Spec.Document
set_option autoImplicit false
/-!
# Parts of a formula

What the parts of a formula have to do with each other, and the frame around a formula.
-/
namespace PL.Spec

/-- The frame around the elements of a formula. -/
def framed (block xml : Bool) (annotation : Option Str) (body : Str) : Str :=
  tag c!"math" ((c!"display", if block then c!"block" else c!"inline") ::
    (if xml then [(c!"xmlns", c!"http://www.w3.org/1998/Math/MathML")] else []))
    (match annotation with
      | none => body
      | some a => tag c!"semantics" [] (tag c!"mrow" [] body ++ tag c!"annotation" [(c!"encoding", c!"application/x-tex")] a))

mutual
/-- No change of the font, the colours or the style outside of groups. -/
def Node.steady : Node → Bool
  | .change _ => false
  | .script _ _ ops => ops.steady
  | .visual _ ops => ops.steady
  | _ => true
def Nodes.steady : Nodes → Bool
  | .nil => true
  | .cons n ns => n.steady && ns.steady
end

mutual
/-- A function name that is waiting for its argument, perhaps with scripts. -/
def Node.awaits : Node → Bool
  | .content (.function _) => true
  | .script _ _ ops => ops.function || ops.awaits
  | .visual _ ops => ops.awaits
  | _ => false
/-- Nothing but spaces and state changes comes after the function name. -/
def Nodes.awaits : Nodes → Bool
  | .nil => false
  | .cons n ns => ns.awaits || ((ns.first none).isNone && n.awaits)
end

/-- Relations and punctuation. -/
def separates : Content → Bool
  | .relation _ _ _ => true
  | .punctuation _ => true
  | _ => false

/-- No lost lines. -/
def Cells.whole : Cells → Bool
  | .last _ => true
  | .cell _ rest => rest.whole
  | .lost _ _ _ => false

def Rows.whole : Rows → Bool
  | .last cs => cs.whole
  | .line cs _ _ rest => cs.whole && rest.whole

/-- The cells from column `i` on, each with what `f` says about it. -/
def Cells.each (f : Nodes → Str) (g : Grouping) (i : Nat) : Cells → Str
  | .last b => tableCell g i (f b)
  | .cell b rest => tableCell g i (f b) ++ rest.each f g (i + 1)
  | .lost _ _ rest => rest.each f g i

/-- The rows, each cell with what `f` says about it; `P` is only asked how dimensions are shown. -/
def Rows.each (f : Nodes → Str) (P : Printing) (g : Grouping) (ls : List Line) : Rows → Str
  | .last cs => linedRow ls (cs.each f g 0)
  | .line cs sp ls' rest => linedRow ls (cs.each f g 0) ++ spacingRow P g cs.length sp ++ rest.each f P g ls'

/-- Groups, one for each of some sequences. -/
def grouped : List Nodes → Nodes
  | [] => .nil
  | b :: bs => .cons (.group none [] b) (grouped bs)

end PL.Spec
