import Verif.Spec.Document
set_option autoImplicit false
/-!
# Trees with the right number of operands
-/
namespace PL.Spec

mutual
/-- Scripts and visuals have the number of operands that is documented for them. -/
def Node.complete : Node → Bool
  | .group _ _ b => b.complete
  | .script ty _ ops => ops.length == scriptOperands ty && ops.complete
  | .visual v ops => ops.length == visualOperands v && ops.complete
  | .table _ _ rows => rows.complete
  | _ => true
def Nodes.complete : Nodes → Bool
  | .nil => true
  | .cons n ns => n.complete && ns.complete
def Rows.complete : Rows → Bool
  | .last cs => cs.complete
  | .line cs _ _ rest => cs.complete && rest.complete
def Cells.complete : Cells → Bool
  | .last b => b.complete
  | .cell b rest => b.complete && rest.complete
  | .lost b _ rest => b.complete && rest.complete
end

end PL.Spec
