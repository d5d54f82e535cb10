import Verif.Model.Event
set_option autoImplicit false
/-!
# Specification of column specifications
-/
namespace PL.Spec

/-- A character of a column specification and the entry it stands for, as documented for the `array` environment. -/
inductive ColumnFor : Char → ArrayCol → Prop
  | center : ColumnFor 'c' (.column .center)
  | left : ColumnFor 'l' (.column .left)
  | right : ColumnFor 'r' (.column .right)
  | solid : ColumnFor '|' (.separator .solid)
  | dashed : ColumnFor ':' (.separator .dashed)

/-- Characters of a specification correspond to entries, in order. -/
inductive ColumnsFor : Str → List ArrayCol → Prop
  | nil : ColumnsFor [] []
  | cons {c s col cols} : ColumnFor c col → ColumnsFor s cols → ColumnsFor (c :: s) (col :: cols)

/-- The columns among the entries (the others are separators). -/
def columnCount (cols : List ArrayCol) : Nat := (cols.filter fun | .column _ => true | .separator _ => false).length

end PL.Spec
