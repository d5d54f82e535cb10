import Verif.Model.Mathml
set_option autoImplicit false
/-!
# What has to appear in a rendering

`Piece i x`: the text `x` shows the item `i`. For contents it is the inside of an element with its end tag, for an error the whole element with the
message. `InOrder items t`: the text `t` contains a piece for every item, one after the other.
-/
namespace PL.Spec
open PL PL.Mathml

/-- The character itself or its form in one of the mathematical alphabets (see C37). -/
def Variant (c d : Char) : Prop := d = c ∨ ∃ f : Font, f.mapChar c = some d

/-- A text whose characters are those of another or their forms. -/
def Variants : Str → Str → Prop
  | [], [] => True
  | c :: s, d :: t => Variant c d ∧ Variants s t
  | _, _ => False

/-- The three characters that are escaped in texts. -/
def escapedChar : Char → Str
  | '&' => c!"&amp;"
  | '<' => c!"&lt;"
  | '>' => c!"&gt;"
  | c => [c]

/-- A space at the end of a text. -/
def edge (c : Option Char) : Str := if (c.map isWs).getD false then c!"&nbsp;" else []

/-- An element with this text, from the end of its start tag. -/
def inside (tag t : Str) : Str := c!">" ++ t ++ c!"</" ++ tag ++ c!">"

/-- The piece of a content. The stroke of a negation may follow the character. -/
def ContentPiece (x : Str) : Content → Prop
  | .text t => ∃ y, Variants (trim t) y ∧ x = inside c!"mtext" (edge t.head? ++ y.flatMap escapedChar ++ edge t.getLast?)
  | .number t => ∃ y, Variants t y ∧ x = inside c!"mn" y
  | .function t => x = inside c!"mi" t
  | .ordinary c stretchy => ∃ d k, Variant c d ∧ (k = [] ∨ k = c!"̸") ∧ x = inside (if stretchy then c!"mo" else c!"mi") (d :: k)
  | .binaryOp c _ => ∃ tag k, (tag = c!"mo" ∨ tag = c!"mi") ∧ (k = [] ∨ k = c!"̸") ∧ x = inside tag (c :: k)
  | .relation c d _ => ∃ k, (k = [] ∨ k = c!"̸") ∧ x = inside c!"mo" (c :: d.toList ++ k)
  | .largeOp c _ => ∃ k, (k = [] ∨ k = c!"̸") ∧ x = inside c!"mo" (c :: k)
  | .delimiter c _ _ => ∃ k, (k = [] ∨ k = c!"̸") ∧ x = inside c!"mo" (c :: k)
  | .punctuation c => ∃ k, (k = [] ∨ k = c!"̸") ∧ x = inside c!"mo" (c :: k)

/-- The start of the elements for a group: rows, and tables for environments. -/
def groupTag : Grouping → Str
  | .normal => c!"<mrow"
  | .leftRight _ _ => c!"<mrow"
  | _ => c!"<mtable"

/-- See the head of the file. State changes, ends, line breaks, alignments and lines need no piece, nor does the negation of the following content. -/
def Piece : RItem → Str → Prop
  | .ok (.content c), x => ContentPiece x c
  | .ok (.begin_ g), x => x = groupTag g
  | .ok (.visual .squareRoot), x => x = c!"<msqrt"
  | .ok (.visual .root), x => x = c!"<mroot"
  | .ok (.visual (.fraction _)), x => x = c!"<mfrac"
  | .ok (.script .sub _), x => x = c!"<msub" ∨ x = c!"<munder"
  | .ok (.script .sup _), x => x = c!"<msup" ∨ x = c!"<mover"
  | .ok (.script .subSup _), x => x = c!"<msubsup" ∨ x = c!"<munderover"
  | .ok (.space (some _) _ _), x => x = c!"<mspace"
  | .ok _, x => x = []
  | .err m, x => ∃ colour, x = c!"<merror style=\"border-color: " ++ colour ++ c!"\"><mtext>" ++ m ++ c!"</mtext></merror>"

/-- See the head of the file. -/
inductive InOrder : List RItem → Str → Prop
  | nil (t : Str) : InOrder [] t
  | cons {i l x u} (t : Str) : Piece i x → InOrder l u → InOrder (i :: l) (t ++ x ++ u)

end PL.Spec
