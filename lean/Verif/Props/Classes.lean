import Verif.Lemmas.Render.Classes
import Verif.Props.Document
set_option autoImplicit false
/-!
# Binary operators and TeX's classes of atoms (C54)
-/
namespace PL.Props
open PL PL.Mathml Spec

theorem first_append (nx : Option Atom) : ∀ A B : Nodes, (A.append B).first nx = A.first (B.first nx)
  | .nil, B => by rw [Nodes.append, Nodes.first]
  | .cons n A, B => by rw [Nodes.append, Nodes.first, Nodes.first, first_append]

theorem markup_append (P : Printing) (nx : Option Atom) : ∀ (A B : Nodes) (st : RState) (pv : Option Atom),
    (A.append B).markup P [] st pv nx =
      ⟨(A.markup P [] st pv (B.first nx)).text ++
        (B.markup P [] (A.markup P [] st pv (B.first nx)).st (A.markup P [] st pv (B.first nx)).prev nx).text,
       (B.markup P [] (A.markup P [] st pv (B.first nx)).st (A.markup P [] st pv (B.first nx)).prev nx).st,
       (B.markup P [] (A.markup P [] st pv (B.first nx)).st (A.markup P [] st pv (B.first nx)).prev nx).prev⟩
  | .nil, B, st, pv => by rw [Nodes.append, Nodes.markup]; rfl
  | .cons n A, B, st, pv => by
    rw [Nodes.append, Nodes.markup, Nodes.markup, first_append]
    show Written.mk _ _ _ = _
    rw [show ([] : List Role).tail = [] from rfl, markup_append P nx A B]
    simp only [List.append_assoc]

/-- The element for an operator that can be binary: `mo` if it is, `mi` if it is an ordinary symbol. -/
def operator (st : RState) (c : Char) (small binary : Bool) : Str :=
  tag (if binary then c!"mo" else c!"mi") (lookAttributes .free st ++ (if small then classes [c!"small"] else [])) [c]

/-- In every list of elements (the formula, a group, a cell), the operator between `A` and `B` is written as a binary
operator if and only if it is one by TeX's rules. -/
theorem C54_list_partial (P : Printing) (A B : Nodes) (c : Char) (small : Bool) (st : RState) (pv : Option Atom)
    (hp : pv = none ∨ pv = some .open_) (hA : A.regular = true) (hB : B.regular = true) (cA : A.all Node.clear = true)
    (cB : B.all Node.clear = true) : let b := texBinary A.texClasses B.texClasses
    let a := A.markup P [] st pv (some .bin)
    ((A.append (.cons (.content (.binaryOp c small)) B)).markup P [] st pv none).text =
      a.text ++ operator a.st c small b ++ (B.markup P [] a.st (some (if b then .bin else .ord)) none).text := by
  intro b a
  have hf : (Nodes.cons (.content (.binaryOp c small)) B).first none = some .bin := by
    rw [Nodes.first, Node.first]; rfl
  have h1 : ordLike a.prev = ordLike (running A.texClasses) :=
    prev_class P A cA hA st pv [] (fun _ => by rcases hp with rfl | rfl <;> rfl)
  have h2 : startsOperand (B.first none) = startsOperand B.texClasses.head? := by
    simpa using first_class P B cB hB none [] rfl
  have hb : actsBinary .free a.prev (B.first none) = b := by
    show _ = texBinary _ _
    rw [actsBinary, texBinary_eq, h1, h2]; simp [Role.operand]
  rw [markup_append, hf, Nodes.markup]
  show a.text ++ _ = _
  rw [List.append_assoc]
  have e1 : ([] : List Role).headD .free = .free := rfl
  have e2 : ([] : List Role).tail = [] := rfl
  rw [e1, e2, Node.markup]
  show a.text ++ (P.content .free a.st a.prev (B.first none) false (.binaryOp c small) ++
    (B.markup P [] a.st (behind .free a.prev (B.first none) (.binaryOp c small)) none).text) = _
  have e3 : behind .free a.prev (B.first none) (.binaryOp c small) = some (if b then .bin else .ord) := by
    rw [behind, hb]; rfl
  rw [e3]
  congr 2
  unfold Printing.content operator
  dsimp only
  rw [hb]
  rfl

theorem regular_append : ∀ A B : Nodes, (A.append B).regular = (A.regular && B.regular)
  | .nil, B => by rw [Nodes.append, Nodes.regular]; rfl
  | .cons n A, B => by rw [Nodes.append, Nodes.regular, Nodes.regular, regular_append, Bool.and_assoc]

/-- In the document, the operator between `A` and `B` is written as a binary operator (`mo`) if and only if it is one by
TeX's rules, and otherwise as an ordinary symbol (`mi`). Missing: formulas in which an element is not `clear` (see the
`C54_false` theorems). -/
theorem C54_tex_partial (cfg : RCfg) (A B : Nodes) (c : Char) (small : Bool) (hA : A.regular = true) (hB : B.regular = true)
    (cA : A.all Node.clear = true) (cB : B.all Node.clear = true) (target : Str) :
    let P := printing cfg
    let b := texBinary A.texClasses B.texClasses
    let a := A.markup P [] {} none (some .bin)
    pushMathml cfg ((A.append (.cons (.content (.binaryOp c small)) B)).events.map .ok) target =
      .ok (target ++ (frameStart cfg ++ (a.text ++ operator a.st c small b ++
        (B.markup P [] a.st (some (if b then .bin else .ord)) none).text) ++ frameEnd cfg)) := by
  intro P b a
  have hr : (A.append (.cons (.content (.binaryOp c small)) B)).regular = true := by
    rw [regular_append, hA, Nodes.regular, hB]; rfl
  rw [C53_tree_partial cfg _ hr, frame_eq, C54_list_partial P A B c small {} none (.inl rfl) hA hB cA cB]

/-! ### Cases -/

/-- `x=-y^{2}+3`: the first operator is not binary, the second is. -/
example : texBinary [.ord, .rel] [.ord, .bin, .ord] = false ∧ texBinary [.ord, .rel, .bin, .ord] [.ord] = true := by decide

def sum : Nodes := .cons (.content (.ordinary 'x' false)) (.cons (.content (.relation '=' none false))
  (.cons (.content (.binaryOp '-' false)) (.cons (.script .sup .right (.cons (.content (.ordinary 'y' false))
    (.cons (.group none [] (.cons (.content (.number c!"2")) .nil)) .nil))) .nil)))

example : sum.regular = true ∧ sum.all Node.clear = true ∧ sum.texClasses = [.ord, .rel, .bin, .ord] := by decide +kernel

example : pushMathml rc0 ((sum.append (.cons (.content (.binaryOp '+' false)) (.cons (.content (.number c!"3")) .nil))).events.map .ok) [] =
    .ok c!"<math display=\"inline\"><mi>x</mi><mo>=</mo><mi>-</mi><msup><mi>y</mi><mrow><mn>2</mn></mrow></msup><mo>+</mo><mn>3</mn></math>" := by
  rw [C54_tex_partial rc0 sum (.cons (.content (.number c!"3")) .nil) '+' false (by decide +kernel) (by decide +kernel) (by decide +kernel)
    (by decide +kernel)]
  decide +kernel

/-! ### Operators that are classified differently -/

/-- Events, their classes, and the document. `\vert` is an ordinary symbol for TeX, so that the operator after it is
binary; it is written as an ordinary symbol. -/
theorem C54_false_fence : let es : List Event := [.content (.delimiter '|' none .fence), .content (.ordinary 'x' false),
      .content (.delimiter '|' none .fence), .content (.binaryOp '+' false), .content (.ordinary 'y' false)]
    Yields cf0 c!"\\vert x\\vert+y" (es.map .ok) ∧ texBinary [.ord, .ord, .ord] [.ord] = true ∧
    pushMathml rc0 (es.map .ok) [] = .ok (c!"<math display=\"inline\"><mo symmetric=\"true\" stretchy=\"true\">|</mo><mi>x</mi>" ++
      c!"<mo symmetric=\"true\" stretchy=\"true\">|</mo><mi>+</mi><mi>y</mi></math>") := by
  exact ⟨⟨30, by decide +kernel⟩, by decide, by decide +kernel⟩

/-- A relation with a script in braces: TeX keeps the class of the relation, so that the operator after it is not binary;
it is written as a binary operator. -/
theorem C54_false_script : let es : List Event := [.content (.ordinary 'x' false), .script .sup .right,
      .content (.relation '=' none false), .begin_ .normal, .content (.ordinary 'a' false), .end_,
      .content (.binaryOp '−' false), .content (.ordinary 'b' false)]
    Yields cf0 c!"x=^{a}-b" (es.map .ok) ∧ texBinary [.ord, .rel] [.ord] = false ∧
    pushMathml rc0 (es.map .ok) [] = .ok (c!"<math display=\"inline\"><mi>x</mi><msup><mo>=</mo><mrow><mi>a</mi></mrow></msup>" ++
      c!"<mo>−</mo><mi>b</mi></math>") := by
  exact ⟨⟨30, by decide +kernel⟩, by decide, by decide +kernel⟩

/-- A sum with limits: it is a large operator for TeX, so that the sign after it is not binary; it is written as a binary operator. -/
theorem C54_false_limits : let es : List Event := [.script .subSup .movable, .content (.largeOp '∑' false), .begin_ .normal, .content (.ordinary 'i' false), .end_,
      .begin_ .normal, .content (.ordinary 'n' false), .end_, .content (.binaryOp '−' false), .content (.ordinary 'x' false)]
    Yields cf0 c!"\\sum_{i}^{n}-x" (es.map .ok) ∧ texBinary [.op] [.ord] = false ∧
    pushMathml rc0 (es.map .ok) [] = .ok (c!"<math display=\"inline\"><msubsup><mo movablelimits=\"false\">∑</mo><mrow><mi>i</mi></mrow><mrow><mi>n</mi></mrow></msubsup>" ++
      c!"<mo>−</mo><mi>x</mi></math>") := by
  exact ⟨⟨30, by decide +kernel⟩, by decide, by decide +kernel⟩

end PL.Props
