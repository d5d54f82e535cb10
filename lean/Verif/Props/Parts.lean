import Verif.Lemmas.Parts
import Verif.Props.Concat
import Verif.Props.Document
import Verif.Props.Classes
set_option autoImplicit false
/-!
# C75: parts are rendered as they are rendered alone
-/
namespace PL.Props
open PL PL.Mathml Spec

/-- Rendering the events writes the frame with the given elements in it, after what the target has already. -/
def Displays (cfg : RCfg) (es : List Event) (body : Str) : Prop :=
  ∀ target, pushMathml cfg (es.map .ok) target = .ok (target ++ framed cfg.block cfg.xml cfg.annotation body)

theorem displays_body (cfg : RCfg) {ns : Nodes} (h : ns.regular = true) : Displays cfg ns.events (ns.markup (printing cfg) [] {} none none).text :=
  fun target => C53_tree_partial cfg ns h target

theorem tag_inj {n : Str} {as : List (Str × Str)} {a b : Str} (h : tag n as a = tag n as b) : a = b := by
  unfold tag at h
  exact List.append_cancel_left (List.append_cancel_right (List.append_cancel_right (List.append_cancel_right h)))

theorem framed_inj {block xml : Bool} {annotation : Option Str} {a b : Str} (h : framed block xml annotation a = framed block xml annotation b) : a = b := by
  have h := tag_inj h
  cases annotation with
  | none => exact h
  | some x => exact tag_inj (List.append_cancel_right (tag_inj h))

/-- The elements are determined. -/
theorem displays_unique {cfg : RCfg} {es : List Event} {a b : Str} (h : Displays cfg es a) (h' : Displays cfg es b) : a = b := by
  have h1 := h []
  rw [h' []] at h1
  injection h1 with h1
  exact framed_inj (by simpa using h1.symm)

theorem regular_cons {n : Node} {ns : Nodes} (h1 : n.regular = true) (h2 : ns.regular = true) : (Nodes.cons n ns).regular = true := by
  rw [Nodes.regular, h1, h2]; rfl

theorem events_append : ∀ A B : Nodes, (A.append B).events = A.events ++ B.events
  | .nil, _ => rfl
  | .cons n A, B => by rw [Nodes.append, Nodes.events, Nodes.events, events_append A B, List.append_assoc]

/-- **C75.** A formula with a relation or a punctuation mark in it: the part before it, the mark and the part after it are rendered as they are alone, when the
part before it leaves the state as it is and does not end in a function name. -/
theorem C75_separated (cfg : RCfg) (A B : Nodes) (c : Content) (hA : A.regular = true) (hB : B.regular = true) (hc : separates c = true) (hs : A.steady = true)
    (hw : A.awaits = false) (a m b : Str) (ra : Displays cfg A.events a) (rm : Displays cfg [.content c] m) (rb : Displays cfg B.events b) :
    Displays cfg (A.events ++ .content c :: B.events) (a ++ m ++ b) := by
  have e : A.events ++ .content c :: B.events = (A.append (.cons (.content c) B)).events := by rw [events_append]; rfl
  rw [displays_unique ra (displays_body cfg hA), displays_unique rb (displays_body cfg hB), displays_unique rm (displays_body cfg (ns := .cons (.content c) .nil) (by rfl)), e]
  have h := displays_body cfg (ns := A.append (.cons (.content c) B)) (by rw [regular_append, hA, regular_cons rfl hB]; rfl)
  rw [markup_append] at h
  have hf : (Nodes.cons (.content c) B).first none = some (ahead c) := rfl
  have h0 : startsOperand (some (ahead c)) = startsOperand none := by cases c <;> first | rfl | cases hc
  rw [hf, nodes_next A [] {} none _ none h0 (.inl hw)] at h
  rw [nodes_steady A [] {} none none hs] at h
  dsimp only at h
  have h1 : ((Nodes.cons (.content c) B).markup (printing cfg) [] {} (A.markup (printing cfg) [] {} none none).prev none).text =
      ((Nodes.cons (.content c) .nil).markup (printing cfg) [] {} none none).text ++ (B.markup (printing cfg) [] {} none none).text := by
    have h2 := fun p => nodes_prev (P := printing cfg) B [] {} p none none
    cases c with
    | relation x y z =>
      simp only [Nodes.markup, Node.markup, behind, Role.after, Role.silent, List.headD_nil, List.tail_nil, Bool.false_eq_true, if_false]
      rw [(h2 (some .rel) rfl).text]
      simp [Printing.content]
    | punctuation x =>
      simp only [Nodes.markup, Node.markup, behind, Role.after, Role.silent, List.headD_nil, List.tail_nil, Bool.false_eq_true, if_false]
      rw [(h2 (some .punct) rfl).text]
      simp [Printing.content]
    | _ => cases hc
  rw [h1, ← List.append_assoc] at h
  exact h

/-- A group in braces: a row with what its content is alone. -/
theorem C75_group (cfg : RCfg) (B : Nodes) (hB : B.regular = true) (hc : B.startsWithChange = false) (b : Str) (rb : Displays cfg B.events b) :
    Displays cfg (.begin_ .normal :: B.events ++ [.end_]) (tag c!"mrow" [] b) := by
  rw [displays_unique rb (displays_body cfg hB)]
  have h := displays_body cfg (ns := .cons (.group none [] B) .nil) (by simp [Nodes.regular, Node.regular, hB, hc])
  simpa [Nodes.markup, Node.markup, Nodes.events, Node.events, lookAttributes, styleAttributes, colourAttributes] using h

theorem no_look (r : Role) : lookAttributes r {} = [] := by
  unfold lookAttributes
  split <;> rfl

/-- Delimiters that stretch, around what the content is alone. -/
theorem C75_delimited (cfg : RCfg) (B : Nodes) (l r : Option Char) (hB : B.regular = true) (hc : B.startsWithChange = false) (b : Str) (rb : Displays cfg B.events b) :
    Displays cfg (.begin_ (.leftRight l r) :: B.events ++ [.end_]) (tag c!"mrow" []
      ((l.map fun c => tag c!"mo" [(c!"stretchy", c!"true")] [c]).getD [] ++ b ++ (r.map fun c => tag c!"mo" [(c!"stretchy", c!"true")] [c]).getD [])) := by
  rw [displays_unique rb (displays_body cfg hB)]
  have h := displays_body cfg (ns := .cons (.group (some (l, r)) [] B) .nil) (by simp [Nodes.regular, Node.regular, hB, hc])
  have h1 := nodes_prev (P := printing cfg) B [] {} (some .open_) none none rfl
  have h2 : ∀ (q : Role) (x : Option Char), stretched q {} x = (x.map fun c => tag c!"mo" [(c!"stretchy", c!"true")] [c]).getD [] := by
    intro q x
    cases x with
    | none => rfl
    | some c => unfold stretched; rw [no_look]; rfl
  simp only [Nodes.markup, Node.markup, Nodes.events, Node.events, no_look, h2, List.foldl_nil, Option.isSome_some, if_true, List.append_nil, List.map_nil, List.nil_append] at h
  rw [h1.text] at h
  exact h

/-- What the content of groups is alone, in rows. -/
theorem grouped_markup {P : Printing} : ∀ (bs : List Nodes) (rs : List Role) (p next : Option Atom),
    ((grouped bs).markup P rs {} p next).text = bs.flatMap fun b => tag c!"mrow" [] (b.markup P [] {} none none).text
  | [], _, _, _ => rfl
  | b :: bs, rs, p, next => by
    have ih := grouped_markup (P := P) bs
    simp only [grouped, Nodes.markup, Node.markup, no_look, List.foldl_nil, List.flatMap_cons, ih]
    rfl

theorem grouped_function : ∀ bs : List Nodes, (grouped bs).function = false
  | [] => rfl
  | _ :: bs => grouped_function bs

theorem grouped_length : ∀ bs : List Nodes, (grouped bs).length = bs.length
  | [] => rfl
  | _ :: bs => by rw [grouped, Nodes.length, grouped_length bs]; rfl

theorem grouped_regular : ∀ {bs : List Nodes}, (∀ b ∈ bs, b.regular = true ∧ b.startsWithChange = false) → (grouped bs).regular = true
  | [], _ => rfl
  | b :: bs, h => by
    rw [grouped]
    exact regular_cons (by simp [Node.regular, h b (by simp)]) (grouped_regular fun x hx => h x (by simp [hx]))

theorem grouped_stroked : ∀ bs : List Nodes, (grouped bs).stroked = none
  | [] => rfl
  | _ :: _ => rfl

theorem flatMap_same {α : Type} {l : List α} {f g : α → Str} (h : ∀ b ∈ l, f b = g b) : l.flatMap f = l.flatMap g := by
  induction l with
  | nil => rfl
  | cons x l ih => rw [List.flatMap_cons, List.flatMap_cons, h x (by simp), ih fun b hb => h b (by simp [hb])]

/-- The parts of a script in braces: in rows, as they are alone. -/
theorem C75_script (cfg : RCfg) (ty : ScriptType) (pos : ScriptPos) (bs : List Nodes) (f : Nodes → Str) (hn : bs.length = scriptOperands ty)
    (hb : ∀ b ∈ bs, b.regular = true ∧ b.startsWithChange = false ∧ Displays cfg b.events (f b)) :
    Displays cfg (.script ty pos :: (grouped bs).events)
      (tag (scriptElement ty (match pos with | .right => false | .aboveBelow => true | .movable => cfg.block)) [] (bs.flatMap fun b => tag c!"mrow" [] (f b))) := by
  have h := displays_body cfg (ns := .cons (.script ty pos (grouped bs)) .nil)
    (by simp [Nodes.regular, Node.regular, grouped_length, hn, grouped_regular fun b h => ⟨(hb b h).1, (hb b h).2.1⟩])
  have e : (bs.flatMap fun b => tag c!"mrow" [] (f b)) = bs.flatMap fun b => tag c!"mrow" [] (b.markup (printing cfg) [] {} none none).text := by
    exact flatMap_same fun b h => by rw [displays_unique (hb b h).2.2 (displays_body cfg (hb b h).1)]
  simp only [Nodes.markup, Node.markup, Nodes.events, Node.events, no_look, grouped_function, grouped_markup, List.append_nil, Bool.false_eq_true, if_false] at h
  rw [e]
  cases pos <;> exact h

/-- The attributes of a fraction or a root, or of a negation. -/
def visualAttributes (cfg : RCfg) : Visual → List (Str × Str)
  | .fraction (some d) => [(c!"linethickness", (printing cfg).shown d)]
  | .negation => classes [c!"mop-negated"]
  | _ => []

/-- The parts of a fraction, a root or a negation in braces: in rows, as they are alone. -/
theorem C75_visual (cfg : RCfg) (v : Visual) (bs : List Nodes) (f : Nodes → Str) (hn : bs.length = visualOperands v)
    (hb : ∀ b ∈ bs, b.regular = true ∧ b.startsWithChange = false ∧ Displays cfg b.events (f b)) :
    Displays cfg (.visual v :: (grouped bs).events) (tag (visualElement v) (visualAttributes cfg v) (bs.flatMap fun b => tag c!"mrow" [] (f b))) := by
  have h := displays_body cfg (ns := .cons (.visual v (grouped bs)) .nil)
    (by simp [Nodes.regular, Node.regular, grouped_length, hn, grouped_regular fun b h => ⟨(hb b h).1, (hb b h).2.1⟩])
  have e : (bs.flatMap fun b => tag c!"mrow" [] (f b)) = bs.flatMap fun b => tag c!"mrow" [] (b.markup (printing cfg) [] {} none none).text :=
    flatMap_same fun b h => by rw [displays_unique (hb b h).2.2 (displays_body cfg (hb b h).1)]
  rw [e]
  have hs := grouped_stroked bs
  simp only [Nodes.events, Node.events, List.append_nil] at h
  cases v with
  | fraction d => cases d <;> simpa [Nodes.markup, Node.markup, no_look, hs, grouped_markup, visualAttributes] using h
  | _ => simpa [Nodes.markup, Node.markup, no_look, hs, grouped_markup, visualAttributes] using h

theorem cells_each {cfg : RCfg} {f : Nodes → Str} (hf : ∀ b : Nodes, b.regular = true → Displays cfg b.events (f b)) (g : Grouping) :
    ∀ (cs : Cells) (i : Nat), cs.whole = true → cs.regular = true → cs.markup (printing cfg) g i [] {} none = cs.each f g i
  | .last b, i, _, hr => by
    rw [Cells.markup, Cells.each, displays_unique (hf b hr) (displays_body cfg hr), List.nil_append]
  | .cell b rest, i, hw, hr => by
    rw [Cells.regular, Bool.and_eq_true] at hr
    rw [Cells.markup, Cells.each, displays_unique (hf b hr.1) (displays_body cfg hr.1), List.nil_append, cells_each hf g rest (i + 1) hw hr.2]
  | .lost _ _ _, _, hw, _ => by cases hw

theorem rows_each {cfg : RCfg} {f : Nodes → Str} (hf : ∀ b : Nodes, b.regular = true → Displays cfg b.events (f b)) (g : Grouping) (k : Nat) :
    ∀ (rows : Rows) (ls : List Line), rows.whole = true → rows.regular k = true → rows.markup (printing cfg) g ls = rows.each f (printing cfg) g ls
  | .last cs, ls, hw, hr => by
    rw [Rows.regular, Bool.and_eq_true] at hr
    rw [Rows.markup, Rows.each, cells_each hf g cs 0 hw hr.2]
  | .line cs sp ls' rest, ls, hw, hr => by
    rw [Rows.regular, Bool.and_eq_true, Bool.and_eq_true] at hr
    rw [Rows.whole, Bool.and_eq_true] at hw
    rw [Rows.markup, Rows.each, cells_each hf g cs 0 hw.1 hr.1.2, rows_each hf g k rest ls' hw.2 hr.2]

/-- An environment: its cells are rendered as they are alone. Not so for equations with line breaks, where the breaks are lost (C53). -/
theorem C75_table (cfg : RCfg) (g : Grouping) (ls : Option (List Line)) (rows : Rows) (f : Nodes → Str) (hg : ∀ b, g ≠ .equation b)
    (hr : (Node.table g ls rows).regular = true) (hw : rows.whole = true) (hf : ∀ b : Nodes, b.regular = true → Displays cfg b.events (f b)) :
    Displays cfg (Node.table g ls rows).events (tableElement g (rows.each f (printing cfg) g (ls.getD []))) := by
  have h := displays_body cfg (ns := .cons (.table g ls rows) .nil) (regular_cons hr rfl)
  have hr' : rows.regular (alignments g + 1) = true := by
    cases g <;> first | exact absurd rfl (hg _) | (simp only [Node.regular, Bool.and_eq_true] at hr; exact hr.2)
  rw [← rows_each hf g _ rows (ls.getD []) hw hr']
  have e : ((Nodes.cons (.table g ls rows) .nil).markup (printing cfg) [] {} none none).text = tableElement g (rows.markup (printing cfg) g (ls.getD [])) := by
    cases g <;> first | exact absurd rfl (hg _) | simp [Nodes.markup, Node.markup]
  rw [e] at h
  have e2 : (Nodes.cons (.table g ls rows) .nil).events = (Node.table g ls rows).events := by rw [Nodes.events, Nodes.events, List.append_nil]
  rw [e2] at h
  exact h

/-- From the text: two texts with a relation or a punctuation mark between them. -/
theorem C75_source (cf : Cfg) (cfg : RCfg) (t m u : Str) (A B : Nodes) (c : Content) (ht : Formula t A) (hm : Formula m (.cons (.content c) .nil)) (hu : Formula u B)
    (hct : Closed t) (hcm : Closed m) (htm : Meets t (m ++ u)) (hmu : Meets m u) (hA : A.regular = true) (hB : B.regular = true) (hc : separates c = true)
    (hs : A.steady = true) (hw : A.awaits = false) (a x b : Str) (ra : Displays cfg A.events a) (rm : Displays cfg [.content c] x) (rb : Displays cfg B.events b) :
    ∃ es, Yields cf (t ++ (m ++ u)) (es.map .ok) ∧ Displays cfg es (a ++ x ++ b) := by
  have h1 := C74_meaning m u _ _ hm hu hcm hmu
  have h2 := C74_meaning t (m ++ u) _ _ ht h1 hct htm
  refine ⟨_, C55_meaning cf _ _ h2, ?_⟩
  rw [events_append]
  exact C75_separated cfg A B c hA hB hc hs hw a x b ra rm rb

/-! ### Cases -/

/-- `x+1` and `-y` with `=` between them. -/
example : Displays rc0 ([ordinary 'x', .content (.binaryOp '+' false), .content (.number c!"1")] ++ .content (.relation '=' none false) :: [.content (.binaryOp '−' false), ordinary 'y'])
    (c!"<mi>x</mi><mo>+</mo><mn>1</mn>" ++ c!"<mo>=</mo>" ++ c!"<mi>−</mi><mi>y</mi>") := by
  refine C75_separated rc0 (.cons (.content (.ordinary 'x' false)) (.cons (.content (.binaryOp '+' false)) (.cons (.content (.number c!"1")) .nil)))
    (.cons (.content (.binaryOp '−' false)) (.cons (.content (.ordinary 'y' false)) .nil)) (.relation '=' none false) rfl rfl rfl rfl rfl _ _ _ ?_ ?_ ?_
  · exact displays_body rc0 (ns := .cons (.content (.ordinary 'x' false)) (.cons (.content (.binaryOp '+' false)) (.cons (.content (.number c!"1")) .nil))) rfl
  · exact displays_body rc0 (ns := .cons (.content (.relation '=' none false)) .nil) rfl
  · exact displays_body rc0 (ns := .cons (.content (.binaryOp '−' false)) (.cons (.content (.ordinary 'y' false)) .nil)) rfl

/-- A fraction with two sums. -/
example : Displays rc0 (.visual (.fraction none) :: [.begin_ .normal, ordinary 'x', .end_, .begin_ .normal, .content (.binaryOp '−' false), ordinary 'y', .end_])
    (tag c!"mfrac" [] (c!"<mrow><mi>x</mi></mrow>" ++ c!"<mrow><mi>−</mi><mi>y</mi></mrow>")) := by
  have h := C75_visual rc0 (.fraction none) [.cons (.content (.ordinary 'x' false)) .nil, .cons (.content (.binaryOp '−' false)) (.cons (.content (.ordinary 'y' false)) .nil)]
    (fun ns => (ns.markup (printing rc0) [] {} none none).text) rfl (by
      intro b hb
      simp at hb
      rcases hb with rfl | rfl
      · exact ⟨rfl, rfl, displays_body rc0 rfl⟩
      · exact ⟨rfl, rfl, displays_body rc0 rfl⟩)
  exact h

/-- `y^2`. -/
def square : Nodes := .one (.script .sup .right (.two (.content (.ordinary 'y' false)) (.content (.number c!"2"))))

theorem formula_square : Formula c!"y^2" square :=
  .whole (.script (ns := .one _) (ks := .one _) (x := .chr 'y') (t := c!"^2") (r := c!"^2") (pl := {}) (vs := []) (w := []) (v := c!"2") (v' := []) (c := '^') (pl' := {})
    (nextTok_chr (by decide +kernel)) (free _) (.single (.chr (by decide))) rfl .no (by simp [Spaces]) (.inl rfl)
    (.tokenArg (x := .chr '2') (t := []) ⟨nextTok_chr (by decide +kernel), noBrace (by decide)⟩ (free _) (.digit (by decide)))
    (noScriptHere (by decide)) .nil) (.blank .nil)

theorem formula_equals : Formula c!"=" (.cons (.content (.relation '=' none false)) .nil) :=
  .whole (.plain (ns := .one _) (x := .chr '=') (t := []) (r := []) (pl := {}) (vs := []) (r' := []) (nextTok_chr (by decide +kernel)) (free _)
    (.single (.chr (by decide))) rfl .no (noScripts (by decide)) .nil) (.blank .nil)

theorem meets_equals {t v : Str} : Meets t ('=' :: v) where
  first c w h := by injection h with h _; subst h; decide
  limits := ⟨(by rintro ⟨r, h⟩; cases h), (by rintro ⟨r, h⟩; cases h)⟩
  word c w h hl := by injection h with h _; subst h; exact absurd hl (by decide)
  number c w h hl := by injection h with h _; subst h; exact absurd hl (by unfold NumeralChar; decide)
  low c w h hl := by injection h with h _; subst h; exact absurd hl (by decide)
  quantity c w h hl := by injection h with h _; subst h; exact absurd hl (by decide)

theorem equals_meets {v : Str} : Meets c!"=" ('y' :: v) where
  first c w h := by injection h with h _; subst h; decide
  limits := ⟨(by rintro ⟨r, h⟩; cases h), (by rintro ⟨r, h⟩; cases h)⟩
  word c w h _ p name _ e := absurd (show '\\' ∈ c!"=" by rw [e]; simp) (by decide)
  number c w h hl := by injection h with h _; subst h; exact absurd hl (by unfold NumeralChar; decide)
  low c w h hl := by injection h with h _; subst h; exact absurd hl (by decide)
  quantity c w h _ := by decide

/-- `y^2=y^2`. -/
example : ∃ es, Yields cf0 c!"y^2=y^2" (es.map .ok) ∧
    Displays rc0 es (c!"<msup><mi>y</mi><mn>2</mn></msup>" ++ c!"<mo>=</mo>" ++ c!"<msup><mi>y</mi><mn>2</mn></msup>") :=
  C75_source cf0 rc0 c!"y^2" c!"=" c!"y^2" square square (.relation '=' none false) formula_square formula_equals formula_square
    (closed_plain (by decide) (by decide +kernel) (by decide +kernel)) (closed_plain (by decide) (by decide +kernel) (by decide +kernel)) meets_equals equals_meets
    rfl rfl rfl rfl rfl _ _ _ (displays_body rc0 rfl) (displays_body rc0 (ns := .cons (.content (.relation '=' none false)) .nil) rfl) (displays_body rc0 rfl)

/-- A matrix with a sum in its first cell. -/
example : Displays rc0 [.begin_ (.matrix .center), .content (.binaryOp '−' false), ordinary 'y', .flow .alignment, ordinary 'x', .end_]
    (tag c!"mtable" [(c!"class", c!"menv-arraylike")] (tag c!"mtr" [] (tag c!"mtd" [] c!"<mi>−</mi><mi>y</mi>" ++ tag c!"mtd" [] c!"<mi>x</mi>"))) :=
  C75_table rc0 (.matrix .center) none (.last (.cell (.cons (.content (.binaryOp '−' false)) (.cons (.content (.ordinary 'y' false)) .nil))
    (.last (.cons (.content (.ordinary 'x' false)) .nil)))) (fun ns => (ns.markup (printing rc0) [] {} none none).text) (by intro b; simp) rfl rfl fun _ h => displays_body rc0 h

/-- A part that ends in a function name or changes the state is not rendered as it is alone. -/
theorem C75_needed :
    Displays rc0 [.content (.function c!"sin")] c!"<mi>sin</mi>" ∧ Displays rc0 [.content (.relation '=' none false), ordinary 'x'] c!"<mo>=</mo><mi>x</mi>" ∧
    Displays rc0 [.content (.function c!"sin"), .content (.relation '=' none false), ordinary 'x'] c!"<mi>sin</mi><mo>⁡</mo><mspace width=\"0.1667em\" /><mo>=</mo><mi>x</mi>" ∧
    Displays rc0 [.stateChange (.font (some .bold))] [] ∧
    Displays rc0 [.stateChange (.font (some .bold)), .content (.relation '=' none false), ordinary 'x'] c!"<mo>=</mo><mi>𝐱</mi>" := by
  refine ⟨?_, ?_, ?_, ?_, ?_⟩
  · exact displays_body rc0 (ns := .cons (.content (.function c!"sin")) .nil) rfl
  · exact displays_body rc0 (ns := .cons (.content (.relation '=' none false)) (.cons (.content (.ordinary 'x' false)) .nil)) rfl
  · exact displays_body rc0 (ns := .cons (.content (.function c!"sin")) (.cons (.content (.relation '=' none false)) (.cons (.content (.ordinary 'x' false)) .nil))) rfl
  · exact displays_body rc0 (ns := .cons (.change (.font (some .bold))) .nil) rfl
  · exact displays_body rc0 (ns := .cons (.change (.font (some .bold))) (.cons (.content (.relation '=' none false)) (.cons (.content (.ordinary 'x' false)) .nil))) rfl

end PL.Props
