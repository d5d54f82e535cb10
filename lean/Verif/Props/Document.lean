import Verif.Lemmas.Render.ExactDoc
import Verif.Lemmas.Render.Trees
import Verif.Props.Balanced
set_option autoImplicit false
/-!
# The document that is rendered (C53)
-/
namespace PL.Props
open PL PL.Mathml Spec

theorem inner_exact (cfg : RCfg) (ns : Nodes) (h : ns.regular = true) :
    wp (inner cfg) (fun _ s' => s'.out = (ns.markup (printing cfg) [] {} none none).text)
      (core (initSt (ns.events.map .ok) [] none)) := by
  have loop : wp (mainLoop cfg (([] : List RItem).length + (ns.events.map RItem.ok).length + 1))
      (fun _ s' => ∃ st pv rc, s' = ⟨[], [], (ns.markup (printing cfg) [] {} none none).text, none, [], [st], pv, rc⟩)
      ⟨[], ns.events.map .ok, [], none, [], [{}], none, false⟩ := by
    refine (bodyX (cfg := cfg) ns h (WL cfg fun _ s' => ∃ st pv rc, s' = ⟨[], [],
      (ns.markup (printing cfg) [] {} none none).text, none, [], [st], pv, rc⟩)
      [] [] (ns.events.map .ok) [] [] {} [] none false (.inl rfl) (by simp) fun p r rc hp => ?_) _ (by simp [qlen])
    obtain ⟨rfl, rfl⟩ := List.append_eq_nil_iff.1 hp
    exact wl_empty rfl ⟨_, _, _, rfl⟩
  unfold inner
  rw [wp_bind, wp_get, wp_bind]
  refine wp_mono loop ?_
  rintro _ _ ⟨st, pv, rc, rfl⟩
  rw [wp_bind, wp_get]
  cases rc
  · simp only [Bool.false_eq_true, if_false, wp_bind, wp_get]
    exact (wp_pure _ _ _).2 rfl
  · simp only [if_true, wp_bind, wp_get, cleanup, wp_modify]
    exact (wp_pure _ _ _).2 rfl

set_option maxRecDepth 8000 in
theorem frame_eq (cfg : RCfg) (ns : Nodes) : mathDocument (printing cfg) cfg.xml cfg.annotation ns =
    frameStart cfg ++ (ns.markup (printing cfg) [] {} none none).text ++ frameEnd cfg := by
  unfold mathDocument frameStart frameEnd
  generalize (ns.markup (printing cfg) [] {} none none).text = t
  have hb : (printing cfg).block = cfg.block := rfl
  rw [hb]
  cases cfg.annotation <;> cases cfg.xml <;> cases cfg.block <;>
    (simp only [tag, attr, List.append_assoc, List.flatMap_cons, List.flatMap_nil, List.append_nil, if_true, Bool.false_eq_true, if_false, Option.isSome]; rfl)

/-- The text written for a tree of events is the document that the specification gives for the tree, with its four `flawed` constructs. Missing: what
`regular` excludes, where the renderer writes something else (see the `C53_false` theorems). -/
theorem C53_tree_partial (cfg : RCfg) (doc : Nodes) (h : doc.regular = true) (target : Str) :
    pushMathml cfg (doc.events.map .ok) target = .ok (target ++ mathDocument (printing cfg) cfg.xml cfg.annotation doc) := by
  obtain ⟨a, s', h1, h2⟩ := inner_exact cfg doc h
  have e : core (initSt (doc.events.map .ok) target none) = core (initSt (doc.events.map .ok) [] none) := rfl
  rw [pushMathml, render, write_none cfg (initSt (doc.events.map .ok) target none) rfl, e, h1, frame_eq]
  simp [initSt, h2]

/-- As it should be. -/
def intended (P : Printing) : Printing := { P with flawed := false }

theorem content_intended (P : Printing) (r : Role) (st : RState) (pv next : Option Atom) (neg : Bool) (c : Content)
    (h : (Node.content c).flawless = true) : P.content r st pv next neg c = (intended P).content r st pv next neg c := by
  cases c with
  | delimiter x z ty =>
    cases z with
    | none => rfl
    | some z => cases h
  | ordinary x b => cases b <;> rfl
  | _ => rfl

theorem content_next (P : Printing) (r : Role) (st : RState) (pv x y : Option Atom) (c : Content) (hs : strokable c = true)
    (hb : ∀ a b, c ≠ .binaryOp a b) : P.content r st pv x true c = P.content r st pv y true c ∧ behind r pv x c = behind r pv y c := by
  cases c with
  | binaryOp a b => exact absurd rfl (hb a b)
  | function t => cases hs
  | ordinary c b => cases b <;> exact ⟨rfl, rfl⟩
  | delimiter c z ty => cases z <;> cases ty <;> exact ⟨rfl, rfl⟩
  | _ => exact ⟨rfl, rfl⟩

mutual
theorem node_intended (P : Printing) : ∀ (n : Node), n.flawless = true → ∀ r st pv next, n.markup P r st pv next = n.markup (intended P) r st pv next
  | .content c, h => fun r st pv next => by rw [Node.markup, Node.markup, content_intended P r st pv next false c h]
  | .space w h d, hf => fun r st pv next => by
    cases w with
    | none => cases hf
    | some w => rw [Node.markup, Node.markup]; rfl
  | .change sc, _ => fun r st pv next => by rw [Node.markup, Node.markup]
  | .group delims cs b, h => fun r st pv next => by
    rw [Node.flawless] at h
    cases delims <;> (rw [Node.markup.eq_def, Node.markup.eq_def]; simp only [nodes_intended P b h])
  | .script ty pos ops, h => fun r st pv next => by
    rw [Node.flawless] at h
    rw [Node.markup, Node.markup, nodes_intended P ops h]
    rfl
  | .visual v ops, h => fun r st pv next => by
    rw [Node.flawless, Bool.and_eq_true, Bool.not_eq_true'] at h
    by_cases hv : v = .negation
    · subst hv
      cases hs : ops.stroked with
      | none => rw [markup_negation hs, markup_negation hs, nodes_intended P ops h.2]
      | some c =>
        rw [markup_stroked hs, markup_stroked hs]
        have hop : ops = .cons (.content c) .nil ∧ strokable c = true := by
          unfold Nodes.stroked at hs
          split at hs
          · split at hs
            · rename_i hc; cases hs; exact ⟨rfl, hc⟩
            · cases hs
          · cases hs
        obtain ⟨rfl, hc⟩ := hop
        have h2 := h.2
        rw [Nodes.flawless, Bool.and_eq_true] at h2
        have hb : ∀ a b, c ≠ .binaryOp a b := by
          rintro a b rfl
          exact absurd h.1 (by simp [Nodes.binary])
        rw [content_intended P _ _ _ _ _ _ h2.1]
        obtain ⟨e1, e2⟩ := content_next (intended P) r st pv (if P.flawed = true then some (ahead c) else next)
          (if (intended P).flawed = true then some (ahead c) else next) c hc hb
        rw [e1, e2]
    · rw [markup_visual hv, markup_visual hv, nodes_intended P ops h.2]
      cases v with
      | fraction x => cases x <;> rfl
      | _ => rfl
  | .table g ls rows, h => fun r st pv next => by
    cases g with
    | equation b =>
      rw [Node.flawless, Bool.and_eq_true, Bool.and_eq_true] at h
      rw [Node.markup, Node.markup, if_neg (show ¬ (intended P).flawed = true by simp [intended]), ← rows_intended P rows h.2]
      split
      · cases rows with
        | last cs =>
          cases cs with
          | last c =>
            cases ls with
            | none => rw [Rows.markup, Cells.markup, Rows.joined, Cells.joined]; rfl
            | some l => cases h.1.1
          | _ => cases h.1.2
        | _ => cases h.1.2
      · rfl
    | _ =>
      rw [Node.flawless] at h
      · rw [Node.markup, Node.markup, rows_intended P rows h] <;> (intro b e; cases e)
      · intro b e; cases e
theorem nodes_intended (P : Printing) : ∀ (ns : Nodes), ns.flawless = true → ∀ rs st pv next, ns.markup P rs st pv next = ns.markup (intended P) rs st pv next
  | .nil, _ => fun rs st pv next => by rw [Nodes.markup, Nodes.markup]
  | .cons n ns, h => fun rs st pv next => by
    rw [Nodes.flawless, Bool.and_eq_true] at h
    rw [Nodes.markup, Nodes.markup, node_intended P n h.1, nodes_intended P ns h.2]
theorem rows_intended (P : Printing) : ∀ (rows : Rows), rows.flawless = true → ∀ g ls, rows.markup P g ls = rows.markup (intended P) g ls
  | .last cs, h => fun g ls => by
    rw [Rows.flawless] at h
    rw [Rows.markup, Rows.markup, cells_intended P cs h]
  | .line cs sp l rest, h => fun g ls => by
    rw [Rows.flawless, Bool.and_eq_true] at h
    rw [Rows.markup, Rows.markup, cells_intended P cs h.1, rows_intended P rest h.2]
    rfl
theorem cells_intended (P : Printing) : ∀ (cs : Cells), cs.flawless = true → ∀ g i t st pv, cs.markup P g i t st pv = cs.markup (intended P) g i t st pv
  | .last b, h => fun g i t st pv => by
    rw [Cells.flawless] at h
    rw [Cells.markup, Cells.markup, nodes_intended P b h]
  | .cell b rest, h => fun g i t st pv => by
    rw [Cells.flawless, Bool.and_eq_true] at h
    rw [Cells.markup, Cells.markup, nodes_intended P b h.1, cells_intended P rest h.2]
end

/-- Without sized delimiters, spaces without width, negated binary operators, line breaks in equations and lines inside cells the document is as it
should be. -/
theorem C53_intended_partial (cfg : RCfg) (doc : Nodes) (h : doc.regular = true) (hf : doc.flawless = true) (target : Str) :
    pushMathml cfg (doc.events.map .ok) target = .ok (target ++ mathDocument (intended (printing cfg)) cfg.xml cfg.annotation doc) := by
  rw [C53_tree_partial cfg doc h]
  unfold mathDocument
  rw [nodes_intended (printing cfg) doc hf]
  rfl

/-- Every well-formed sequence of events is the sequence of a tree. -/
theorem C53_covers (es : List Event) (h : WellFormed es) :
    ∃ doc : Nodes, doc.events = es ∧ doc.regular = true := by
  obtain ⟨k', hd⟩ := doc h.operands.shown h.flows h.begins
  exact tree_of_doc hd

/-- Rendering an error-free parse of a clean input gives the document of its tree. Missing: the inputs excluded by
`Clean`. -/
theorem C53_parsed_partial (cf : Cfg) (cfg : RCfg) (inp : Str) (es : List Event) (hc : Clean inp)
    (h : Yields cf inp (es.map .ok)) (target : Str) : ∃ doc : Nodes, doc.events = es ∧
    pushMathml cfg (es.map .ok) target = .ok (target ++ mathDocument (printing cfg) cfg.xml cfg.annotation doc) := by
  obtain ⟨doc, rfl, h1⟩ := C53_covers es (clean_wellFormed cf inp es hc h)
  exact ⟨doc, rfl, C53_tree_partial cfg doc h1 target⟩

/-! ### Cases -/

/-- A formula with a script, a function, a group in colour, a table with a horizontal line and an extra height. -/
def sample : Nodes :=
  .cons (.script .sup .right (.cons (.content (.function c!"sin")) (.cons (.content (.number c!"2")) .nil)))
  (.cons (.content (.ordinary 'x' false))
  (.cons (.content (.binaryOp '+' false))
  (.cons (.group none [.color (255, 0, 0) .text] (.cons (.content (.ordinary 'y' false)) .nil))
  (.cons (.table (.array [.separator .solid, .column .left, .column .center]) (some [.solid])
    (.line (.cell (.cons (.content (.binaryOp '-' false)) .nil) (.last .nil)) (some ⟨⟨1, 0⟩, .em⟩) [.dashed]
      (.last (.last (.cons (.content (.relation '=' none false)) .nil))))) .nil))))

example : sample.regular = true ∧ pushMathml rc0 (sample.events.map .ok) [] = .ok (mathDocument (printing rc0) false none sample) :=
  ⟨by decide +kernel, C53_tree_partial rc0 sample (by decide +kernel) []⟩

/-- What the specification says about it. -/
example : mathDocument (printing rc0) false none sample = c!"<math display=\"inline\"><msup><mi>sin</mi><mn>2</mn></msup>" ++
    c!"<mo>⁡</mo><mspace width=\"0.1667em\" /><mi>x</mi><mo>+</mo><mrow style=\"color: rgb(255 0 0)\"><mi>y</mi></mrow>" ++
    c!"<mtable class=\"menv-arraylike\"><mtr class=\"menv-hline\"><mtd class=\"menv-left-solid cell-left\"><mi>-</mi></mtd><mtd></mtd></mtr>" ++
    c!"<mtr style=\"height: 1em\"><mtd class=\"menv-left-solid cell-left\"></mtd><mtd></mtd></mtr>" ++
    c!"<mtr class=\"menv-hdashline\"><mtd class=\"menv-left-solid cell-left\"><mo>=</mo></mtd></mtr></mtable></math>" := by
  decide +kernel

/-- The flawed constructs, as they are written. -/
def flawedSample : Nodes :=
  .cons (.content (.delimiter '(' (some .bigg) .open_)) (.cons (.visual .negation (.cons (.content (.binaryOp '+' false)) .nil))
    (.cons (.space none (some ⟨⟨1, 0⟩, .em⟩) none) .nil))

example : flawedSample.regular = true ∧ flawedSample.flawless = false ∧ mathDocument (printing rc0) false none flawedSample =
    c!"<math display=\"inline\"><mo symmetric=\"true\" stretchy=\"true\"minsize=\"2.4em\" maxsize=\"2.4em\">(</mo>" ++
    c!"<mi>+̸</mi> height=\"1em\" /></math>" := by
  decide +kernel

example : sample.flawless = true ∧ pushMathml rc0 (sample.events.map .ok) [] = .ok (mathDocument (intended (printing rc0)) false none sample) :=
  ⟨by decide +kernel, C53_intended_partial rc0 sample (by decide +kernel) (by decide +kernel) []⟩

/-- A clean input whose events are covered. -/
example : ∃ es : List Event, Yields cf0 c!"\\begin{cases}\\frac{a}{b}&\\sqrt{\\sin x}\\end{cases}" (es.map .ok) ∧ es.length > 8 ∧
    ∃ doc : Nodes, doc.events = es ∧
    pushMathml rc0 (es.map .ok) [] = .ok (mathDocument (printing rc0) rc0.xml rc0.annotation doc) := by
  have h : Yields cf0 c!"\\begin{cases}\\frac{a}{b}&\\sqrt{\\sin x}\\end{cases}"
      ((events (run cf0 60 (State.init c!"\\begin{cases}\\frac{a}{b}&\\sqrt{\\sin x}\\end{cases}")).1).map .ok) :=
    ⟨60, by decide +kernel⟩
  exact ⟨_, h, by decide +kernel, C53_parsed_partial cf0 rc0 _ _ (tableB_clean (by decide +kernel)) h []⟩

/-- An equation with a line break, and a `dcases` environment whose first line is lost: both are covered. -/
def lossy : Nodes :=
  .cons (.table (.equation false) none (.line (.last (.cons (.content (.ordinary 'a' false)) .nil)) none []
    (.last (.lost .nil [.dashed] (.last (.cons (.content (.binaryOp '+' false)) (.cons (.content (.ordinary 'b' false)) .nil)))))))
  (.cons (.table (.cases true) none (.last (.lost (.cons (.change (.style .display)) .nil) [.solid] (.cell (.cons (.content (.ordinary 'c' false)) .nil)
    (.last (.cons (.content (.ordinary 'd' false)) .nil)))))) .nil)

example : lossy.regular = true ∧ lossy.flawless = false ∧
    pushMathml rc0 (lossy.events.map .ok) [] = .ok (mathDocument (printing rc0) false none lossy) ∧
    mathDocument (printing rc0) false none lossy = c!"<math display=\"inline\"><mtable><mtr><mtd><mi>a</mi><mi>+</mi><mi>b</mi></mtd></mtr></mtable>" ++
      c!"<mrow><mo stretchy=\"true\">{</mo><mtable class=\"menv-cells-left menv-cases\"><mtr><mtd><mi displaystyle=\"true\" scriptlevel=\"0\">c</mi></mtd>" ++
      c!"<mtd><mi>d</mi></mtd></mtr></mtable></mrow></math>" :=
  ⟨by decide +kernel, by decide +kernel, C53_tree_partial rc0 lossy (by decide +kernel) [], by decide +kernel⟩

/-! ### What is rendered differently -/

/-- A delimiter with a size: there is no space between two attributes. -/
theorem C53_false_sized : let doc := Nodes.cons (.content (.delimiter '(' (some .big) .open_)) .nil
    pushMathml rc0 (doc.events.map .ok) [] ≠ .ok (mathDocument (intended (printing rc0)) false none doc) ∧
    pushMathml rc0 (doc.events.map .ok) [] =
      .ok c!"<math display=\"inline\"><mo symmetric=\"true\" stretchy=\"true\"minsize=\"1.2em\" maxsize=\"1.2em\">(</mo></math>" := by
  decide +kernel

/-- A space without width: there is no tag. -/
theorem C53_false_space : let doc := Nodes.cons (.space none (some ⟨⟨1, 0⟩, .em⟩) none) .nil
    pushMathml rc0 (doc.events.map .ok) [] ≠ .ok (mathDocument (intended (printing rc0)) false none doc) ∧
    pushMathml rc0 (doc.events.map .ok) [] = .ok c!"<math display=\"inline\"> height=\"1em\" /></math>" := by
  decide +kernel

/-- A negated binary operator: the operator itself is taken for what comes next. -/
theorem C53_false_negated : let doc := Nodes.cons (.content (.ordinary 'a' false)) (.cons (.visual .negation
      (.cons (.content (.binaryOp '+' false)) .nil)) .nil);
    pushMathml rc0 (doc.events.map .ok) [] ≠ .ok (mathDocument (intended (printing rc0)) false none doc) := by
  decide +kernel

/-- A line break in an equation has no effect. -/
theorem C53_false_equation : let doc := Nodes.cons (.table (.equation false) none
      (.line (.last (.cons (.content (.ordinary 'a' false)) .nil)) none [] (.last (.last (.cons (.content (.ordinary 'b' false)) .nil))))) .nil
    pushMathml rc0 (doc.events.map .ok) [] ≠ .ok (mathDocument (intended (printing rc0)) false none doc) ∧
    pushMathml rc0 (doc.events.map .ok) [] =
      .ok c!"<math display=\"inline\"><mtable><mtr><mtd><mi>a</mi><mi>b</mi></mtd></mtr></mtable></math>" := by
  decide +kernel

/-- The horizontal line at the start of a `dcases` environment is lost, because a change of style precedes it. -/
theorem C53_false_lines : let es : List Event := [.begin_ (.cases true), .stateChange (.style .display), .flow (.startLines [.solid]),
      .content (.ordinary 'a' false), .end_]
    Yields cf0 c!"\\begin{dcases}\\hline a\\end{dcases}" (es.map .ok) ∧
    pushMathml rc0 (es.map .ok) [] = .ok (c!"<math display=\"inline\"><mrow><mo stretchy=\"true\">{</mo>" ++
      c!"<mtable class=\"menv-cells-left menv-cases\"><mtr><mtd><mi displaystyle=\"true\" scriptlevel=\"0\">a</mi></mtd></mtr></mtable></mrow></math>") := by
  refine ⟨⟨100, by decide +kernel⟩, by decide +kernel⟩

end PL.Props
