import Verif.Lemmas.Formula.Reading
import Verif.Props.Xml
import Verif.Props.Complete
import Verif.Props.Meaning
set_option autoImplicit false
/-!
# Texts of the grammar, with macros (C04, C10, C28, C30)

The theorems on clean inputs exclude definitions. Here the input is a text of the grammar of Spec/Formula.lean, in which macros are defined and called.
-/
namespace PL.Props
open PL PL.Lex PL.Mathml Spec
open PL.Spec.Xml (htmlEntities plainEvent)

/-- What comes before the first error is the start of what the tree stands for. -/
theorem grammar_prefix (cf : Cfg) (inp : Str) (ns : Nodes) (n : Nat) (es : List Event) (rest : List Item) (h : Document Known.none inp ns)
    (hr : (run cf n (State.init inp)).1 = es.map .ok ++ rest) : es <+: ns.events := by
  have inj : ∀ {a b : List Event}, a.map Item.ok <+: b.map Item.ok → a <+: b := by
    intro a
    induction a with
    | nil => intro b _; exact List.nil_prefix
    | cons x a ih =>
      intro b hp
      cases b with
      | nil => simp at hp
      | cons y b =>
        simp only [List.map_cons, List.cons_prefix_cons, Item.ok.injEq] at hp ⊢
        exact ⟨hp.1, ih hp.2⟩
  have h0 : es.map Item.ok <+: (run cf n (State.init inp)).1 := ⟨rest, hr.symm⟩
  rcases C56_meaning_partial cf inp ns h with ⟨m, hm⟩ | ⟨m, fs, ctx, hf, hm⟩
  · exact inj (h0.trans (run_prefix hm))
  · have h1 : es.map Item.ok <+: (run cf (n + m) (State.init inp)).1 := h0.trans (run_more n m _)
    have h2 : fs.map Item.ok ++ [.err .macroRecursionLimit ctx] <+: (run cf (n + m) (State.init inp)).1 := by
      rw [← hm, Nat.add_comm]
      exact run_more m n _
    rcases Nat.le_total es.length fs.length with hl | hl
    · exact (inj (List.prefix_of_prefix_length_le h1 ((List.prefix_append _ _).trans h2) (by simpa using hl))).trans hf
    · rcases Nat.lt_or_ge fs.length es.length with hl' | hl'
      · have h3 := List.prefix_of_prefix_length_le h2 h1 (by simp; omega)
        have : Item.err .macroRecursionLimit ctx ∈ es.map Item.ok := h3.subset (by simp)
        simp at this
      · exact (inj (List.prefix_of_prefix_length_le h1 ((List.prefix_append _ _).trans h2) (by simp; omega))).trans hf

/-! ## C10: alignments and line breaks -/

/-- Alignments and line breaks stand directly in an environment that allows them, with at most the allowed number of alignments in a line. Missing: the
texts that the grammar does not read. -/
theorem C10_grammar_partial (cf : Cfg) (inp : Str) (ns : Nodes) (n : Nat) (es : List Event) (rest : List Item) (h : Document Known.none inp ns)
    (hr : (run cf n (State.init inp)).1 = es.map .ok ++ rest) : FlowsAllowed false es := by
  obtain ⟨post, hp⟩ := grammar_prefix cf inp ns n es rest h hr
  have h1 := Nodes.chk ns h.sound []
  rw [← hp, chk_append] at h1
  exact chk_flows fun hn => by simp [hn] at h1

/-! ## C04: operands -/

/-- If scripts and visuals have their operands in the tree, then they have their operands in the events. Missing: the texts that the grammar does not
read, and the trees with another number of operands (`\relax` with a script, `\pmod` as an operand, an index of a root with several elements), for
which it is false, see `C04_false`. -/
theorem C04_grammar_partial (cf : Cfg) (inp : Str) (ns : Nodes) (es : List Event) (h : Document Known.none inp ns) (hc : ns.complete = true)
    (hy : Yields cf inp (es.map .ok)) : WF .body es := by
  rw [C56_agrees_partial cf inp ns es h hy]
  exact Nodes.wf ns hc

theorem grammar_wellFormed (cf : Cfg) (inp : Str) (ns : Nodes) (es : List Event) (h : Document Known.none inp ns) (hc : ns.complete = true)
    (hy : Yields cf inp (es.map .ok)) : WellFormed es := by
  refine ⟨C04_grammar_partial cf inp ns es h hc hy, ?_, ?_⟩
  · obtain ⟨n, hn⟩ := hy
    exact C10_grammar_partial cf inp ns n es [] h (by rw [hn, List.append_nil])
  · rw [C56_agrees_partial cf inp ns es h hy]
    exact Nodes.columns ns h.sound

/-! ## C28, C30: rendering -/

/-- Rendering does not panic. Missing: as for `C04_grammar_partial`; see `C28_false`. -/
theorem C28_grammar_partial (cf : Cfg) (cfg : RCfg) (inp : Str) (ns : Nodes) (es : List Event) (h : Document Known.none inp ns) (hc : ns.complete = true)
    (hy : Yields cf inp (es.map .ok)) (target : Str) : ∃ text, pushMathml cfg (es.map .ok) target = .ok text :=
  C28_events cfg es (grammar_wellFormed cf inp ns es h hc hy) target

/-- The rendering is balanced, if nothing that is written without escape contains `<`. Missing: as for `C04_grammar_partial`, and the events that
`SafeEvent` excludes, see `C30_false`. -/
theorem C30_grammar_partial (cf : Cfg) (cfg : RCfg) (hs : SafeCfg cfg) (inp : Str) (ns : Nodes) (es : List Event) (h : Document Known.none inp ns)
    (hc : ns.complete = true) (hy : Yields cf inp (es.map .ok)) (he : ∀ e ∈ es, SafeEvent e) (target : Str) :
    ∃ text, pushMathml cfg (es.map .ok) target = .ok (target ++ text) ∧ Tags false [] text [] ∧ c!"<math " <+: text ∧ c!"</math>" <:+ text :=
  C30_balanced_partial cfg hs es (grammar_wellFormed cf inp ns es h hc hy) he target

/-- The rendering is well-formed XML. Missing: as for `C65_partial`, and the texts that the grammar does not read. -/
theorem C65_grammar_partial (E : List Str) (cf : Cfg) (cfg : RCfg) (hc : XmlCfg E cfg) (hE : ∀ n ∈ [c!"amp", c!"lt", c!"gt"], n ∈ E) (inp : Str) (ns : Nodes)
    (es : List Event) (h : Document Known.none inp ns) (hr : ns.complete = true) (hy : Yields cf inp (es.map .ok))
    (hp : ∀ e ∈ es, plainEvent E e = true) (target : Str) :
    ∃ out, pushMathml cfg (es.map .ok) target = .ok (target ++ out) ∧ Xml.Document E out :=
  C65_partial E cfg hc hE es (grammar_wellFormed cf inp ns es h hr hy) hp target

/-! ### Cases -/

/-- A call of a macro with an argument. -/
example : Document Known.none c!"\\def\\a#1{#1^2}\\a y" (.one (.script .sup .right (.two (.content (.ordinary 'y' false)) (.content (.number c!"2"))))) ∧
    (Nodes.one (.script .sup .right (.two (.content (.ordinary 'y' false)) (.content (.number c!"2"))))).complete = true ∧
    Yields cf0 c!"\\def\\a#1{#1^2}\\a y" ([.script .sup .right, .content (.ordinary 'y' false), .content (.number c!"2")].map .ok) ∧
    (∀ e ∈ [.script .sup .right, .content (.ordinary 'y' false), .content (.number c!"2")], SafeEvent e ∧ plainEvent htmlEntities e = true) := by
  exact ⟨square_document, rfl, ⟨60, by decide +kernel⟩, by decide +kernel⟩

/-- A table. -/
example : ∃ ns, Document Known.none c!"\\begin{array}{c|r}a&b\\\\[1em]\\hline c&d\\end{array}" ns :=
  array_formula.imp fun _ => .formula

/-- `\relax^2` is a text of the grammar: its script has no base. -/
example : Document Known.none c!"\\relax^2" (.one (.script .sup .right (.one (.content (.number c!"2"))))) ∧
    (Nodes.one (.script .sup .right (.one (.content (.number c!"2"))))).complete = false := by
  refine ⟨.formula (.whole (.script (ns := .nil) (ks := .one _) (x := .cs c!"relax") (t := c!"^2") (r := c!"^2") (pl := {}) (vs := []) (w := []) (v := c!"2") (v' := [])
    (c := '^') (pl' := {}) (nextTok_cs (by decide +kernel)) (fun n h => rfl) (.relax (by decide +kernel)) rfl .no (by simp [Spaces]) (.inl rfl)
    (.tokenArg (x := .chr '2') (t := []) ⟨nextTok_chr (by decide +kernel), noBrace (by decide)⟩ (fun n h => rfl) (.digit (by decide)))
    (noScriptHere (by decide)) .nil) (.blank .nil)), by decide⟩

end PL.Props
