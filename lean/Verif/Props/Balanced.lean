import Verif.Lemmas.Render.Sim
import Verif.Props.Output
import Verif.Props.Stream
set_option autoImplicit false
/-!
# The rendered markup of well-formed streams (C28, C30, C31)
-/
namespace PL.Props
open PL PL.Mathml Spec

theorem wl_empty {cfg : RCfg} {Q : PUnit → RSt → Prop} {s : RSt} (h : s.peeked ++ s.rest = []) (hQ : Q ⟨⟩ s) : WL cfg Q s := by
  intro n hn
  cases n with
  | zero => omega
  | succ n =>
    obtain ⟨h1, h2⟩ := List.append_eq_nil_iff.1 h
    refine ⟨⟨⟩, s, ?_, hQ⟩
    rw [mainLoop, run_bind]
    have : next s = .ok none s := by simp only [next, h1, h2]
    rw [this]; rfl

theorem inner_doc {cfg : RCfg} {d : Bool} {es : List Event} {k' : Nat} (hd : Doc d (.body none 0 k') es) :
    wp (inner cfg) (fun _ s' => Safe cfg es → ∃ k, El d k s'.out) (core (initSt (es.map .ok) [] none)) := by
  have h := ((sim _ es rfl).2.2 _ _ _ hd) (WL cfg fun _ s' => DoneBody cfg d none k' es [] [] [] [] s') [] [] [] (es.map .ok) [] []
    {} [] none false rfl (by simp) (fun s' h => wl_empty h.items h) (([] : List RItem).length + (es.map RItem.ok).length + 1) (by simp [qlen])
  unfold inner
  rw [wp_bind, wp_get, wp_bind]
  refine wp_mono h ?_
  rintro _ ⟨p1, r1, o1, b1, env1, sts1, pv1, rc1⟩ ⟨h3, h4, ⟨st, h5⟩, h6, t, h7, h8⟩
  cases h6
  dsimp only at h4 h5 h7
  subst h4 h5 h7
  rw [wp_bind, wp_get]
  cases rc1 with
  | false =>
    simp only [Bool.false_eq_true, if_false, wp_bind, wp_get]
    exact (wp_pure _ _ _).2 h8
  | true =>
    simp only [if_true, wp_bind, wp_get, cleanup, wp_modify]
    exact (wp_pure _ _ _).2 h8

/-- The whole output. -/
theorem push_doc (cfg : RCfg) {d : Bool} {es : List Event} {k' : Nat} (hd : Doc d (.body none 0 k') es) (target : Str) :
    ∃ body, pushMathml cfg (es.map .ok) target = .ok (target ++ (frameStart cfg ++ body ++ frameEnd cfg)) ∧
      (Safe cfg es → ∃ k, El d k body) := by
  obtain ⟨a, s', h1, h2⟩ := inner_doc (cfg := cfg) hd
  refine ⟨s'.out, ?_, h2⟩
  have e : core (initSt (es.map .ok) target none) = core (initSt (es.map .ok) [] none) := rfl
  rw [pushMathml, render, write_none cfg (initSt (es.map .ok) target none) rfl, e, h1]
  simp [initSt]

/-- No `<` in the annotation, and none in the display of numbers. -/
structure SafeCfg (cfg : RCfg) : Prop where
  annotation : ∀ a, cfg.annotation = some a → '<' ∉ a
  numbers : ∀ n, '<' ∉ cfg.fmt n ∧ '"' ∉ cfg.fmt n

theorem frame_tags {cfg : RCfg} (hc : SafeCfg cfg) {d : Bool} {k : Nat} {body : Str} (h : El d k body) :
    Tags d [] (frameStart cfg ++ body ++ frameEnd cfg) [] := by
  refine Sc.tags ?_
  cases hx : cfg.annotation with
  | none =>
    have h1 : Sc d .text [] (frameStart cfg) .text [(c!"math", 0)] := by
      unfold frameStart
      rw [hx]
      cases cfg.block <;> cases cfg.xml <;> rfl
    have h2 : Sc d .text (addN k [(c!"math", 0)]) (frameEnd cfg) .text [] := by
      unfold frameEnd
      rw [hx, addN_cons]
      rfl
    exact (h1.append (h _)).append h2
  | some a =>
    have h1 : Sc d .text [] (frameStart cfg) .text [(c!"mrow", 0), (c!"semantics", 0), (c!"math", 0)] := by
      unfold frameStart
      rw [hx]
      cases cfg.block <;> cases cfg.xml <;> rfl
    have h2 : Sc d .text (addN k [(c!"mrow", 0), (c!"semantics", 0), (c!"math", 0)]) (frameEnd cfg) .text [] := by
      unfold frameEnd
      rw [hx, addN_cons]
      have e1 : Sc d .text [(c!"mrow", 0 + k), (c!"semantics", 0), (c!"math", 0)]
        c!"</mrow><annotation encoding=\"application/x-tex\">" .text [(c!"annotation", 0), (c!"semantics", 1), (c!"math", 0)] := rfl
      have e2 := Sc.plain (d := d) (S := [(c!"annotation", 0), (c!"semantics", 1), (c!"math", 0)]) (hc.annotation a hx)
      have e3 : Sc d .text [(c!"annotation", 0), (c!"semantics", 1), (c!"math", 0)] c!"</annotation></semantics>" .text [(c!"math", 1)] := rfl
      have e4 : Sc d .text [(c!"math", 1)] c!"</math>" .text [] := rfl
      exact ((e1.append e2).append e3).append e4
    exact (h1.append (h _)).append h2

/-- A stream of events in which groups are balanced, operands are complete, alignments and line breaks are where they
are allowed, and every array has a column. -/
structure WellFormed (es : List Event) : Prop where
  operands : WF .body es
  flows : FlowsAllowed false es
  arrays : ∀ cols, .begin_ (.array cols) ∈ es → ∃ c ∈ cols, isColumn c = true

theorem WellFormed.begins {es : List Event} (h : WellFormed es) : ∀ g, .begin_ g ∈ es → beginOk g = true := by
  intro g hg
  cases g with
  | array cols => simpa [beginOk] using h.arrays cols hg
  | _ => rfl

/-! ## C28: rendering does not panic -/

/-- Rendering a well-formed stream does not panic. -/
theorem C28_events (cfg : RCfg) (es : List Event) (h : WellFormed es) (target : Str) :
    ∃ text, pushMathml cfg (es.map .ok) target = .ok text := by
  obtain ⟨k', hd⟩ := doc h.operands.shown h.flows h.begins
  obtain ⟨body, h1, -⟩ := push_doc cfg hd target
  exact ⟨_, h1⟩

/-- The streams that the parser produces without error from clean inputs are well-formed. -/
theorem clean_wellFormed (cf : Cfg) (inp : Str) (es : List Event) (hc : Clean inp) (h : Yields cf inp (es.map .ok)) :
    WellFormed es := by
  refine ⟨C04_operands_partial cf inp es hc h, ?_, fun cols hm => ?_⟩
  · obtain ⟨n, hn⟩ := h
    exact C10_flows_clean_partial cf inp n es [] hc (by rw [hn, List.append_nil])
  · obtain ⟨n, hn⟩ := h
    exact C11_array_column cf inp n cols (by rw [hn]; exact List.mem_map_of_mem hm)

/-- Rendering an error-free parse of a clean input does not panic. Missing: the inputs excluded by `Clean`, among them
some that do panic, see `C28_false`. -/
theorem C28_clean_partial (cf : Cfg) (cfg : RCfg) (inp : Str) (es : List Event) (hc : Clean inp)
    (h : Yields cf inp (es.map .ok)) (target : Str) : ∃ text, pushMathml cfg (es.map .ok) target = .ok text :=
  C28_events cfg es (clean_wellFormed cf inp es hc h) target

/-- Texts without `^`, `_`, `[`, font commands and the excluded commands are clean. -/
def tableB (s : Str) : Bool :=
  !s.contains '^' && !s.contains '_' && !s.contains '[' && (definingCommands ++ [c!"\\relax", c!"\\pmod", c!"\\buildrel"]).all
    (fun w => !w.isInfixOf_internal s) && fontCommands.all fun n => !('\\' :: n).isInfixOf_internal s

theorem tableB_clean {s : Str} (h : tableB s = true) : Clean s := by
  simp only [tableB, Bool.and_eq_true, Bool.not_eq_true', List.all_eq_true, List.mem_append] at h
  obtain ⟨⟨⟨⟨h0, h1⟩, h2⟩, h3⟩, h4⟩ := h
  have hw : ∀ w, (w ∈ definingCommands ∨ w ∈ [c!"\\relax", c!"\\pmod", c!"\\buildrel"]) → ¬ w <:+: s := by
    intro w hw hi
    have := h3 w hw
    rw [List.isInfixOf_internal_iff_isInfix.2 hi] at this
    cases this
  have hmem : ∀ (c : Char) (t : Str), s.contains c = false → c ∈ t → ¬ t <:+: s := by
    intro c t hc ht hi
    have := hi.subset ht
    simp [this] at hc
  have hs : ∀ (c : Char) (t : Str), c = '^' ∨ c = '_' → c ∈ t → ¬ t <:+: s := by
    rintro c t (rfl | rfl) ht
    · exact hmem _ t h0 ht
    · exact hmem _ t h1 ht
  exact {
    macros := fun w h => hw w (.inl h)
    relax := hw _ (.inr (by simp))
    pmod := hw _ (.inr (by simp))
    buildrel := hw _ (.inr (by simp))
    root := fun w _ => hmem '[' _ h2 (by simp)
    alignment := fun w c _ hc => hs c _ hc (by simp)
    lineBreak := fun b m c _ _ hc => hs c _ hc (by simp)
    font := by
      intro n hn k b _ _ hi
      have h' : ('\\' :: n) <:+: s := List.IsInfix.trans ⟨[], k ++ b, by simp⟩ hi
      have := h4 n hn
      rw [List.isInfixOf_internal_iff_isInfix.2 h'] at this
      cases this }

/-- A case of it: an array with two columns and two lines. -/
example : Clean c!"\\begin{array}{c|c} a & b \\\\ \\hline \\frac12 & c \\end{array}" ∧ ∃ es : List Event,
    Yields cf0 c!"\\begin{array}{c|c} a & b \\\\ \\hline \\frac12 & c \\end{array}" (es.map .ok) ∧ es.length = 11 :=
  ⟨tableB_clean (by decide +kernel),
    events (run cf0 60 (State.init c!"\\begin{array}{c|c} a & b \\\\ \\hline \\frac12 & c \\end{array}")).1,
    ⟨60, by decide +kernel⟩, by decide +kernel⟩

/-- Not for all inputs: a script without base takes the line break as an operand, so that the cells of the next line
are counted with those of this line. -/
theorem C28_false : ∃ es : List Event, Yields cf0 c!"\\begin{array}{cc} a & \\relax^2 \\\\ b & c \\end{array}" (es.map .ok) ∧
    pushMathml rc0 (es.map .ok) [] = .panic .index := by
  refine ⟨events (run cf0 60 (State.init c!"\\begin{array}{cc} a & \\relax^2 \\\\ b & c \\end{array}")).1, ⟨60, by decide +kernel⟩, by decide +kernel⟩

/-! ## C30: balanced tags -/

/-- The output for a well-formed stream is balanced, if nothing that is written without escape contains `<`. Missing:
other streams, for which it fails, see `C30_false`. -/
theorem C30_balanced_partial (cfg : RCfg) (hc : SafeCfg cfg) (es : List Event) (h : WellFormed es) (hs : ∀ e ∈ es, SafeEvent e) (target : Str) :
    ∃ text, pushMathml cfg (es.map .ok) target = .ok (target ++ text) ∧ Tags false [] text [] ∧ c!"<math " <+: text ∧ c!"</math>" <:+ text := by
  obtain ⟨k', hd⟩ := doc h.operands.shown h.flows h.begins
  obtain ⟨body, h1, h2⟩ := push_doc cfg hd target
  obtain ⟨k, hk⟩ := h2 ⟨hc.numbers, hs⟩
  refine ⟨_, h1, frame_tags hc hk, ?_, ?_⟩
  · exact ⟨_, by rw [List.append_assoc]; unfold frameStart; simp only [List.append_assoc]; rfl⟩
  · exact ((C39_math cfg).2).trans (List.suffix_append _ _)

/-- A case of it. -/
example : WellFormed [.visual (.fraction none), .content (.function c!"sin"), .content (.text c!"<b>")] ∧
    ∀ e ∈ [Event.visual (.fraction none), .content (.function c!"sin"), .content (.text c!"<b>")], SafeEvent e := by
  refine ⟨clean_wellFormed cf0 c!"\\frac\\sin\\text{<b>}" _ (plainB_clean (by decide +kernel)) ⟨60, by decide +kernel⟩, by decide⟩

/-- Not for all events: a relation is written without escape. -/
theorem C30_false : ∃ es, Yields cf0 c!"a<b" (es.map .ok) ∧ WellFormed es ∧
    ∃ text, pushMathml rc0 (es.map .ok) [] = .ok text ∧ ¬ Tags false [] text [] := by
  have h : Yields cf0 c!"a<b" ([.content (.ordinary 'a' false), .content (.relation '<' none false), .content (.ordinary 'b' false)].map .ok) :=
    ⟨60, by decide +kernel⟩
  exact ⟨_, h, clean_wellFormed cf0 _ _ (plainB_clean (by decide +kernel)) h,
    c!"<math display=\"inline\"><mi>a</mi><mo><</mo><mi>b</mi></math>", by decide +kernel, not_tags (by decide +kernel)⟩

/-! ## C31: number of operands -/

/-- If, moreover, no operand is a function name, a state change or a space without width, then every element with a
prescribed number of children has that number. -/
theorem C31_children_partial (cfg : RCfg) (hc : SafeCfg cfg) (es : List Event) (h : WellFormed es) (hv : Shown true .body es)
    (hs : ∀ e ∈ es, SafeEvent e) (target : Str) :
    ∃ text, pushMathml cfg (es.map .ok) target = .ok (target ++ text) ∧ Tags true [] text [] := by
  obtain ⟨k', hd⟩ := doc hv h.flows h.begins
  obtain ⟨body, h1, h2⟩ := push_doc cfg hd target
  obtain ⟨k, hk⟩ := h2 ⟨hc.numbers, hs⟩
  exact ⟨_, h1, frame_tags hc hk⟩

/-- A case of it. -/
example : Shown true .body [.visual (.fraction none), .begin_ .normal, .content (.function c!"sin"), .end_, .content (.number c!"2")] :=
  .element (a := [_, _, _, _, _]) (b := []) (.visual (.cons (a := [_, _, _]) (b := [_])
    (.group (b := [_]) (.element (a := [_]) (b := []) (.simple trivial) .empty)) (fun _ => trivial)
    (.cons (a := [_]) (b := []) (.simple trivial) (fun _ => trivial) .nil))) .empty

/-- Inputs and what is rendered. -/
def notCounted : List (Str × Str) := [
  (c!"\\frac\\sin x", c!"<math display=\"inline\"><mfrac><mi>sin</mi><mo>⁡</mo><mspace width=\"0.1667em\" /><mi>x</mi></mfrac></math>"),
  (c!"a\\sin^2", c!"<math display=\"inline\"><mi>a</mi><msup><mspace width=\"0.1667em\" /><mi>sin</mi><mn>2</mn></msup></math>"),
  (c!"\\frac\\bf x", c!"<math display=\"inline\"><mfrac><mi>𝐱</mi></mfrac></math>")]

/-- Not for all inputs: a function name comes with space and an operator, a switch of the font with nothing. -/
theorem C31_false : ∀ x ∈ notCounted, ∃ es : List Event, Yields cf0 x.1 (es.map .ok) ∧ WellFormed es ∧
    pushMathml rc0 (es.map .ok) [] = .ok x.2 ∧ Tags false [] x.2 [] ∧ ¬ Tags true [] x.2 [] := by
  have key : notCounted.all (fun x => decide (run cf0 60 (State.init x.1) = ((events (run cf0 60 (State.init x.1)).1).map .ok, .done)) &&
      plainB x.1 && decide (pushMathml rc0 ((events (run cf0 60 (State.init x.1)).1).map .ok) [] = .ok x.2) &&
      decide (scan false .text [] x.2 = some (.text, [])) && decide (scan true .text [] x.2 ≠ some (.text, []))) = true := by
    decide +kernel
  intro x hx
  have := List.all_eq_true.1 key x hx
  simp only [Bool.and_eq_true, decide_eq_true_eq] at this
  obtain ⟨⟨⟨⟨h1, h2⟩, h3⟩, h4⟩, h5⟩ := this
  exact ⟨_, ⟨60, h1⟩, clean_wellFormed cf0 _ _ (plainB_clean h2) ⟨60, h1⟩, h3, Sc.tags h4, not_tags h5⟩

end PL.Props
