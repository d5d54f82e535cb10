import Verif.Lemmas.Formula.Joint
import Verif.Props.Global
import Verif.Props.Complete
set_option autoImplicit false
/-!
# C74: one text after the other

The events of a text that is followed by another one are those of the first text and then those of the second one, when nothing at the end of the first text
goes on in the second one.
-/
namespace PL.Props
open PL PL.Lex Spec PL.Formula

variable {cf : Cfg}

theorem expansion_none {s : PSt} (h : s.h.macros = []) : expansion cf s = none := by
  unfold expansion
  rw [h]
  cases token s.h.content.cs with
  | ok t r => cases t <;> rfl
  | err => rfl
  | panic => rfl

theorem pending_plain {s s' : State} (h : Pending cf s' s) (hm : s.macros = []) : s' = s := by
  induction h with
  | same => rfl
  | @expand c A B M sp p _ he _ =>
    obtain rfl : M = [] := hm
    rw [expansion_none rfl] at he
    cases he

/-- As long as no macro is defined, nothing is expanded. -/
theorem exec_bare {s s' : State} {its : List Item} (h : Exec cf s its s') (hn : NoErr its) (hm : s'.macros = []) : s'.sp = s.sp := by
  have key : ∀ {s1 s2 : State}, (step cf s1 = .again s2 ∨ ∃ e, step cf s1 = .item (.ok e) s2) → s2.macros = [] → s1.macros = [] ∧ s2.sp = s1.sp := by
    intro s1 s2 hst hm
    have h1 : s1.macros = [] := by
      have hg := step_grows hst
      rw [hm] at hg
      cases h0 : s1.macros with
      | nil => rfl
      | cons x l =>
        rw [h0] at hg
        exact absurd rfl (hg x.1 (by simp [Macros.Ctx.get, List.lookup]))
    refine ⟨h1, ?_⟩
    unfold step at hst
    cases hs : s1.stack with
    | nil => rw [hs] at hst; rcases hst with h | ⟨e, h⟩ <;> cases h
    | cons x rest =>
      rw [hs] at hst
      cases x with
      | ev e =>
        rcases hst with h | ⟨e, h⟩
        · cases h
        · injection h with _ h; rw [← h]
      | sub c A =>
        dsimp only at hst
        split at hst
        · rcases hst with h | ⟨e, h⟩
          · injection h with h; rw [← h]
          · cases h
        · rw [parse_eq (s := startSt s1 c A) h1] at hst
          cases hp : parseH cf (startSt s1 c A).h with
          | panic p => rw [hp] at hst; rcases hst with h | ⟨e, h⟩ <;> cases h
          | err e h =>
            rw [hp] at hst
            dsimp only at hst
            split at hst <;> rcases hst with h | ⟨e, h⟩ <;> cases h
          | ok d h =>
            rw [hp] at hst
            dsimp only at hst
            split at hst
            · rcases hst with h | ⟨e, h⟩ <;> cases h
            · rcases hst with h | ⟨e, h⟩
              · injection h with h; rw [← h]; rfl
              · cases h
  induction h with
  | init => rfl
  | @item its s1 i s2 _ hst ih =>
    obtain ⟨e, rfl⟩ := hn i (by simp)
    obtain ⟨h1, h2⟩ := key (.inr ⟨e, hst⟩) hm
    rw [h2]
    exact ih (fun j hj => hn j (by simp [hj])) h1
  | @again its s1 s2 _ hst ih =>
    obtain ⟨h1, h2⟩ := key (.inl hst) hm
    rw [h2]
    exact ih hn h1

/-- After the events of the first text the parser is at the second one. -/
theorem exec_first {t u : Str} {ns : Nodes} (hf : Formula t ns) (hc : Closed t) (hm : Meets t u) :
    ∃ c, Exec cf (State.init (t ++ u)) (ns.events.map .ok) ⟨[.sub c none], [], [], Spans.init (t ++ u)⟩ ∧ trimStart c.cs = trimStart u ∧ c.src = 0 := by
  obtain ⟨w, hw, h⟩ := formula_onward hc hm hf
  rcases sound (cf := cf) stores_none h ⟨0, blen (t ++ u), t ++ u⟩ none [] (.init (t ++ u)) rfl with ⟨_, h1, c, sp, hc1, rfl⟩ | ⟨h1, -⟩
  · obtain ⟨s1, h3, h4⟩ := h1.exec
    have := pending_plain h4 rfl
    subst this
    have hsp := exec_bare h3 (noErr_ok _) rfl
    dsimp only at hsp
    subst hsp
    exact ⟨c, h3, by rw [hc1, trimStart_ws_append hw], src_zero h3 (noErr_ok _)⟩
  · exact absurd rfl h1

theorem start_self {t u : Str} (hm : Meets t u) : trimStart u = u := trimStart_eq_self fun c v h => (hm.first c v h).1

theorem nil_noErr : NoErr [] := fun _ h => by cases h

/-- The events of two texts, the second of which may make definitions. -/
theorem concat_of {t u : Str} {ns : Nodes} (ho : cf.overflowChecks = true) (hf : Formula t ns) (hc : Closed t) (hm : Meets t u) (hl : Stacked cf u) (hl' : Stacked cf (t ++ u))
    {its : List Item} (hn : NoErr its) : Yields cf u its ↔ Yields cf (t ++ u) (ns.events.map .ok ++ its) := by
  obtain ⟨c, h1, h2, h3⟩ := exec_first (cf := cf) hf hc hm
  have hS := serves_of (cf := cf) ho stores_none stores_none (covers_refl _)
  constructor
  · rintro ⟨n, hy⟩
    obtain ⟨t', h8, h9⟩ := resume hl hl' .init nil_noErr h1 (noErr_ok _) rfl rfl rfl rfl hS ⟨rfl, rfl, rfl⟩ h3 h2 hy hn
    exact exec_yields (h1.trans h8) h9
  · rintro ⟨n, hy⟩
    obtain ⟨k, r, hk, hr⟩ := run_rest h1 hy
    have hr : its = r := by simpa using hr
    subst hr
    obtain ⟨t', h8, h9⟩ := resume hl' hl h1 (noErr_ok _) .init nil_noErr rfl rfl rfl rfl hS ⟨rfl, rfl, rfl⟩ h3.symm h2.symm hk hn
    exact exec_yields h8 h9

/-- A state without the white space before its text. -/
theorem _root_.PL.Base.trim {inp : Str} {c : Sl} {A : Option AlignCount} {D : Macros.Ctx} {sp : Spans} (h : Base inp ⟨[.sub c A], [], D, sp⟩) :
    Base inp ⟨[.sub { c with cs := trimStart c.cs } A], [], D, sp⟩ := by
  have hsub : Sub { c with cs := trimStart c.cs } c := (Sub.refl c).suffix (trimStart_suffix _)
  refine ⟨h.input, h.calls, h.depth, ?_, ?_, h.macs, fun hn => ⟨(h.nodef hn).1, (h.nodef hn).2.1, ?_⟩⟩
  · intro x B hx
    simp at hx
    rw [hx.1]
    exact hsub.wf (h.wf c A (by simp))
  · intro x B hx
    simp at hx
    rw [hx.1]
    intro d hd hw
    exact h.asc c A (by simp) d ((trimStart_suffix _).subset hd) hw
  · intro x B hx
    simp at hx
    rw [hx.1]
    exact hsub.trans ((h.nodef hn).2.2 c A (by simp))

/-- Alike states, of texts without definitions, have the same result. -/
theorem run_alike {i j : Str} (hi : ¬ Defines i) (hj : ¬ Defines j) : ∀ (n : Nat) {s t : State} {its : List Item} {f : Fin_}, Base i s → Base j t → Alike s t →
    run cf n s = (its, f) → (∀ s, f ≠ .more s) → ∃ its', run cf n t = (its', f) ∧ its'.map Item.bare = its.map Item.bare := by
  intro n
  induction n with
  | zero => intro s t its f _ _ _ hr hf; rw [run] at hr; injection hr with _ hr; exact absurd hr.symm (hf _)
  | succ n ih =>
    intro s t its f hs ht ha hr hf
    have h1 := step_sim (cf := cf) hs ht hi hj ha
    rw [run] at hr ⊢
    generalize hx : step cf s = x at h1 hr
    generalize hy : step cf t = y at h1
    cases h1 with
    | done => injection hr with h1 h2; subst h1 h2; exact ⟨[], rfl, rfl⟩
    | panic => injection hr with h1 h2; subst h1 h2; exact ⟨[], rfl, rfl⟩
    | @again s' t' h =>
      obtain ⟨b1, its', t1, -⟩ := exec_sim (cf := cf) hs ht hi hj ha (Exec.init.again hx)
      obtain ⟨b2, -⟩ := exec_sim (cf := cf) ht hs hj hi ⟨ha.stack.symm, ha.buf.symm⟩ (Exec.init.again hy)
      exact ih b1 b2 h hr hf
    | @item e e' s' t' he h =>
      obtain ⟨b1, -⟩ := exec_sim (cf := cf) hs ht hi hj ha (Exec.init.item hx)
      obtain ⟨b2, -⟩ := exec_sim (cf := cf) ht hs hj hi ⟨ha.stack.symm, ha.buf.symm⟩ (Exec.init.item hy)
      dsimp only at hr
      injection hr with h1 h2
      obtain ⟨r, g1, g2⟩ := ih (its := (run cf n s').1) (f := f) b1 b2 h (by rw [← h2]) hf
      exact ⟨e' :: r, by simp only [g1], by rw [← h1]; simp [g2, he]⟩

/-- The items of two texts without definitions, also when there are errors in the second one. -/
theorem concat_run {t u : Str} {ns : Nodes} (hf : Formula t ns) (hc : Closed t) (hm : Meets t u) (hd : ¬ Defines (t ++ u)) {its : List Item} {n : Nat} {f : Fin_}
    (hr : run cf n (State.init u) = (its, f)) (hn : ∀ s, f ≠ .more s) :
    ∃ n' its', run cf n' (State.init (t ++ u)) = (ns.events.map .ok ++ its', f) ∧ its'.map Item.bare = its.map Item.bare := by
  obtain ⟨c, h1, h2, h3⟩ := exec_first (cf := cf) hf hc hm
  have hu : ¬ Defines u := fun h => hd (h.mono ⟨t, [], by simp⟩)
  have ha : Alike (State.init u) ⟨[.sub { c with cs := trimStart c.cs } none], [], [], Spans.init (t ++ u)⟩ :=
    ⟨by simp [State.init, Instr.er, Sl.er, h2, start_self hm], rfl⟩
  obtain ⟨its', g1, g2⟩ := run_alike hu hd n (Base.init u) h1.base.trim ha hr hn
  have g3 : run cf n ⟨[.sub c none], [], [], Spans.init (t ++ u)⟩ = (its', f) := by
    cases n with
    | zero => rw [run] at g1; injection g1 with _ g1; exact absurd g1.symm (hn _)
    | succ n =>
      have := step_trim (cf := cf) (s := ⟨[], [], [], Spans.init (t ++ u)⟩) (c := c) (A := none) (B := [])
      dsimp only at this
      rw [run] at g1 ⊢
      rw [← this]
      exact g1
  obtain ⟨k, hk⟩ := exec_run h1 g3
  exact ⟨k, its', hk, g2⟩

/-- **C74.** The events of a text followed by another one: those of the first text, and then those of the second one. The first text has no definitions and no
errors, and nothing at its end goes on in the second one. The second one can make definitions and use them. -/
theorem C74_concat (cf : Cfg) (ho : cf.overflowChecks = true) (t u : Str) (es : List Event) (hr : Regular t) (hc : Closed t) (hm : Meets t u) (hl : Stacked cf u)
    (hl' : Stacked cf (t ++ u)) (ht : Yields cf t (es.map .ok)) (its : List Item) (hn : NoErr its) : Yields cf u its ↔ Yields cf (t ++ u) (es.map .ok ++ its) := by
  obtain ⟨ns, hf, he⟩ := C61_exact cf ho t hr _ ht (noErr_ok _)
  rw [he]
  exact concat_of ho hf hc hm hl hl' hn

/-- With errors in the second text, when there are no definitions: the same items but for the excerpts shown with the errors. -/
theorem C74_errors (cf : Cfg) (ho : cf.overflowChecks = true) (t u : Str) (es : List Event) (hr : Regular t) (hc : Closed t) (hm : Meets t u) (hd : ¬ Defines (t ++ u))
    (ht : Yields cf t (es.map .ok)) (its : List Item) (hu : Yields cf u its) :
    ∃ its', Yields cf (t ++ u) (es.map .ok ++ its') ∧ its'.map Item.bare = its.map Item.bare := by
  obtain ⟨ns, hf, he⟩ := C61_exact cf ho t hr _ ht (noErr_ok _)
  obtain ⟨n, hn⟩ := hu
  obtain ⟨k, its', h1, h2⟩ := concat_run hf hc hm hd hn (by intro s h; cases h)
  exact ⟨its', ⟨k, by rw [he]; exact h1⟩, h2⟩

/-- A panic in the second text. -/
theorem C74_panics (cf : Cfg) (ho : cf.overflowChecks = true) (t u : Str) (es : List Event) (hr : Regular t) (hc : Closed t) (hm : Meets t u) (hd : ¬ Defines (t ++ u))
    (ht : Yields cf t (es.map .ok)) (its : List Item) (p : Panic) (hu : Panics cf u its p) :
    ∃ its', Panics cf (t ++ u) (es.map .ok ++ its') p ∧ its'.map Item.bare = its.map Item.bare := by
  obtain ⟨ns, hf, he⟩ := C61_exact cf ho t hr _ ht (noErr_ok _)
  obtain ⟨n, hn⟩ := hu
  obtain ⟨k, its', h1, h2⟩ := concat_run hf hc hm hd hn (by intro s h; cases h)
  exact ⟨its', ⟨k, by rw [he]; exact h1⟩, h2⟩

/-! ### Meanings -/

theorem nodes_append_assoc : (a b c : Nodes) → (a.append b).append c = a.append (b.append c)
  | .nil, _, _ => rfl
  | .cons n ns, b, c => congrArg (Nodes.cons n) (nodes_append_assoc ns b c)

/-- What comes after elements are more elements. -/
theorem elements_append {Δ : Known} {j : Judgement} (h : Reads Δ j) :
    match j with
    | .elements s ns r => ∀ ms q, Reads Δ (.elements r ms q) → Reads Δ (.elements s (ns.append ms) q)
    | _ => True := by
  induction h with
  | nil => exact fun _ _ h => h
  | call h1 h2 h3 h4 h5 _ ih => exact fun ms q h => .call h1 h2 h3 h4 h5 (ih ms q h)
  | plain h1 h2 h3 h4 h5 h6 _ _ ih => exact fun ms q h => by rw [nodes_append_assoc]; exact .plain h1 h2 h3 h4 h5 h6 (ih ms q h)
  | skipping h1 h2 h3 h4 _ _ ih => exact fun ms q h => by rw [nodes_append_assoc]; exact .skipping h1 h2 h3 h4 (ih ms q h)
  | script h1 h2 h3 h4 h5 h6 h7 h8 h9 _ _ _ ih => exact fun ms q h => .script h1 h2 h3 h4 h5 h6 h7 h8 h9 (ih ms q h)
  | subSup h1 h2 h3 h4 h5 h6 h7 h8 h9 _ _ _ _ ih => exact fun ms q h => .subSup h1 h2 h3 h4 h5 h6 h7 h8 h9 (ih ms q h)
  | supSub h1 h2 h3 h4 h5 h6 h7 h8 h9 _ _ _ _ ih => exact fun ms q h => .supSub h1 h2 h3 h4 h5 h6 h7 h8 h9 (ih ms q h)
  | _ => trivial

theorem blank_append {k s : Str} (hk : Blank k) (hs : Blank s) : Blank (k ++ s) := by
  induction hk with
  | nil => exact hs
  | ws h _ ih => exact .ws h ih
  | comment h _ ih => rw [List.cons_append, List.append_assoc, List.cons_append]; exact .comment h ih

theorem blank_ws {k : Str} (hk : Spaces k) : Blank k := by
  induction k with
  | nil => exact .nil
  | cons c k ih => exact .ws (hk c (by simp)) (ih fun x hx => hk x (by simp [hx]))

theorem blankEnd_append {k s : Str} (hk : Blank k) (hs : BlankEnd s) : BlankEnd (k ++ s) := by
  cases hs with
  | blank h => exact .blank (blank_append hk h)
  | comment h h2 => rw [← List.append_assoc]; exact .comment (blank_append hk h) h2

theorem nextTok_after {k s r : Str} {x : Word} (hk : Blank k) (h : NextTok s x r) : NextTok (k ++ s) x r := by
  cases h with
  | chr h1 h2 h3 h4 => rw [← List.append_assoc]; exact .chr (blank_append hk h1) h2 h3 h4
  | cs h1 h2 h3 h4 => rw [← List.append_assoc]; exact .cs (blank_append hk h1) h2 h3 h4

/-- Blank text before elements. -/
theorem elements_after {Δ : Known} {k s r : Str} {ns : Nodes} (hk : Blank k) (h : Reads Δ (.elements s ns r)) :
    Reads Δ (.elements (k ++ s) ns r) ∨ ns = .nil ∧ r = s := by
  cases h with
  | nil => exact .inr ⟨rfl, rfl⟩
  | call h1 h2 h3 h4 h5 h => exact .inl (.call (nextTok_after hk h1) h2 h3 h4 h5 h)
  | plain h1 h2 h3 h4 h5 h6 h => exact .inl (.plain (nextTok_after hk h1) h2 h3 h4 h5 h6 h)
  | skipping h1 h2 h3 h4 h => exact .inl (.skipping (nextTok_after hk h1) h2 h3 h4 h)
  | script h1 h2 h3 h4 h5 h6 h7 h8 h9 h => exact .inl (.script (nextTok_after hk h1) h2 h3 h4 h5 h6 h7 h8 h9 h)
  | subSup h1 h2 h3 h4 h5 h6 h7 h8 h9 h => exact .inl (.subSup (nextTok_after hk h1) h2 h3 h4 h5 h6 h7 h8 h9 h)
  | supSub h1 h2 h3 h4 h5 h6 h7 h8 h9 h => exact .inl (.supSub (nextTok_after hk h1) h2 h3 h4 h5 h6 h7 h8 h9 h)

theorem formula_after {Δ : Known} {k s : Str} {ns : Nodes} (hk : Blank k) (h : Reads Δ (.formula s ns)) : Reads Δ (.formula (k ++ s) ns) := by
  cases h with
  | whole h1 h2 =>
    rcases elements_after hk h1 with h3 | ⟨rfl, rfl⟩
    · exact .whole h3 h2
    · exact .whole .nil (blankEnd_append hk h2)

/-- What two texts mean, one after the other. -/
theorem C74_meaning (t u : Str) (ns ms : Nodes) (ht : Formula t ns) (hu : Formula u ms) (hc : Closed t) (hm : Meets t u) : Formula (t ++ u) (ns.append ms) := by
  obtain ⟨w, hw, h⟩ := formula_onward hc hm ht
  cases formula_after (blank_ws hw) hu with
  | whole h1 h2 => exact .whole (elements_append h _ _ h1) h2

theorem defining_after {Δ Δ' : Known} {k s r : Str} (hk : Blank k) (h : Defining Δ s Δ' r) : Defining Δ (k ++ s) Δ' r := by
  cases h with
  | def_ h1 h2 h3 h4 h5 => exact .def_ (nextTok_after hk h1) h2 h3 h4 h5
  | let_ h1 h2 h3 => exact .let_ (nextTok_after hk h1) h2 h3
  | futurelet h1 h2 h3 => exact .futurelet (nextTok_after hk h1) h2 h3
  | new h1 h2 h3 h4 h5 h6 => exact .new (nextTok_after hk h1) h2 h3 h4 h5 h6
  | renew h1 h2 h3 h4 h5 h6 => exact .renew (nextTok_after hk h1) h2 h3 h4 h5 h6
  | provide h1 h2 h3 h4 h5 h6 => exact .provide (nextTok_after hk h1) h2 h3 h4 h5 h6
  | provided h1 h2 h3 h4 h5 h6 => exact .provided (nextTok_after hk h1) h2 h3 h4 h5 h6

/-- Texts with definitions after the first text. -/
theorem C74_document (t u : Str) (ns ms : Nodes) (ht : Formula t ns) (hu : Document Known.none u ms) (hc : Closed t) (hm : Meets t u) :
    Document Known.none (t ++ u) (ns.append ms) := by
  obtain ⟨w, hw, h⟩ := formula_onward hc hm ht
  generalize hΔ : Known.none = Δ at hu
  cases hu with
  | formula hu => subst hΔ; exact .formula (C74_meaning t u ns ms ht hu hc hm)
  | define h1 h2 h3 =>
    subst hΔ
    rcases elements_after (blank_ws hw) h1 with h4 | ⟨rfl, rfl⟩
    · rw [← nodes_append_assoc]; exact .define (elements_append h _ _ h4) h2 h3
    · exact .define h (defining_after (blank_ws hw) h2) h3

/-- White space and comments before a text mean nothing. -/
theorem C74_blank (k s : Str) (ns : Nodes) (hk : Blank k) (h : Formula s ns) : Formula (k ++ s) ns := formula_after hk h

/-! ### Cases -/

/-- Texts without comments and text commands. -/
theorem closed_plain {t : Str} (h1 : '%' ∉ t) (h2 : ∀ w ∈ textCommands, ¬ ('\\' :: w.1) <:+: t) (h3 : ¬ c!"\\buildrel" <:+: t) : Closed t where
  comments p q h := absurd (show '%' ∈ t by rw [h]; simp) h1
  texts name k p s hm h _ := absurd (show ('\\' :: name) <:+: t from ⟨p, s, by rw [h]; simp⟩) (h2 _ hm)
  over := h3

/-- A second text that starts with an operator. -/
theorem meets_plus {t v : Str} : Meets t ('+' :: v) where
  first c w h := by injection h with h _; subst h; decide
  limits := ⟨(by rintro ⟨r, h⟩; cases h), (by rintro ⟨r, h⟩; cases h)⟩
  word c w h hl := by injection h with h _; subst h; exact absurd hl (by decide)
  number c w h hl := by injection h with h _; subst h; exact absurd hl (by unfold NumeralChar; decide)
  low c w h hl := by injection h with h _; subst h; exact absurd hl (by decide)
  quantity c w h hl := by injection h with h _; subst h; exact absurd hl (by decide)

theorem closed_case : Closed c!"\\frac{a}{b}x^2" := closed_plain (by decide) (by decide +kernel) (by decide +kernel)

/-- The events of `\frac{a}{b}x^2`. -/
def firstEvents : List Event :=
  [.visual (.fraction none), .begin_ .normal, ordinary 'a', .end_, .begin_ .normal, ordinary 'b', .end_, .script .sup .right, ordinary 'x', .content (.number c!"2")]

/-- `\frac{a}{b}x^2` and `+\def\a{y}\sqrt{\a}`. -/
example : Yields cf0 (c!"\\frac{a}{b}x^2" ++ c!"+\\def\\a{y}\\sqrt{\\a}")
    (firstEvents.map .ok ++ [.ok (.content (.binaryOp '+' false)), .ok (.visual .squareRoot), .ok (.begin_ .normal), .ok (ordinary 'y'), .ok .end_]) :=
  (C74_concat cf0 rfl c!"\\frac{a}{b}x^2" c!"+\\def\\a{y}\\sqrt{\\a}" firstEvents (simple_regular (by decide +kernel)) closed_case meets_plus
    (stacked_of 40 (by decide +kernel) (by decide +kernel)) (stacked_of 40 (by decide +kernel) (by decide +kernel)) ⟨40, by decide +kernel⟩ _
    (by intro i hi; simp at hi; rcases hi with rfl | rfl | rfl | rfl | rfl <;> exact ⟨_, rfl⟩)).1 ⟨40, by decide +kernel⟩

/-- `\frac{a}{b}x^2` and `+\sqrt`: an error in the second text. -/
example : ∃ its, Yields cf0 (c!"\\frac{a}{b}x^2" ++ c!"+\\sqrt") (firstEvents.map .ok ++ its) ∧ its.map Item.bare = [.inl (.content (.binaryOp '+' false)), .inr .token] := by
  obtain ⟨its, h1, h2⟩ := C74_errors cf0 rfl c!"\\frac{a}{b}x^2" c!"+\\sqrt" firstEvents (simple_regular (by decide +kernel)) closed_case meets_plus
    (by unfold Defines; decide +kernel) ⟨40, by decide +kernel⟩ (run cf0 40 (State.init c!"+\\sqrt")).1 ⟨40, by decide +kernel⟩
  exact ⟨its, h1, h2.trans (by decide +kernel)⟩

/-- The conditions are needed: a text without braces takes what follows it, although that is parsed once more. In TeX `\text a+b` shows the text `a` only. -/
theorem C74_text_false :
    ∃ t u, run cf0 20 (State.init t) = ([.ok (.content (.text c!"a"))], .done) ∧ run cf0 20 (State.init u) = ([.ok (.content (.binaryOp '+' false)), .ok (ordinary 'b')], .done) ∧
      run cf0 20 (State.init (t ++ u)) = ([.ok (.content (.text c!"a+b")), .ok (.content (.binaryOp '+' false)), .ok (ordinary 'b')], .done) :=
  ⟨c!"\\text a", c!"+b", by decide +kernel⟩

/-- The other conditions on the end of the first text: dots, a comment, and a length with stretch. -/
theorem C74_needed :
    run cf0 20 (State.init c!"\\dots") = ([.ok (ordinary '⋯')], .done) ∧
    run cf0 20 (State.init c!"\\dots,") = ([.ok (ordinary '…'), .ok (.content (.punctuation ','))], .done) ∧
    run cf0 20 (State.init c!"x%") = ([.ok (ordinary 'x')], .done) ∧ run cf0 20 (State.init c!"x%y") = ([.ok (ordinary 'x')], .done) ∧
    run cf0 20 (State.init c!"\\hskip 1em") = ([.ok (.space (some ⟨⟨1, 1⟩, .em⟩) none none)], .done) ∧
    run cf0 20 (State.init c!"\\hskip 1emplus1em") = ([.ok (.space (some ⟨⟨1, 1⟩, .em⟩) none none)], .done) := by
  decide +kernel

end PL.Props
