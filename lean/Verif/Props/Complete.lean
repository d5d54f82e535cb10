import Verif.Lemmas.Formula.Converse
import Verif.Props.Formula
import Verif.Props.Stream
set_option autoImplicit false
/-!
# C61: the grammar is complete

The converse of C55. `Regular` (`Spec/Regular.lean`) excludes the constructs whose events are not those of a tree; for all other texts the parser accepts
exactly what the grammar reads.
-/
namespace PL.Props
open PL PL.Lex Spec PL.Formula

theorem init_wf (inp : Str) : Sl.wf ⟨0, blen inp, inp⟩ := (Base.init inp).wf ⟨0, blen inp, inp⟩ none (by simp [State.init])

/-- When all items of a regular text are events, the grammar reads the text, and the events are those of its reading. -/
theorem C61_exact (cf : Cfg) (hov : cf.overflowChecks = true) (inp : Str) (hr : Regular inp) (its : List Item) (h : Yields cf inp its) (hn : NoErr its) :
    ∃ ns, Formula inp ns ∧ its = ns.events.map .ok := by
  obtain ⟨n, hn'⟩ := h
  obtain ⟨h1, -⟩ := conv hov n ⟨0, blen inp, inp⟩ none [] (.init inp) (init_wf inp) hr ⟨its, hn', hn⟩
  obtain ⟨ns, hf⟩ := h1 inp rfl
  obtain ⟨m, hm⟩ := C55_meaning cf inp ns hf
  exact ⟨ns, hf, run_unique hn' hm⟩

/-- A regular text is accepted exactly when the grammar reads it. -/
theorem C61_accepts (cf : Cfg) (hov : cf.overflowChecks = true) (inp : Str) (hr : Regular inp) : (∃ its, Yields cf inp its ∧ NoErr its) ↔ ∃ ns, Formula inp ns := by
  constructor
  · rintro ⟨its, h, hn⟩
    obtain ⟨ns, hf, -⟩ := C61_exact cf hov inp hr its h hn
    exact ⟨ns, hf⟩
  · rintro ⟨ns, hf⟩
    exact ⟨_, C55_meaning cf inp ns hf, noErr_ok _⟩

/-- A regular text that the grammar does not read gives an error (or a panic, C03), after finitely many calls. -/
theorem C61_rejects (cf : Cfg) (hov : cf.overflowChecks = true) (inp : Str) (hr : Regular inp) (h : ¬ ∃ ns, Formula inp ns) :
    ∃ N its f, (∀ n ≥ N, run cf n (State.init inp) = (its, f)) ∧ ((∃ p, f = .panic p) ∨ f = .done ∧ ∃ e ctx, Item.err e ctx ∈ its) := by
  obtain ⟨N, hN⟩ := C01_terminates cf inp
  refine ⟨N, (run cf N (State.init inp)).1, (run cf N (State.init inp)).2, fun n hn => (hN n hn).1, ?_⟩
  have hm := (hN N (Nat.le_refl _)).2
  cases hf : (run cf N (State.init inp)).2 with
  | more s => exact absurd hf (hm s)
  | panic p => exact .inl ⟨p, rfl⟩
  | done =>
    refine .inr ⟨rfl, ?_⟩
    apply Classical.byContradiction
    intro hno
    refine h ((C61_accepts cf hov inp hr).1 ⟨_, ⟨N, by rw [← hf]⟩, fun i hi => ?_⟩)
    cases i with
    | ok e => exact ⟨e, rfl⟩
    | err e ctx => exact absurd ⟨e, ctx, hi⟩ hno

/-- Two regular texts that start the same way up to white space at the front are accepted together. -/
theorem C61_front (cf : Cfg) (hov : cf.overflowChecks = true) (w s : Str) (hw : Spaces w) (h1 : Regular s) (h2 : Regular (w ++ s)) :
    (∃ its, Yields cf (w ++ s) its ∧ NoErr its) ↔ ∃ its, Yields cf s its ∧ NoErr its := by
  have key : ∀ a b, trimStart a = trimStart b → Regular a → (∃ its, Yields cf a its ∧ NoErr its) → ∃ its, Yields cf b its ∧ NoErr its := by
    rintro a b e ha ⟨its, ⟨n, h⟩, hn⟩
    obtain ⟨h1, -⟩ := conv hov n ⟨0, blen a, a⟩ none [] (.init a) (init_wf a) ha ⟨its, h, hn⟩
    obtain ⟨ns, hf⟩ := h1 b e.symm
    exact ⟨_, C55_meaning cf b ns hf, noErr_ok _⟩
  exact ⟨key _ _ (trimStart_ws_append hw s) h2, key _ _ (trimStart_ws_append hw s).symm h1⟩

/-! ### Cases -/

/-- A check that is enough for a text to be regular. -/
def simple (s : Str) : Bool :=
  definingCommands.all (fun w => !w.isInfixOf_internal s) &&
  ([c!"&", c!"\\\\", c!"\\cr"].all (fun w => !w.isInfixOf_internal s) ||
    [c!"^", c!"_"].all (fun w => !w.isInfixOf_internal s) && fontCommands.all (fun w => !('\\' :: w).isInfixOf_internal s)) &&
  !(c!"{#".isInfixOf_internal s) && decide (s.length < 65535) &&
  [c!"alignat", c!"alignat*", c!"alignedat", c!"smallmatrix", c!"dcases", c!"drcases", c!"darray"].all (fun w => !('{' :: w ++ ['}']).isInfixOf_internal s)

theorem simple_regular {s : Str} (h : simple s = true) : Regular s := by
  have no : ∀ w : Str, (!w.isInfixOf_internal s) = true → ¬ w <:+: s := by
    intro w h hi
    rw [List.isInfixOf_internal_iff_isInfix.2 hi] at h
    cases h
  unfold simple at h
  simp only [Bool.and_eq_true, Bool.or_eq_true, decide_eq_true_eq] at h
  obtain ⟨⟨⟨⟨h1, h2⟩, h3⟩, h4⟩, h5⟩ := h
  rw [List.all_eq_true] at h1 h5
  have hname : ∀ name t, ('{' :: name ++ '}' :: t) <:+: s → name ∉ [c!"alignat", c!"alignat*", c!"alignedat", c!"smallmatrix", c!"dcases", c!"drcases", c!"darray"] := by
    intro name t hi hm
    exact no _ (h5 name hm) (List.IsInfix.trans ⟨[], t, by simp⟩ hi)
  refine ⟨fun w hw => no w (h1 w hw), ?_, ?_, ?_, ?_, ?_⟩
  · rintro w c hw hc hi
    rcases h2 with h2 | ⟨h2, -⟩
    · exact no ['&'] (List.all_eq_true.1 h2 _ (by simp)) (List.IsInfix.trans ⟨[], w ++ [c], by simp⟩ hi)
    · refine no [c] (List.all_eq_true.1 h2 _ (by rcases hc with rfl | rfl <;> simp)) (List.IsInfix.trans ⟨'&' :: w, [], by simp⟩ hi)
  · rintro b m c hb hm hc hi
    rcases h2 with h2 | ⟨h2, -⟩
    · exact no b (List.all_eq_true.1 h2 _ (by rcases hb with rfl | rfl <;> simp)) (List.IsInfix.trans ⟨[], m ++ [c], by simp⟩ hi)
    · refine no [c] (List.all_eq_true.1 h2 _ (by rcases hc with rfl | rfl <;> simp)) (List.IsInfix.trans ⟨b ++ m, [], by simp⟩ hi)
  · rintro n hn k b hk hb hi
    rcases h2 with h2 | ⟨-, h2⟩
    · exact no b (List.all_eq_true.1 h2 _ (by rcases hb with rfl | rfl | rfl <;> simp)) (List.IsInfix.trans ⟨'\\' :: n ++ k, [], by simp⟩ hi)
    · exact no _ (List.all_eq_true.1 h2 n hn) (List.IsInfix.trans ⟨[], k ++ b, by simp⟩ hi)
  · intro g hi
    exact absurd (List.IsInfix.trans ⟨[], g ++ ['}'], by simp⟩ hi) (no _ h3)
  · intro name t hi hd
    cases hd with
    | columns hm hb hl =>
      obtain ⟨w, -, e⟩ := braced_text hb
      have := hi.length_le
      rw [e] at this
      simp at this
      omega
    | pairs hm =>
      refine hname name t hi ?_
      simp [pairEnvironments] at hm
      rcases hm with ⟨rfl, -⟩ | ⟨rfl, -⟩ | ⟨rfl, -⟩ <;> simp

/-- A text with a fraction, scripts and a root: regular, and accepted, so that it has a reading. -/
example : ∃ ns, Formula c!"\\frac{a_1^2}{\\sqrt[3]{b}}+\\mathrm{x}" ns := by
  refine (C61_accepts cf0 rfl _ (simple_regular (by decide +kernel))).1 ?_
  refine ⟨(run cf0 60 (State.init c!"\\frac{a_1^2}{\\sqrt[3]{b}}+\\mathrm{x}")).1, ⟨60, by decide +kernel⟩, ?_⟩
  have : (run cf0 60 (State.init c!"\\frac{a_1^2}{\\sqrt[3]{b}}+\\mathrm{x}")).1.all (fun i => match i with | .ok _ => true | .err .. => false) = true := by decide +kernel
  intro i hi
  have := List.all_eq_true.1 this i hi
  cases i with
  | ok e => exact ⟨e, rfl⟩
  | err => cases this

/-- An array. -/
theorem array_formula : ∃ ns, Formula c!"\\begin{array}{c|r}a&b\\\\[1em]\\hline c&d\\end{array}" ns := by
  refine (C61_accepts cf0 rfl _ (simple_regular (by decide +kernel))).1 ?_
  refine ⟨(run cf0 60 (State.init c!"\\begin{array}{c|r}a&b\\\\[1em]\\hline c&d\\end{array}")).1, ⟨60, by decide +kernel⟩, ?_⟩
  have : (run cf0 60 (State.init c!"\\begin{array}{c|r}a&b\\\\[1em]\\hline c&d\\end{array}")).1.all (fun i => match i with | .ok _ => true | .err .. => false) = true := by
    decide +kernel
  intro i hi
  have := List.all_eq_true.1 this i hi
  cases i with
  | ok e => exact ⟨e, rfl⟩
  | err => cases this

/-- A fraction without a denominator: regular, and refused, so that it has no reading. -/
example : ¬ ∃ ns, Formula c!"\\frac{a_1^2}" ns := by
  rintro ⟨ns, h⟩
  obtain ⟨n, hn⟩ := C55_meaning cf0 _ ns h
  have h1 : run cf0 20 (State.init c!"\\frac{a_1^2}") = ((run cf0 20 (State.init c!"\\frac{a_1^2}")).1, .done) := by decide +kernel
  have h2 := run_unique hn h1
  have h3 : (run cf0 20 (State.init c!"\\frac{a_1^2}")).1.any (fun i => match i with | .ok _ => false | .err .. => true) = true := by decide +kernel
  rw [← h2] at h3
  simp at h3

end PL.Props
