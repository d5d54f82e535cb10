import Verif.Spec.Columns
import Verif.Lemmas.Exec
import Verif.Spec.Operands
set_option autoImplicit false
/-!
# The stream of items (C01, C02, C03, C04, C06, C07, C08, C10, C11)
-/
namespace PL.Props
open PL PL.Lex Spec

/-- A build with overflow checks, and a placement of expansions far from each other. -/
def cf0 : Cfg := ⟨true, fun k => 1000000 * k⟩
/-- The same without overflow checks. -/
def cf1 : Cfg := ⟨false, fun k => 1000000 * k⟩

theorem reached_exec {cf : Cfg} {inp : Str} {its : List Item} {s : State} (h : Reached cf inp its s) :
    Exec cf (State.init inp) its s := by
  induction h with
  | new => exact .init
  | item _ h ih => exact ih.item h
  | again _ h ih => exact ih.again h

/-- `run` visits reached states only. -/
theorem run_reached (cf : Cfg) (n : Nat) (inp : Str) : ∃ s, Reached cf inp (run cf n (State.init inp)).1 s ∧
    match (run cf n (State.init inp)).2 with
    | .done => step cf s = .done
    | .panic p => step cf s = .panic p
    | .more s' => s' = s := by
  obtain ⟨s, h1, h2⟩ := run_exec (cf := cf) n (State.init inp)
  refine ⟨s, ?_, h2⟩
  clear h2
  generalize (run cf n (State.init inp)).1 = its at h1
  induction h1 with
  | init => exact .new
  | item _ h ih => exact ih.item h
  | again _ h ih => exact ih.again h

theorem reached_prefix {cf : Cfg} {inp : Str} {its : List Item} {s : State} (h : Reached cf inp its s) :
    ∀ a b, its = a ++ b → ∃ s', Reached cf inp a s' := by
  induction h with
  | new => intro a b h; obtain ⟨rfl, rfl⟩ := List.append_eq_nil_iff.1 h.symm; exact ⟨_, .new⟩
  | @item its s i s' h1 h2 ih =>
    intro a b h
    rcases List.eq_nil_or_concat b with rfl | ⟨b', x, rfl⟩
    · rw [List.append_nil] at h; subst h; exact ⟨_, h1.item h2⟩
    · rw [List.concat_eq_append, ← List.append_assoc] at h
      exact ih a b' (List.append_inj_left' h rfl)
  | again _ _ ih => exact ih

/-! ## C01: termination -/

/-- Iterating ends: there is a number of activations of `next` after which nothing more happens. -/
theorem C01_terminates (cf : Cfg) (inp : Str) : ∃ N, ∀ n ≥ N, run cf n (State.init inp) = run cf N (State.init inp) ∧
    ∀ s, (run cf n (State.init inp)).2 ≠ .more s := run_ends _ (Base.init inp)

/-- Every single call returns or panics, in every state that can be reached, also after errors. -/
theorem C01_call_returns (cf : Cfg) (inp : Str) (its : List Item) (s : State) (h : Reached cf inp its s) :
    (∃ o s', Call cf s o s') ∨ ∃ p, CallPanics cf s p := by
  obtain ⟨N, hN⟩ := run_ends (cf := cf) s (reached_exec h).base
  have key : ∀ n s, (∀ s', (run cf n s).2 ≠ .more s') → (∃ o s', Call cf s o s') ∨ ∃ p, CallPanics cf s p := by
    intro n
    induction n with
    | zero => intro s h; exact absurd rfl (h s)
    | succ n ih =>
      intro s h
      cases hs : step cf s with
      | done => exact .inl ⟨_, _, .none hs⟩
      | panic p => exact .inr ⟨p, .here hs⟩
      | item i s' => exact .inl ⟨_, _, .item hs⟩
      | again s1 =>
        unfold run at h
        rw [hs] at h
        rcases ih s1 h with ⟨o, s', h'⟩ | ⟨p, h'⟩
        · exact .inl ⟨o, s', .again hs h'⟩
        · exact .inr ⟨p, .again hs h'⟩
  exact key N s (hN N (Nat.le_refl _)).2

/-- Only finitely many calls return an item: there is no infinite sequence of calls. -/
theorem C01_finite (cf : Cfg) (inp : Str) : ∃ N, ∀ its s, Reached cf inp its s → its.length ≤ N := by
  obtain ⟨N, hN⟩ := C01_terminates cf inp
  refine ⟨(run cf N (State.init inp)).1.length, fun its s h => ?_⟩
  have key : ∃ n, its <+: (run cf n (State.init inp)).1 ∧ (run cf n (State.init inp)).1 = its ∧ (run cf n (State.init inp)).2 = .more s := by
    induction h with
    | new => exact ⟨0, List.nil_prefix, rfl, rfl⟩
    | @item its s i s' h1 h2 ih =>
      obtain ⟨n, -, e1, e2⟩ := ih
      have := run_snoc (cf := cf) n (State.init inp) s e2
      rw [h2] at this
      exact ⟨n + 1, by rw [this, e1]; exact List.prefix_refl _, by rw [this, e1], by rw [this]⟩
    | @again its s s' h1 h2 ih =>
      obtain ⟨n, -, e1, e2⟩ := ih
      have := run_snoc (cf := cf) n (State.init inp) s e2
      rw [h2] at this
      exact ⟨n + 1, by rw [this, e1]; exact List.prefix_refl _, by rw [this, e1], by rw [this]⟩
  obtain ⟨n, -, e1, e2⟩ := key
  by_cases hn : n ≥ N
  · exact absurd e2 ((hN n hn).2 s)
  · have := run_more (cf := cf) n (N - n) (State.init inp)
    rw [show n + (N - n) = N by omega, e1] at this
    exact this.length_le

/-- After `None`, every later call returns `None`. -/
theorem C01_fused (cf : Cfg) (s s' : State) (h : Call cf s none s') (o : Option Item) (s'' : State) (h' : Call cf s' o s'') :
    o = none ∧ s'' = s' := by
  have hd : step cf s' = .done := by
    generalize ho : (none : Option Item) = q at h
    induction h with
    | item _ => cases ho
    | none h => exact h
    | again _ _ ih => exact ih h' ho
  cases h' with
  | item h => rw [hd] at h; cases h
  | none _ => exact ⟨rfl, rfl⟩
  | again h => rw [hd] at h; cases h

/-- Recursive macros end too: `\\a` expands to itself, with an error at the limit and a few items after it. -/
example : (run cf0 100 (State.init c!"\\def\\a{\\a}\\a b")).2 = .done := by decide +kernel
example : ((run cf0 100 (State.init c!"x\\foo y")).1.map fun i => match i with | .ok _ => true | .err _ _ => false) = [true, false, true] := by
  decide +kernel

/-! ## C02: balanced streams -/

theorem events_ok (es : List Event) : events (es.map .ok) = es := by
  induction es with
  | nil => rfl
  | cons e es ih => exact congrArg (e :: ·) ih

theorem noErr_ok (es : List Event) : NoErr (es.map .ok) := by
  intro i hi
  obtain ⟨e, -, rfl⟩ := List.mem_map.1 hi
  exact ⟨e, rfl⟩

theorem yields_done {cf : Cfg} {inp : Str} {its : List Item} (h : Yields cf inp its) :
    ∃ s, Exec cf (State.init inp) its s ∧ s.stack = [] := by
  obtain ⟨n, h⟩ := h
  obtain ⟨s, h1, h2⟩ := run_reached cf n inp
  rw [h] at h1 h2
  exact ⟨s, reached_exec h1, step_done h2⟩

/-- If no item is an error, the starts and ends of groups match. -/
theorem C02_balanced (cf : Cfg) (inp : Str) (es : List Event) (h : Yields cf inp (es.map .ok)) : Balanced es := by
  obtain ⟨s, h, hs⟩ := yields_done h
  have F := (h.fine (st := false) (noErr_ok es) (by simp)).1
  have := F.dep
  rw [hs, List.append_nil, emitted, events_ok] at this
  exact dep_balanced _ es (Nat.le_refl _) this

/-- A case of it. -/
example : Yields cf0 c!"{a\\begin{matrix}b\\end{matrix}}" ([.begin_ .normal, .content (.ordinary 'a' false), .begin_ (.matrix .center),
    .content (.ordinary 'b' false), .end_, .end_].map .ok) := ⟨20, by decide +kernel⟩

/-! ## C03: no unmatched end, even after errors -/

theorem C03_no_unmatched_end (cf : Cfg) (inp : Str) (n : Nat) (a b : List Item) (h : (run cf n (State.init inp)).1 = a ++ b) :
    ends (events a) ≤ begins (events a) := by
  obtain ⟨s, h1, -⟩ := run_reached cf n inp
  obtain ⟨s', h2⟩ := reached_prefix h1 a b h
  obtain ⟨⟨k, hk⟩, -⟩ := (reached_exec h2).deep
  rw [dep_append] at hk
  cases ha : dep 0 (emitted a) with
  | none => rw [ha] at hk; cases hk
  | some m =>
    have := dep_count _ _ _ ha
    omega

/-- A case with errors: the group of the failed command is opened and not closed, and no end is unmatched. -/
example : (run cf0 100 (State.init c!"\\mathbf\\foo {x}")).2 = .done ∧
    (events (run cf0 100 (State.init c!"\\mathbf\\foo {x}")).1) =
      [.begin_ .normal, .stateChange (.font (some .bold)), .begin_ .normal, .content (.ordinary 'x' false), .end_] := by
  decide +kernel

/-- After an error the converse fails: a group may stay open. -/
theorem C03_not_closed : ∃ its, Yields cf0 c!"\\mathbf\\foo x" its ∧ ends (events its) < begins (events its) :=
  ⟨(run cf0 100 (State.init c!"\\mathbf\\foo x")).1, ⟨100, by decide +kernel⟩, by decide +kernel⟩

/-! ## C04: operands -/

/-- For clean inputs: every script and visual event is followed by its operands. Missing: the constructs
excluded by `Clean` do break the structure, see the theorems below. -/
theorem C04_operands_partial (cf : Cfg) (inp : Str) (es : List Event) (hc : Clean inp) (h : Yields cf inp (es.map .ok)) :
    WF .body es := by
  obtain ⟨s, h, hs⟩ := yields_done h
  have F := (h.fine (st := true) (noErr_ok es) (fun _ => hc)).1
  have := F.acc
  rw [hs, List.append_nil, emitted, events_ok] at this
  exact acc_wf this

/-- Texts without `&`, `\\\\`, `\\cr`, `[` and the excluded commands are clean. -/
def plainB (s : Str) : Bool :=
  !s.contains '&' && !s.contains '[' && (definingCommands ++ [c!"\\relax", c!"\\pmod", c!"\\buildrel", c!"\\\\", c!"\\cr"]).all fun w =>
    !w.isInfixOf_internal s

theorem plainB_clean {s : Str} (h : plainB s = true) : Clean s := by
  simp only [plainB, Bool.and_eq_true, Bool.not_eq_true', List.all_eq_true, List.mem_append] at h
  obtain ⟨⟨h1, h2⟩, h3⟩ := h
  have hw : ∀ w, (w ∈ definingCommands ∨ w ∈ [c!"\\relax", c!"\\pmod", c!"\\buildrel", c!"\\\\", c!"\\cr"]) → ¬ w <:+: s := by
    intro w hw hi
    have := h3 w hw
    rw [List.isInfixOf_internal_iff_isInfix.2 hi] at this
    cases this
  have hmem : ∀ (c : Char) (t : Str), s.contains c = false → c ∈ t → ¬ t <:+: s := by
    intro c t hc ht hi
    have : c ∈ s := hi.subset ht
    simp [this] at hc
  refine ⟨fun w h => hw w (.inl h), hw _ (.inr (by simp)), hw _ (.inr (by simp)), hw _ (.inr (by simp)), ?_, ?_, ?_, ?_⟩
  · intro w _; exact hmem '[' _ h2 (by simp)
  · intro w c _ _; exact hmem '&' _ h1 (by simp)
  · rintro b m c hb - - hi
    refine hw b (.inr ?_) (List.IsInfix.trans ⟨[], m ++ [c], by simp⟩ hi)
    rcases hb with rfl | rfl <;> simp
  · rintro n - k b - hb hi
    rcases hb with rfl | hb
    · exact hmem '&' _ h1 (by simp) hi
    · refine hw b (.inr ?_) (List.IsInfix.trans ⟨'\\' :: n ++ k, [], by simp⟩ hi)
      rcases hb with rfl | rfl <;> simp

/-- A case of it. -/
example : Clean c!"\\frac{a_1^2}{\\sqrt b}" ∧ Yields cf0 c!"\\frac{a_1^2}{\\sqrt b}" ([.visual (.fraction none), .begin_ .normal,
    .script .subSup .right, .content (.ordinary 'a' false), .content (.number ['1']), .content (.number ['2']), .end_, .begin_ .normal,
    .visual .squareRoot, .content (.ordinary 'b' false), .end_].map .ok) :=
  ⟨plainB_clean (by decide +kernel), 40, by decide +kernel⟩

/-- Not for all inputs: a missing base, a missing operand, an alignment or a line break as a base. -/
theorem C04_false : ∀ inp ∈ [c!"\\relax^2", c!"\\frac\\def\\a{b}c", c!"\\begin{matrix}&^2\\end{matrix}",
    c!"\\begin{matrix}\\\\^2\\end{matrix}", c!"\\sqrt[]{x}"], ∃ es, Yields cf0 inp (es.map .ok) ∧ ¬ WF .body es := by
  have key : ∀ inp ∈ [c!"\\relax^2", c!"\\frac\\def\\a{b}c", c!"\\begin{matrix}&^2\\end{matrix}",
      c!"\\begin{matrix}\\\\^2\\end{matrix}", c!"\\sqrt[]{x}"],
      run cf0 40 (State.init inp) = ((events (run cf0 40 (State.init inp)).1).map .ok, .done) ∧
      recognise [] (events (run cf0 40 (State.init inp)).1) ≠ some [] := by decide +kernel
  intro inp hi
  exact ⟨_, ⟨40, (key inp hi).1⟩, fun h => (key inp hi).2 h.accepted⟩

/-! ## C06: panics -/

/-- The only panics: overflow checks, a cut through a character of several bytes, an index in macro expansion,
and the assertion of the error report after an earlier error. -/
theorem C06_panics_partial (cf : Cfg) (inp : Str) (n : Nat) (p : Panic) (h : (run cf n (State.init inp)).2 = .panic p) :
    (p = .overflow ∧ cf.overflowChecks = true) ∨ (p = .sliceBoundary ∧ Wide inp) ∨ (p = .index ∧ Defines inp) ∨
    (p = .assertion ∧ Defines inp ∧ ∃ e ctx, Item.err e ctx ∈ (run cf n (State.init inp)).1) := by
  obtain ⟨s, h1, h2⟩ := run_reached cf n inp
  rw [h] at h2
  exact (reached_exec h1).panic h2

/-- An input of ASCII characters without macro definitions never panics in a build without overflow checks. -/
theorem C06_ascii_partial (cf : Cfg) (inp : Str) (n : Nat) (hc : cf.overflowChecks = false) (hw : ∀ c ∈ inp, c.utf8Size = 1)
    (hd : ¬ Defines inp) (p : Panic) : (run cf n (State.init inp)).2 ≠ .panic p := by
  intro h
  rcases C06_panics_partial cf inp n p h with h | ⟨_, c, h1, h2⟩ | h | h
  · rw [hc] at h; cases h.2
  · exact h2 (hw c h1)
  · exact hd h.2
  · exact hd h.2.1

/-- A case of it: an error, and no panic. -/
example : (∀ c ∈ c!"\\frac{a}{\\foo}", c.utf8Size = 1) ∧ (run cf1 40 (State.init c!"\\frac{a}{\\foo}")).2 = .done := by decide +kernel

/-- Each of the four kinds happens. -/
theorem C06_false :
    (run cf0 40 (State.init c!"\\char99999999999999999999 ")).2 = .panic .overflow ∧
    (run cf1 40 (State.init c!"\\kern1em\u3000")).2 = .panic .sliceBoundary ∧
    (run cf1 40 (State.init c!"\\textcolor{#aéaaa}{x}")).2 = .panic .sliceBoundary ∧
    (run cf1 40 (State.init c!"\\def\\a#1x{}\\a b\\")).2 = .panic .index ∧
    (run cf0 40 (State.init c!"\\newcommand{\\a}[0][x]{y}\\a")).2 = .panic .overflow ∧
    (run cf1 60 (State.init c!"\\def\\m{q\\err}\\frac{\\err}\\right\\m")).2 = .panic .assertion := by
  decide +kernel

/-! ## C07: error reports -/

/-- Nothing panics while the first error is reported (nor later ones without macro definitions). -/
theorem C07_first_error (cf : Cfg) (inp : Str) (n : Nat)
    (h : NoErr (run cf n (State.init inp)).1 ∨ ¬ Defines inp) : (run cf n (State.init inp)).2 ≠ .panic .assertion := by
  intro hp
  rcases C06_panics_partial cf inp n _ hp with ⟨h', _⟩ | ⟨h', _⟩ | ⟨h', _⟩ | ⟨_, hd, e, ctx, hm⟩
  · cases h'
  · cases h'
  · cases h'
  · rcases h with h | h
    · obtain ⟨e', h⟩ := h _ hm
      cases h
    · exact h hd

/-- Without errors before, or without macros, the place of failure is found; in general it is not: a text left
over from a failed command can lie in an expansion that was dropped from the list. -/
theorem C07_false : ∃ inp n, (run cf1 n (State.init inp)).2 = .panic .assertion :=
  ⟨c!"\\def\\m{q\\err}\\frac{\\err}\\right\\m", 60, by decide +kernel⟩

/-- The report never slices outside the text or inside a character: once the place is found, it is built. -/
theorem C07_slices (cf : Cfg) (inp : Str) (its : List Item) (s : State) (h : Reached cf inp its s) (place i : Nat) (sp : Spans)
    (hr : s.sp.reach cf place = some (i, sp)) : ∃ t, errorContext cf s.sp place = .ok (t, sp) :=
  errorContext_ok (reached_exec h).base.calls hr

/-- Two texts in memory do not touch. -/
def Apart (cf : Cfg) (i : Nat) (t : Str) (j : Nat) (u : Str) : Prop :=
  cf.addr i + blen t < cf.addr j ∨ cf.addr j + blen u < cf.addr i

/-- If the expansions and the input lie apart in memory, the place of failure is found in the text that is being
parsed, at the right offset. -/
theorem C07_position (cf : Cfg) (sp : Spans) (x : Sl) (hx : Placed sp.input sp.exps x)
    (h0 : ∀ e ∈ sp.exps, 1 ≤ e.id ∧ Apart cf e.id e.full 0 sp.input)
    (h1 : sp.exps.Pairwise fun e e' => e.id ≠ e'.id ∧ Apart cf e.id e.full e'.id e'.full) :
    ∃ sp', sp.reach cf (x.ptr cf) = some (x.start, sp') ∧
      ((x.src = 0 ∧ sp'.exps = []) ∨ ∃ e es, sp'.exps = e :: es ∧ e.id = x.src ∧ e ∈ sp.exps) := by
  have key : ∀ es : List ExpSpan, Placed sp.input es x → (∀ e ∈ es, 1 ≤ e.id ∧ Apart cf e.id e.full 0 sp.input) →
      (es.Pairwise fun e e' => e.id ≠ e'.id ∧ Apart cf e.id e.full e'.id e'.full) →
      ∃ es', reachLoop cf sp.input (x.ptr cf) es = some (x.start, es') ∧
        ((x.src = 0 ∧ es' = []) ∨ ∃ e t, es' = e :: t ∧ e.id = x.src ∧ e ∈ es) := by
    intro es
    induction es with
    | nil =>
      intro hx _ _
      rcases hx with hx | ⟨e, he, _⟩
      · obtain ⟨e1, e2, e3⟩ := Sub.ptr_range (cf := cf) hx
        refine ⟨[], ?_, .inl ⟨e1, rfl⟩⟩
        unfold reachLoop
        rw [if_pos (by simpa using ⟨e2, e3⟩)]
        simp only [Sl.ptr, e1]
        congr 2
        omega
      · cases he
    | cons e es ih =>
      intro hx h0 h1
      rw [List.pairwise_cons] at h1
      by_cases hs : x.src = e.id
      · have hin : Sub x ⟨e.id, blen e.full, e.full⟩ := by
          rcases hx with hx | ⟨e', he', hx⟩
          · have := hx.1
            have := (h0 e (by simp)).1
            simp only [whole] at *
            omega
          · simp only [List.mem_cons] at he'
            rcases he' with rfl | he'
            · exact hx
            · exact absurd (hs.symm.trans hx.1) (h1.1 e' he').1
        obtain ⟨e1, e2, e3⟩ := Sub.ptr_range (cf := cf) hin
        refine ⟨e :: es, ?_, .inr ⟨e, es, rfl, hs.symm, by simp⟩⟩
        unfold reachLoop
        rw [if_pos (by simpa using ⟨e2, e3⟩)]
        simp only [Sl.ptr, hs]
        congr 2
        omega
      · have hx' : Placed sp.input es x := by
          rcases hx with hx | ⟨e', he', hx⟩
          · exact .inl hx
          · simp only [List.mem_cons] at he'
            rcases he' with rfl | he'
            · exact absurd hx.1 hs
            · exact .inr ⟨e', he', hx⟩
        obtain ⟨es', r1, r2⟩ := ih hx' (fun e' he' => h0 e' (by simp [he'])) h1.2
        have hout : ¬ (cf.addr e.id ≤ x.ptr cf ∧ x.ptr cf ≤ cf.addr e.id + blen e.full) := by
          rcases hx' with hx' | ⟨e', he', hx'⟩
          · obtain ⟨e1, e2, e3⟩ := Sub.ptr_range (cf := cf) hx'
            rcases (h0 e (by simp)).2 with h | h <;> omega
          · obtain ⟨e1, e2, e3⟩ := Sub.ptr_range (cf := cf) hx'
            rcases (h1.1 e' he').2 with h | h <;> omega
        refine ⟨es', ?_, r2.imp id fun ⟨a, b, h1, h2, h3⟩ => ⟨a, b, h1, h2, by simp [h3]⟩⟩
        unfold reachLoop
        rw [if_neg (by simpa using hout)]
        exact r1
  obtain ⟨es', r1, r2⟩ := key sp.exps hx h0 h1
  refine ⟨{ sp with exps := es' }, ?_, r2⟩
  unfold Spans.reach
  rw [r1]
  rfl

/-- Before the first error every text still to be parsed lies in the input or in an expansion of the list. -/
theorem C07_placed (cf : Cfg) (inp : Str) (its : List Item) (s : State) (h : Reached cf inp its s) (hn : NoErr its) (x : Sl)
    (A : Option AlignCount) (hx : Instr.sub x A ∈ s.stack) : Placed inp s.sp.exps x :=
  ((reached_exec h).located hn).placed x (mem_texts.2 ⟨A, hx⟩)

/-- A case of it: the report shows the failing text and the call it came from. -/
example : (run cf0 60 (State.init c!"\\def\\m{q\\err}ab\\m c")).1[3]? = some (.err .unknownPrimitive
      c!"╭─► context:\n│\n│ q\\errc\n│ ^^^^^^\n├─► which was expanded from:\n│\n│…f\\m{q\\err}ab\\m c\n│ ^^^^^^^^^^^^^^^^\n╰─────────────────") := by
  decide +kernel

/-! ## C08: limits of expansion -/

/-- At most 64 expansions are active at any time. -/
theorem C08_depth (cf : Cfg) (inp : Str) (its : List Item) (s : State) (h : Reached cf inp its s) : s.sp.exps.length ≤ 64 :=
  (reached_exec h).base.depth

/-- A number of expansions, each one performed within the limits: fewer than 64 active expansions and less than
1 MiB of text before it. -/
inductive Chain : Nat → PSt → PSt → Prop
  | nil (s : PSt) : Chain 0 s s
  | cons {n : Nat} {s s' s'' : PSt} : s.sp.exps.length < 64 → s.sp.total < 1048576 → s'.sp.total = s.sp.total + blen s'.h.content.cs →
      s'.sp.exps.length ≤ s.sp.exps.length + 1 → Chain n s' s'' → Chain (n + 1) s s''

theorem chain_of {cf : Cfg} {s s' : PSt} (h : Expands cf s s') (hl : s.sp.exps.length ≤ 64) : ∃ n, Chain n s s' ∧ n ≤ 65 ∧
    (InTop s → n + s.sp.exps.length ≤ 64) := by
  induction h with
  | refl s => exact ⟨0, .nil s, by omega, fun _ => by omega⟩
  | @step s s1 s2 h1 h2 ih =>
    have hd := h1.depth
    have hit := h1.inTop
    have hlen := h1.length
    obtain ⟨name, rest, new, consumed, start, es, len, -, -, d1, d2, hr, rfl⟩ := h1.ex
    have hsuf := (reachLoop_some hr).1.length_le
    simp only [maxExpansionDepth, maxExpansionBytes] at d1 d2
    obtain ⟨n, hn, hn1, hn2⟩ := ih (by simp only [List.length_cons]; omega)
    have hn2 := hn2 hit
    refine ⟨n + 1, .cons d1 d2 rfl (by simp only [List.length_cons]; omega) hn, ?_, fun ht => ?_⟩
    · simp only [List.length_cons] at hn2; omega
    · have := hlen ht
      simp only [List.length_cons] at hn2 this; omega

/-- Parsing at a place performs a bounded number of expansions within the limits. It then meets a token that is
not a macro (or no token), or fails, and at the limits fails with the recursion error. -/
theorem C08_expansions (cf : Cfg) (s : PSt) (hs : s.sp.exps.length ≤ 64) : ∃ n s', n ≤ 65 ∧ Chain n s s' ∧
    ((∀ name rest, token s'.h.content.cs = .ok (.cs name) rest → s'.h.macros.get name = none) ∨
     (∃ e s'', parse cf s = .err e s'') ∨ (∃ p, parse cf s = .panic p)) ∧
    (∀ name rest new k, token s'.h.content.cs = .ok (.cs name) rest → Macros.tryExpand cf s'.h.macros name rest = some (.ok new k) →
      (64 ≤ s'.sp.exps.length ∨ 1048576 ≤ s'.sp.total) → ∃ s'', parse cf s = .err .macroRecursionLimit s'') := by
  obtain ⟨s', h1, h2⟩ := parse_spec cf s
  obtain ⟨n, hn, hl, -⟩ := chain_of h1 hs
  refine ⟨n, s', hl, hn, ?_, ?_⟩
  · generalize parse cf s = r at h2
    cases h2 with
    | nothing h => exact .inl fun name rest h' => by rw [h] at h'; cases h'
    | error h _ => exact .inl fun name rest h' => by rw [h] at h'; cases h'
    | atom h hx =>
      refine .inl fun name rest h' => ?_
      rw [h] at h'
      cases h'
      have := hx name rfl
      unfold Macros.tryExpand at this
      cases hg : s'.h.macros.get name with
      | none => rfl
      | some d => rw [hg] at this; cases this
    | macroPanic _ _ => exact .inr (.inr ⟨_, rfl⟩)
    | macroError _ _ _ _ _ _ => exact .inr (.inl ⟨_, _, rfl⟩)
    | assertion _ _ _ _ _ => exact .inr (.inr ⟨_, rfl⟩)
  · intro name rest new k ht hx hlim
    generalize parse cf s = r at h2
    cases h2 with
    | nothing h => rw [h] at ht; cases ht
    | error h _ => rw [h] at ht; cases ht
    | atom h h' =>
      rw [h] at ht
      cases ht
      rw [h' name rfl] at hx
      cases hx
    | macroPanic h h' => rw [h] at ht; cases ht; rw [h'] at hx; cases hx
    | macroError h _ _ _ _ h' =>
      rw [h] at ht
      cases ht
      rcases h' with h' | h'
      · rw [h'] at hx; cases hx
      · exact ⟨_, by rw [h']⟩
    | assertion h h' _ h3 h4 =>
      simp only [maxExpansionDepth, maxExpansionBytes] at h3 h4
      omega

/-- A macro that calls itself ends in that error. -/
example : ((run cf0 100 (State.init c!"\\def\\a{\\a}\\a")).1.map fun i => match i with | .ok _ => none | .err e _ => some e) =
    [some .macroRecursionLimit] := by decide +kernel

/-- The limit also counts expansions one after the other in the same group: the 65th call fails. -/
theorem C08_sequential : ((run cf0 400 (State.init (c!"\\def\\a{x}" ++ (List.replicate 65 c!"\\a ").flatten))).1.map fun i =>
    match i with | .ok _ => none | .err e _ => some e) = List.replicate 64 none ++ [some .macroRecursionLimit] := by decide +kernel

/-! ## C10: alignments and line breaks -/

/-- Before the first error, alignments and line breaks occur only in alignment environments (possibly inside
plain braces of one), with at most the allowed number of alignments in a line. -/
theorem C10_flows_partial (cf : Cfg) (inp : Str) (n : Nat) (es : List Event) (rest : List Item)
    (h : (run cf n (State.init inp)).1 = es.map .ok ++ rest) : FlowsAllowed true es := by
  obtain ⟨s, h1, -⟩ := run_reached cf n inp
  obtain ⟨s', h2⟩ := reached_prefix h1 _ rest h
  have F := ((reached_exec h2).fine (st := false) (noErr_ok es) (by simp)).1
  have := F.acc
  rw [acc_append, emitted, events_ok] at this
  cases ha : acc false [] (es.map .ev) with
  | none => rw [ha] at this; cases this
  | some F => exact acc_flows ha

/-- For clean inputs they occur directly in the environment. -/
theorem C10_flows_clean_partial (cf : Cfg) (inp : Str) (n : Nat) (es : List Event) (rest : List Item) (hc : Clean inp)
    (h : (run cf n (State.init inp)).1 = es.map .ok ++ rest) : FlowsAllowed false es := by
  obtain ⟨s, h1, -⟩ := run_reached cf n inp
  obtain ⟨s', h2⟩ := reached_prefix h1 _ rest h
  have F := ((reached_exec h2).fine (st := true) (noErr_ok es) (fun _ => hc)).1
  have := F.acc
  rw [acc_append, emitted, events_ok] at this
  cases ha : acc true [] (es.map .ev) with
  | none => rw [ha] at this; cases this
  | some F => exact acc_flows ha

/-- A case of it. -/
example : (run cf0 60 (State.init c!"\\begin{array}{cc}a&b\\\\c\\end{array}")).1 = ([.begin_ (.array [.column .center, .column .center]),
    .content (.ordinary 'a' false), .flow .alignment, .content (.ordinary 'b' false), .flow (.newLine none []),
    .content (.ordinary 'c' false), .end_].map .ok) ++ [] := by decide +kernel

/-- Not directly in the environment for all inputs: a font command opens a group around an alignment. -/
theorem C10_false : ∃ es, Yields cf0 c!"\\begin{matrix}\\mathbf& a\\end{matrix}" (es.map .ok) ∧ ¬ FlowsAllowed false es := by
  refine ⟨[.begin_ (.matrix .center), .begin_ .normal, .stateChange (.font (some .bold)), .flow .alignment, .end_,
    .content (.ordinary 'a' false), .end_], ⟨40, by decide +kernel⟩, fun h => ?_⟩
  obtain ⟨g, k, h1, h2, -⟩ := h.1 [.begin_ (.matrix .center), .begin_ .normal, .stateChange (.font (some .bold))]
    [.end_, .content (.ordinary 'a' false), .end_] rfl
  simp [levels, levelStep, level] at h1
  rw [← h1.1] at h2
  cases h2

/-! ## C11: arrays have columns -/

theorem C11_array_column (cf : Cfg) (inp : Str) (n : Nat) (cols : List ArrayCol)
    (h : Item.ok (.begin_ (.array cols)) ∈ (run cf n (State.init inp)).1) : ∃ c ∈ cols, isColumn c = true := by
  obtain ⟨s, h1, -⟩ := run_reached cf n inp
  obtain ⟨⟨k, hk⟩, -⟩ := (reached_exec h1).deep
  rw [dep_append] at hk
  cases ha : dep 0 (emitted (run cf n (State.init inp)).1) with
  | none => rw [ha] at hk; cases hk
  | some m =>
    have := dep_array ha (.array cols) (List.mem_filterMap.2 ⟨_, h, rfl⟩)
    simpa [beginOk] using this

theorem columnOf_spec {c : Char} {col : ArrayCol} : columnOf c = some col ↔ ColumnFor c col := by
  constructor
  · intro h
    unfold columnOf at h
    split at h <;> first | cases h; constructor | cases h
  · rintro ⟨⟩ <;> rfl

theorem columns_cons (cf : Cfg) (n : Nat) (c : Char) (s : Str) (h : n + 1 < 2 ^ 16) : columns cf n (c :: s) =
    match columnOf c with
    | none => .error (.inl .argument)
    | some (.column a) => (match columns cf (n + 1) s with | .error e => .error e | .ok x => .ok (.column a :: x.1, x.2))
    | some (.separator a) => (match columns cf n s with | .error e => .error e | .ok x => .ok (.separator a :: x.1, x.2)) := by
  have h0 : ¬ ((decide (n + 1 ≥ 2 ^ 16) && cf.overflowChecks) = true) := by
    have : decide (n + 1 ≥ 2 ^ 16) = false := by simp; omega
    rw [this]; simp
  generalize hq : columns cf = q
  rw [← hq, columns, if_neg h0, hq]
  cases columnOf c with
  | none => rfl
  | some col =>
    cases col with
    | column a => simp only [Nat.mod_eq_of_lt h]; cases q (n + 1) s <;> rfl
    | separator a => simp only; cases q n s <;> rfl

/-- A column specification is accepted exactly if every character stands for an entry (and the count of columns
does not overflow in a build with checks), with the entries in order. -/
theorem C11_columns (cf : Cfg) (s : Str) (cols : List ArrayCol) (hs : s.length < 65535) :
    (∃ k, columns cf 0 s = .ok (cols, k)) ↔ ColumnsFor s cols := by
  have key : ∀ (s : Str) (cols : List ArrayCol) (n : Nat), n + s.length < 65535 →
      ((∃ k, columns cf n s = .ok (cols, k)) ↔ ColumnsFor s cols) := by
    intro s
    induction s with
    | nil =>
      intro cols n _
      constructor
      · rintro ⟨k, h⟩; cases h; exact .nil
      · rintro ⟨⟩; exact ⟨n, rfl⟩
    | cons c s ih =>
      intro cols n hn
      simp only [List.length_cons] at hn
      rw [columns_cons cf n c s (by omega)]
      cases hc : columnOf c with
      | none =>
        constructor
        · rintro ⟨k, h⟩; cases h
        · rintro ⟨⟩
          rename_i h1 h2
          rw [columnOf_spec.2 h1] at hc
          cases hc
      | some col =>
        have hb : ∃ m, m + s.length < 65535 ∧ ∀ x : Except (ErrorKind ⊕ Panic) (List ArrayCol × Nat), (match some col with
            | none => .error (.inl .argument)
            | some (.column a) => (match columns cf (n + 1) s with | .error e => .error e | .ok x => .ok (.column a :: x.1, x.2))
            | some (.separator a) => (match columns cf n s with | .error e => .error e | .ok x => .ok (.separator a :: x.1, x.2))) = x ↔
            (match columns cf m s with | .error e => .error e | .ok x => .ok (col :: x.1, x.2)) = x := by
          cases col with
          | column a => exact ⟨n + 1, by omega, fun _ => Iff.rfl⟩
          | separator a => exact ⟨n, by omega, fun _ => Iff.rfl⟩
        obtain ⟨m, hm, e⟩ := hb
        constructor
        · rintro ⟨k, h⟩
          have h := (e _).1 h
          cases hr : columns cf m s with
          | error x => rw [hr] at h; cases h
          | ok y =>
            obtain ⟨cs, k'⟩ := y
            rw [hr] at h
            cases h
            exact .cons (columnOf_spec.1 hc) ((ih cs m hm).1 ⟨_, hr⟩)
        · rintro ⟨⟩
          rename_i col' cols' h1 h2
          rw [columnOf_spec.2 h1] at hc
          cases hc
          obtain ⟨k, hk⟩ := (ih _ m hm).2 h2
          exact ⟨k, (e _).2 (by rw [hk])⟩
  exact key s cols 0 (by simpa using hs)

/-- Whatever its length, an accepted specification gives its entries in order. -/
theorem C11_columns_accepted (cf : Cfg) (s : Str) (cols : List ArrayCol) (n k : Nat) (h : columns cf n s = .ok (cols, k)) :
    ColumnsFor s cols := by
  induction s generalizing n cols k with
  | nil => cases h; exact .nil
  | cons c s ih =>
    unfold columns at h
    split at h
    · cases h
    · cases hc : columnOf c with
      | none => rw [hc] at h; cases h
      | some col =>
        rw [hc] at h
        simp only at h
        split at h
        · cases h
        · rename_i cs m hr
          cases h
          exact .cons (columnOf_spec.1 hc) (ih _ _ _ hr)

example : ColumnsFor c!"l|r" [.column .left, .separator .solid, .column .right] ∧
    (run cf0 60 (State.init c!"\\begin{array}{l|r}a\\end{array}")).1.head? =
      some (.ok (.begin_ (.array [.column .left, .separator .solid, .column .right]))) :=
  ⟨.cons .left (.cons .solid (.cons .right .nil)), by decide +kernel⟩

end PL.Props
