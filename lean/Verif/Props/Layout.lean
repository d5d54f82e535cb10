import Verif.Lemmas.Layout
import Verif.Props.Stream
set_option autoImplicit false
/-!
# Addresses in memory (C67)

`Cfg.addr` gives the address of the input and of each text made by an expansion. The parser compares addresses to find out in which text it is
(`SpanStack`). In the arena used by the code (`bumpalo`) a new text lies directly below the one before, or in another chunk.
-/
namespace PL.Props
open PL PL.Lex Spec

/-- The text with the number `k`: the input, or an expansion that is on the list of expansions at some time. -/
def Held (cf : Cfg) (inp : Str) (k : Nat) (t : Str) : Prop :=
  (k = 0 ∧ t = inp) ∨ ∃ its s e, Reached cf inp its s ∧ e ∈ s.sp.exps ∧ e.id = k ∧ e.full = t

/-- No two texts touch. -/
def Spread (cf : Cfg) (inp : Str) : Prop := ∀ i t j u, Held cf inp i t → Held cf inp j u → i ≠ j → Apart cf i t j u

/-- The input does not touch the expansions, and these do not overlap. A later one may end where an earlier one begins. -/
structure Stacked (cf : Cfg) (inp : Str) : Prop where
  input : ∀ i t, i ≠ 0 → Held cf inp i t → Apart cf i t 0 inp
  down : ∀ i t j u, i ≠ 0 → i < j → Held cf inp i t → Held cf inp j u → cf.addr j + blen u ≤ cf.addr i ∨ cf.addr i + blen t < cf.addr j

theorem Spread.stacked {cf : Cfg} {inp : Str} (h : Spread cf inp) : Stacked cf inp where
  input i t hi ht := h i t 0 inp ht (.inl ⟨rfl, rfl⟩) hi
  down i t j u _ hij ht hu := by
    rcases h i t j u ht hu (by omega) with h | h
    · exact .inr h
    · exact .inl (by omega)

theorem texts_held {cf : Cfg} {inp : Str} {its : List Item} {s : State} (h : Reached cf inp its s) :
    ∀ x A, Instr.sub x A ∈ s.stack ++ s.buf → ∃ t, Held cf inp x.src t ∧ Sub x ⟨x.src, blen t, t⟩ := by
  have next : ∀ {its s s'} {o : Option Item}, Reached cf inp its s → (∃ its', Reached cf inp its' s') →
      step cf s = (match o with | some i => .item i s' | none => .again s') →
      (∀ x A, Instr.sub x A ∈ s.stack ++ s.buf → ∃ t, Held cf inp x.src t ∧ Sub x ⟨x.src, blen t, t⟩) →
      ∀ x A, Instr.sub x A ∈ s'.stack ++ s'.buf → ∃ t, Held cf inp x.src t ∧ Sub x ⟨x.src, blen t, t⟩ := by
    intro its s s' o hr ⟨its', hr'⟩ hst ih x A hx
    rcases round_list (o := o) (reached_exec hr).base hst x A hx with h | ⟨y, B, h1, h2⟩ | ⟨e, he, hs⟩
    · exact ih x A h
    · obtain ⟨t, h3, h4⟩ := ih y B (by simp [h1])
      refine ⟨t, by rw [h2.1]; exact h3, ?_⟩
      rw [h2.1]
      exact h2.trans h4
    · refine ⟨e.full, .inr ⟨its', s', e, hr', he, hs.1.symm, rfl⟩, ?_⟩
      rw [hs.1]
      exact hs
  induction h with
  | new =>
    intro x A hx
    simp [State.init] at hx
    rw [hx.1]
    exact ⟨inp, .inl ⟨rfl, rfl⟩, Sub.refl _⟩
  | @item its s i s' h1 h2 ih => exact next (o := some i) h1 ⟨_, .item h1 h2⟩ h2 ih
  | @again its s s' h1 h2 ih => exact next (o := none) h1 ⟨_, .again h1 h2⟩ h2 ih

/-! ### Texts that do not touch -/

theorem spread_reach {cf : Cfg} {inp : Str} (hl : Spread cf inp) {its : List Item} {s : State} (h : Reached cf inp its s) {c x : Sl} {A : Option AlignCount}
    {rest : List Instr} (hs : s.stack = .sub c A :: rest) (hx : Sub x c) : reachLoop cf inp (x.ptr cf) s.sp.exps = reachId inp x s.sp.exps := by
  obtain ⟨t, h1, h2⟩ := texts_held h c A (by simp [hs])
  obtain ⟨-, r1, r2⟩ := Sub.ptr_range (cf := cf) (hx.trans h2)
  have hsrc := hx.1
  refine reach_id (fun h0 => ?_) fun e he hne => ?_
  · have := hl _ _ _ _ h1 (.inl ⟨rfl, rfl⟩) (by rw [← hsrc]; exact h0)
    unfold Apart at this
    omega
  · have := hl _ _ _ _ h1 (.inr ⟨its, s, e, h, he, rfl, rfl⟩) (by rw [← hsrc]; exact hne)
    unfold Apart at this
    omega

theorem same_step {cf cf' : Cfg} {inp : Str} (hov : cf.overflowChecks = cf'.overflowChecks) {its : List Item} {s : State} (h : Reached cf inp its s)
    (hr : ∀ c A rest x, s.stack = .sub c A :: rest → trimStart c.cs ≠ [] → Sub x c →
      reachLoop cf inp (x.ptr cf) s.sp.exps = reachLoop cf' inp (x.ptr cf') s.sp.exps) : PL.step cf s = PL.step cf' s := by
  have hb := (reached_exec h).base
  refine step_same hov (I := fun p => p.h.content.wf ∧ p.sp.input = inp ∧ ((∃ c A rest, s.stack = .sub c A :: rest ∧ trimStart c.cs ≠ [] ∧ p = startSt s c A) ∨ InNew p))
    ?_ (fun p hp => hp.1) ?_ ?_
  · intro p p' hp h1 _
    refine ⟨h1.wf, ?_, .inr h1.inNew⟩
    have := Expands.input (.step h1 (.refl _))
    rw [this]
    exact hp.2.1
  · rintro p x ⟨-, hi, ⟨c, A, rest, hs, hne, rfl⟩ | hN⟩ hx
    · rw [hi]
      exact hr c A rest x hs hne hx
    · rw [hN.reach hx, hN.reach hx]
  · intro c A rest hs hne
    exact ⟨hb.wf c A (by simp [hs]), hb.input, .inl ⟨c, A, rest, hs, hne, rfl⟩⟩

/-- If the texts do not touch, the items, the reports of errors and how the run ends do not depend on the addresses. -/
theorem C67_apart (cf cf' : Cfg) (hov : cf.overflowChecks = cf'.overflowChecks) (inp : Str) (hl : Spread cf inp) (hl' : Spread cf' inp) (n : Nat) :
    run cf n (State.init inp) = run cf' n (State.init inp) := by
  have key : ∀ n its s, Reached cf inp its s → Reached cf' inp its s → run cf n s = run cf' n s := by
    intro n
    induction n with
    | zero => intros; rfl
    | succ n ih =>
      intro its s h h'
      have e : PL.step cf s = PL.step cf' s := same_step hov h fun c A rest x hs _ hx => by
        rw [spread_reach hl h hs hx, spread_reach hl' h' hs hx]
      unfold run
      rw [e]
      cases hst : PL.step cf' s with
      | done => rfl
      | panic p => rfl
      | again s1 => exact ih _ _ (.again h (e.trans hst)) (.again h' hst)
      | item i s1 =>
        dsimp only
        rw [ih _ _ (.item h (e.trans hst)) (.item h' hst)]
  exact key n [] _ .new .new

/-- Without macro definitions they do not depend on the addresses at all. -/
theorem C67_no_macros (cf cf' : Cfg) (hov : cf.overflowChecks = cf'.overflowChecks) (inp : Str) (hd : ¬ Defines inp) (n : Nat) :
    run cf n (State.init inp) = run cf' n (State.init inp) := by
  have sp : ∀ cf, Spread cf inp := by
    intro cf i t j u h1 h2 hne
    have z : ∀ k t, Held cf inp k t → k = 0 := by
      rintro k t (⟨h, -⟩ | ⟨its, s, e, h, he, -⟩)
      · exact h
      · rw [((reached_exec h).base.nodef hd).2.1] at he
        cases he
    exact absurd ((z i t h1).trans (z j u h2).symm) hne
  exact C67_apart cf cf' hov inp (sp cf) (sp cf') n

/-! ### Texts that touch -/

theorem stacked_reach {cf : Cfg} {inp : Str} (hl : Stacked cf inp) {its : List Item} {s : State} (h : Reached cf inp its s) (hn : NoErr its)
    {c x : Sl} {A : Option AlignCount} {rest : List Instr} (hs : s.stack = .sub c A :: rest) (hne : trimStart c.cs ≠ []) (hx : Sub x c) :
    reachLoop cf inp (x.ptr cf) s.sp.exps = reachId inp x s.sp.exps := by
  have hex := reached_exec h
  have L := hex.located hn
  have P := hex.past hn c (by rw [hs]; simp [texts])
  have hwf := hex.base.wf c A (by simp [hs])
  obtain ⟨t, h1, h2⟩ := texts_held h c A (by simp [hs])
  obtain ⟨-, r1, r2⟩ := Sub.ptr_range (cf := cf) (hx.trans h2)
  have hsrc := hx.1
  refine reach_first (fun h0 => ?_) (fun e he hlt => ?_) L.ord.desc (fun e he => (L.ord.pos e he).1) ((L.placed c (by rw [hs]; simp [texts])).sub hx)
  · have := hl.input _ _ (by rw [← hsrc]; exact h0) h1
    unfold Apart at this
    omega
  · have hpos := (L.ord.pos e he).1
    have hh : Held cf inp e.id e.full := .inr ⟨its, s, e, h, he, rfl, rfl⟩
    by_cases h0 : c.src = 0
    · have hw : Sub c (whole inp) := by
        rcases L.placed c (by rw [hs]; simp [texts]) with h | ⟨e', he', h⟩
        · exact h
        · have := (L.ord.pos e' he').1
          have := h.1
          simp only at this
          omega
      obtain ⟨-, r1, r2⟩ := Sub.ptr_range (cf := cf) (hx.trans hw)
      have := hl.input _ _ (by omega) hh
      unfold Apart at this
      omega
    · have hst : 1 ≤ Sl.start c := by
        rcases P with h | h | h
        · exact absurd h h0
        · rw [h] at hne
          exact absurd rfl hne
        · exact h
      have := hx.start_le hwf
      have hp : x.ptr cf = cf.addr c.src + Sl.start x := by unfold Sl.ptr; rw [hsrc]
      have := hl.down _ _ _ _ h0 (by rw [← hsrc]; exact hlt) h1 hh
      omega

/-- If the texts lie as in the arena, then up to the first error, its report included, the items do not depend on the addresses. Missing: after an
error they do (`C67_false`). -/
theorem C67_stacked_partial (cf cf' : Cfg) (hov : cf.overflowChecks = cf'.overflowChecks) (inp : Str) (hl : Stacked cf inp) (hl' : Stacked cf' inp) (n : Nat) :
    run cf n (State.init inp) = run cf' n (State.init inp) ∨
    ∃ good e ctx r r', NoErr good ∧ (run cf n (State.init inp)).1 = good ++ .err e ctx :: r ∧ (run cf' n (State.init inp)).1 = good ++ .err e ctx :: r' := by
  have key : ∀ n its s, Reached cf inp its s → Reached cf' inp its s → NoErr its → run cf n s = run cf' n s ∨
      ∃ good e ctx r r', NoErr good ∧ (run cf n s).1 = good ++ .err e ctx :: r ∧ (run cf' n s).1 = good ++ .err e ctx :: r' := by
    intro n
    induction n with
    | zero => intros; exact .inl rfl
    | succ n ih =>
      intro its s h h' hn
      have e : PL.step cf s = PL.step cf' s := same_step hov h fun c A rest x hs hne hx => by
        rw [stacked_reach hl h hn hs hne hx, stacked_reach hl' h' hn hs hne hx]
      unfold run
      rw [e]
      cases hst : PL.step cf' s with
      | done => exact .inl rfl
      | panic p => exact .inl rfl
      | again s1 => exact ih _ _ (.again h (e.trans hst)) (.again h' hst) hn
      | item i s1 =>
        dsimp only
        cases i with
        | err k ctx => exact .inr ⟨[], k, ctx, _, _, (by intro j hj; cases hj), rfl, rfl⟩
        | ok v =>
          rcases ih _ _ (.item h (e.trans hst)) (.item h' hst) (by
            intro j hj
            rcases List.mem_append.1 hj with hj | hj
            · exact hn j hj
            · simp at hj; exact ⟨v, hj⟩) with h | ⟨good, k, ctx, r, r', g, h1, h2⟩
          · rw [h]; exact .inl rfl
          · refine .inr ⟨.ok v :: good, k, ctx, r, r', ?_, by rw [h1]; rfl, by rw [h2]; rfl⟩
            intro j hj
            rcases List.mem_cons.1 hj with rfl | hj
            · exact ⟨v, rfl⟩
            · exact g j hj
  exact key n [] _ .new .new (by intro j hj; cases hj)

/-- Up to the first error the place of a text is found in the text it belongs to, at the right offset, also if the texts touch. -/
theorem C07_touching (cf : Cfg) (inp : Str) (hl : Stacked cf inp) (its : List Item) (s : State) (h : Reached cf inp its s) (hn : NoErr its)
    (c : Sl) (A : Option AlignCount) (rest : List Instr) (hs : s.stack = .sub c A :: rest) (hne : trimStart c.cs ≠ []) (x : Sl) (hx : Sub x c) :
    ∃ sp', s.sp.reach cf (x.ptr cf) = some (Sl.start x, sp') ∧
      ((x.src = 0 ∧ sp'.exps = []) ∨ ∃ e es, sp'.exps = e :: es ∧ e.id = x.src ∧ e ∈ s.sp.exps) := by
  have hr := stacked_reach hl h hn hs hne hx
  have hi := (reached_exec h).base.input
  have L := (reached_exec h).located hn
  obtain ⟨k, es', h1, -⟩ := reach_keep (cf := cf) hx (L.placed c (by rw [hs]; simp [texts])) L.ord.desc fun e he => (L.ord.pos e he).1
  rw [hr] at h1
  have key : ∀ es k es', reachId inp x es = some (k, es') → k = Sl.start x ∧ ((x.src = 0 ∧ es' = []) ∨ ∃ e t, es' = e :: t ∧ e.id = x.src ∧ e ∈ es) := by
    intro es
    induction es with
    | nil =>
      intro k es' h
      unfold reachId at h
      split at h
      · rename_i hc
        cases h
        exact ⟨rfl, .inl ⟨hc.1, rfl⟩⟩
      · cases h
    | cons e es ih =>
      intro k es' h
      unfold reachId at h
      split at h
      · rename_i hc
        cases h
        exact ⟨rfl, .inr ⟨e, es, rfl, hc.1.symm, by simp⟩⟩
      · obtain ⟨h1, h2⟩ := ih k es' h
        exact ⟨h1, h2.imp id fun ⟨a, b, h3, h4, h5⟩ => ⟨a, b, h3, h4, by simp [h5]⟩⟩
  obtain ⟨rfl, h2⟩ := key _ _ _ h1
  refine ⟨{ s.sp with exps := es' }, ?_, h2⟩
  unfold Spans.reach
  rw [hi, hr, h1, ← hi]
  rfl

/-! ### Cases -/

/-- The states of a run. -/
def visits (cf : Cfg) : Nat → State → List State
  | 0, s => [s]
  | n + 1, s => s :: (match PL.step cf s with
    | .item _ s' => visits cf n s'
    | .again s' => visits cf n s'
    | _ => [])

/-- The run is over. -/
def over (cf : Cfg) (n : Nat) (s : State) : Bool := match (run cf n s).2 with
  | .more _ => false
  | _ => true

theorem visits_closed {cf : Cfg} {s s' : State} : ∀ {n : Nat} {s0 : State}, over cf n s0 = true → s ∈ visits cf n s0 →
    ((∃ i, PL.step cf s = .item i s') ∨ PL.step cf s = .again s') → s' ∈ visits cf n s0
  | 0, s0, ho, _, _ => by unfold over run at ho; cases ho
  | n + 1, s0, ho, hm, hs => by
    unfold visits at hm ⊢
    unfold over run at ho
    have self : ∀ (m : Nat) (t : State), t ∈ visits cf m t := fun m t => by cases m <;> simp [visits]
    rcases List.mem_cons.1 hm with rfl | hm
    · rcases hs with ⟨i, hs⟩ | hs
      · rw [hs]; exact List.mem_cons_of_mem _ (self n s')
      · rw [hs]; exact List.mem_cons_of_mem _ (self n s')
    · cases h0 : PL.step cf s0 with
      | done => rw [h0] at hm; cases hm
      | panic p => rw [h0] at hm; cases hm
      | item i s1 =>
        rw [h0] at hm ho
        exact List.mem_cons_of_mem _ (visits_closed (n := n) ho hm hs)
      | again s1 =>
        rw [h0] at hm ho
        exact List.mem_cons_of_mem _ (visits_closed (n := n) ho hm hs)

theorem reached_visits {cf : Cfg} {inp : Str} {n : Nat} (ho : over cf n (State.init inp) = true) {its : List Item} {s : State}
    (h : Reached cf inp its s) : s ∈ visits cf n (State.init inp) := by
  induction h with
  | new => cases n <;> simp [visits]
  | item _ h ih => exact visits_closed ho ih (.inl ⟨_, h⟩)
  | again _ h ih => exact visits_closed ho ih (.inr h)

/-- The texts of a run that is over, with their numbers and lengths. -/
def heldList (cf : Cfg) (n : Nat) (inp : Str) : List (Nat × Nat) :=
  (0, blen inp) :: (visits cf n (State.init inp)).flatMap fun s => s.sp.exps.map fun e => (e.id, blen e.full)

theorem held_list {cf : Cfg} {inp : Str} {n : Nat} (ho : over cf n (State.init inp) = true) {k : Nat} {t : Str} (h : Held cf inp k t) :
    (k, blen t) ∈ heldList cf n inp := by
  rcases h with ⟨rfl, rfl⟩ | ⟨its, s, e, hr, he, rfl, rfl⟩
  · simp [heldList]
  · unfold heldList
    exact List.mem_cons_of_mem _ (List.mem_flatMap.2 ⟨s, reached_visits ho hr, List.mem_map.2 ⟨e, he, rfl⟩⟩)

theorem stacked_of {cf : Cfg} {inp : Str} (n : Nat) (ho : over cf n (State.init inp) = true)
    (h : ∀ a ∈ heldList cf n inp, a.1 ≠ 0 → (cf.addr a.1 + a.2 < cf.addr 0 ∨ cf.addr 0 + blen inp < cf.addr a.1) ∧
      ∀ b ∈ heldList cf n inp, a.1 < b.1 → cf.addr b.1 + b.2 ≤ cf.addr a.1 ∨ cf.addr a.1 + a.2 < cf.addr b.1) : Stacked cf inp where
  input _ _ hi ht := (h _ (held_list ho ht) hi).1
  down _ _ _ _ hi hij ht hu := (h _ (held_list ho ht) hi).2 _ (held_list ho hu) hij

theorem spread_of {cf : Cfg} {inp : Str} (n : Nat) (ho : over cf n (State.init inp) = true)
    (h : ∀ a ∈ heldList cf n inp, ∀ b ∈ heldList cf n inp, a.1 ≠ b.1 → cf.addr a.1 + a.2 < cf.addr b.1 ∨ cf.addr b.1 + b.2 < cf.addr a.1) : Spread cf inp :=
  fun _ _ _ _ ht hu hne => h _ (held_list ho ht) _ (held_list ho hu) hne

/-- Texts of 16 and 3 bytes in an arena: the second ends where the first begins. -/
def arena : Cfg := ⟨false, fun k => match k with
  | 0 => 0
  | 1 => 1000
  | 2 => 997
  | k => 1000000 * k⟩

/-- After an error the items depend on the addresses, even if the texts lie as in the arena: a text of an expansion that is not on the list any more
is found to be the beginning of the one next to it, or it is not found and the parser panics. -/
theorem C67_false : ∃ inp cf cf' n, cf.overflowChecks = cf'.overflowChecks ∧ Stacked cf inp ∧ Stacked cf' inp ∧
    (run cf n (State.init inp)).2 = .panic .assertion ∧ (run cf' n (State.init inp)).2 = .done :=
  ⟨c!"\\def\\m{\\frac{\\t}\\r}\\def\\k{{}}\\m\\r\\k\\", cf1, arena, 40, rfl, stacked_of 40 (by decide +kernel) (by decide +kernel),
    stacked_of 40 (by decide +kernel) (by decide +kernel), by decide +kernel, by decide +kernel⟩

/-- Above the first text instead of below it, the second makes the report of the first error differ: this is why the order of the arena matters. -/
theorem C67_upward : ∃ inp cf n, cf.overflowChecks = cf1.overflowChecks ∧ (run cf n (State.init inp)).1 ≠ (run cf1 n (State.init inp)).1 ∧
    over cf n (State.init inp) = true ∧
    ∀ a ∈ heldList cf n inp, ∀ b ∈ heldList cf n inp, a.1 ≠ b.1 → cf.addr a.1 + a.2 ≤ cf.addr b.1 ∨ cf.addr b.1 + b.2 ≤ cf.addr a.1 :=
  ⟨c!"\\def\\m{{\\n}\\r}\\def\\n{a}\\m", ⟨false, fun k => match k with | 0 => 0 | 1 => 1000 | 2 => 1006 | k => 1000000 * k⟩, 40, rfl,
    by decide +kernel, by decide +kernel, by decide +kernel⟩

/-- A text with two expansions and an error, for which the hypotheses of `C67_apart` and of `C67_stacked_partial` hold. -/
example : Spread cf1 c!"\\def\\m{{\\n}\\r}\\def\\n{a}\\m" ∧
    Spread ⟨false, fun k => 5000 + 100 * k⟩ c!"\\def\\m{{\\n}\\r}\\def\\n{a}\\m" ∧
    Stacked ⟨false, fun k => match k with | 0 => 0 | 1 => 1000 | 2 => 999 | k => 1000000 * k⟩ c!"\\def\\m{{\\n}\\r}\\def\\n{a}\\m" ∧
    (run cf1 40 (State.init c!"\\def\\m{{\\n}\\r}\\def\\n{a}\\m")).1.length = 4 ∧
    ((1, 6) ∈ heldList cf1 40 c!"\\def\\m{{\\n}\\r}\\def\\n{a}\\m" ∧ (2, 1) ∈ heldList cf1 40 c!"\\def\\m{{\\n}\\r}\\def\\n{a}\\m") :=
  ⟨spread_of 40 (by decide +kernel) (by decide +kernel), spread_of 40 (by decide +kernel) (by decide +kernel),
    stacked_of 40 (by decide +kernel) (by decide +kernel), by decide +kernel, by decide +kernel⟩

end PL.Props
