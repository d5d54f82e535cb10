import Verif.Props.Mistakes
import Verif.Lemmas.Level
import Verif.Lemmas.Roomier
import Verif.Props.Layout
set_option autoImplicit false
/-!
# Executions in step, if the texts lie as in the arena
-/
namespace PL.Props
open PL PL.Lex Spec

variable {cf : Cfg}

theorem reach_ids {i : Str} (hl : Stacked cf i) {its : List Item} {s : State} (hs : Exec cf (State.init i) its s) (hn : NoErr its) {c : Sl} {A : Option AlignCount}
    {rest : List Instr} (h : s.stack = .sub c A :: rest) (hne : trimStart c.cs ≠ []) {x : Sl} (hx : Sub x c) :
    ∃ k es, reachLoop cf s.sp.input (x.ptr cf) s.sp.exps = some (k, es) ∧ es.map ExpSpan.id <:+ s.sp.exps.map ExpSpan.id ∧
      ((x.src = 0 ∧ es.map ExpSpan.id = []) ∨ ∃ l, es.map ExpSpan.id = x.src :: l ∧ x.src ≠ 0) := by
  obtain ⟨sp1, r1, q1⟩ := C07_touching cf i hl its s (reached_iff.2 hs) hn c A rest h hne x hx
  have L := hs.located hn
  unfold Spans.reach at r1
  cases hr : reachLoop cf s.sp.input (x.ptr cf) s.sp.exps with
  | none => rw [hr] at r1; cases r1
  | some p =>
    obtain ⟨k, es⟩ := p
    rw [hr] at r1
    have e : es = sp1.exps := by
      have := congrArg (Option.map fun y => y.2.exps) r1
      simpa using this
    refine ⟨k, es, rfl, List.IsSuffix.map _ (reachLoop_some hr).1, ?_⟩
    rcases q1 with ⟨h0, h1⟩ | ⟨e1, es1, h1, h2, h3⟩
    · exact .inl ⟨h0, by rw [e, h1]; rfl⟩
    · refine .inr ⟨es1.map ExpSpan.id, by rw [e, h1, ← h2]; rfl, ?_⟩
      have := (L.ord.pos e1 h3).1
      omega

theorem abreast_start {i j : Str} (hl : Stacked cf i) (hl' : Stacked cf j) {its its' : List Item} {s t : State} (hs : Exec cf (State.init i) its s) (hn : NoErr its)
    (ht : Exec cf (State.init j) its' t) (hn' : NoErr its') (hL : Level s.sp t.sp) {c c' : Sl} {A : Option AlignCount} {rest rest' : List Instr}
    (h : s.stack = .sub c A :: rest) (h' : t.stack = .sub c' A :: rest') (hc : c'.src = c.src) (hne : trimStart c.cs ≠ []) (hne' : trimStart c'.cs ≠ []) :
    Abreast cf (startSt s c A) (startSt t c' A) := by
  refine ⟨hL, fun a b ha hb => ?_⟩
  have ha : Sub a c := ha
  have hb : Sub b c' := hb
  obtain ⟨k, es, r1, s1, q1⟩ := reach_ids hl hs hn h hne ha
  obtain ⟨k', es', r2, s2, q2⟩ := reach_ids hl' ht hn' h' hne' hb
  refine ⟨k, es, k', es', r1, r2, ?_⟩
  have hsrc : b.src = a.src := hb.1.trans (hc.trans ha.1.symm)
  rw [← hL.ids] at s2
  rw [hsrc] at q2
  have hd : (s.sp.exps.map ExpSpan.id).Pairwise (fun a b => b < a) := List.pairwise_map.2 (hs.located hn).ord.desc
  rcases q1 with ⟨h0, h1⟩ | ⟨l, h1, h0⟩ <;> rcases q2 with ⟨h0', h1'⟩ | ⟨l', h1', h0'⟩
  · rw [h1, h1']
  · exact absurd h0 h0'
  · exact absurd h0' h0
  · rw [h1] at s1
    rw [h1'] at s2
    rw [h1, h1', suffix_head hd s1 s2]

theorem step_march {i j : Str} (hl : Stacked cf i) (hl' : Stacked cf j) {its its' : List Item} {s t : State} (hs : Exec cf (State.init i) its s) (hn : NoErr its)
    (ht : Exec cf (State.init j) its' t) (hn' : NoErr its') (h : Marching cf s t) {s' : State} (hst : PL.step cf s = .again s' ∨ ∃ e, PL.step cf s = .item (.ok e) s') :
    OnStep cf (PL.step cf s) (PL.step cf t) := by
  refine step_marching h hst fun c A rest c' rest' g1 g2 g3 g4 => abreast_start hl hl' hs hn ht hn' h.level g1 g2 g3 g4 ?_
  have := h.stack
  rw [g1, g2] at this
  injection this with h5 h6
  injection h5 with h7
  rw [show c'.cs = c.cs from show c'.pin.cs = c.pin.cs from congrArg Sl.cs h7]
  exact g4

/-- What follows after a step taken together. -/
theorem run_onStep {n : Nat} {s t : State} (h : OnStep cf (PL.step cf s) (PL.step cf t)) {es : List Item} (hr : run cf (n + 1) s = (es, .done)) (hes : NoErr es)
    {i j : Str} {its its' : List Item} (hs : Exec cf (State.init i) its s) (hn : NoErr its) (ht : Exec cf (State.init j) its' t) (hn' : NoErr its')
    (hk : ∀ {its its' es : List Item} {s t : State}, Exec cf (State.init i) its s → NoErr its → Exec cf (State.init j) its' t → NoErr its' → Marching cf s t →
      run cf n s = (es, .done) → NoErr es → run cf n t = (es, .done)) : run cf (n + 1) t = (es, .done) := by
  rw [run] at hr ⊢
  generalize e1 : PL.step cf s = a at h hr
  generalize e2 : PL.step cf t = b at h
  cases h with
  | again h => exact hk (hs.again e1) hn (ht.again e2) hn' h hr hes
  | @item e s1 t1 h =>
    simp only [Prod.mk.injEq] at hr ⊢
    have one : NoErr [.ok e] := fun x hx => ⟨e, by simpa using hx⟩
    have := hk (es := (run cf n s1).1) (hs.item e1) (noErr_append.2 ⟨hn, one⟩) (ht.item e2) (noErr_append.2 ⟨hn', one⟩) h (Prod.ext rfl hr.2)
      (fun x hx => hes x (by rw [← hr.1]; simp [hx]))
    rw [this]
    exact ⟨hr.1, rfl⟩

theorem run_marching {i j : Str} (hl : Stacked cf i) (hl' : Stacked cf j) : ∀ (n : Nat) {its its' es : List Item} {s t : State}, Exec cf (State.init i) its s → NoErr its →
    Exec cf (State.init j) its' t → NoErr its' → Marching cf s t → run cf n s = (es, .done) → NoErr es → run cf n t = (es, .done)
  | 0, _, _, _, _, _, _, _, _, _, _, hr, _ => by cases hr
  | n + 1, its, its', es, s, t, hs, hn, ht, hn', h, hr, hes => by
    cases hst : PL.step cf s with
    | done =>
      have h0 : s.stack = [] := by
        unfold PL.step at hst
        cases hss : s.stack with
        | nil => rfl
        | cons x r =>
          exfalso
          rw [hss] at hst
          cases x with
          | ev e => cases hst
          | sub c A =>
            dsimp only at hst
            repeat' split at hst
            all_goals cases hst
      have h1 : t.stack = [] := by
        have := h.stack
        rw [h0] at this
        exact List.map_eq_nil_iff.1 this
      rw [run, hst] at hr
      have : PL.step cf t = .done := by unfold PL.step; rw [h1]
      rw [run, this]
      exact hr
    | panic p => rw [run, hst] at hr; cases hr
    | again s1 => exact run_onStep (step_march hl hl' hs hn ht hn' h (.inl hst)) hr hes hs hn ht hn' (run_marching hl hl' n)
    | item i s1 =>
      have : ∃ e, i = .ok e := by
        rw [run, hst] at hr
        simp only [Prod.mk.injEq] at hr
        exact hes i (by rw [← hr.1]; simp)
      obtain ⟨e, rfl⟩ := this
      exact run_onStep (step_march hl hl' hs hn ht hn' h (.inr ⟨e, hst⟩)) hr hes hs hn ht hn' (run_marching hl hl' n)

theorem first_step {n : Nat} {s : State} {es : List Item} (hr : run cf (n + 1) s = (es, .done)) (hes : NoErr es) (hne : s.stack ≠ []) :
    ∃ s', PL.step cf s = .again s' ∨ ∃ e, PL.step cf s = .item (.ok e) s' := by
  rw [run] at hr
  cases hst : PL.step cf s with
  | done =>
    exfalso
    unfold PL.step at hst
    cases hss : s.stack with
    | nil => exact hne hss
    | cons x r =>
      rw [hss] at hst
      cases x with
      | ev e => cases hst
      | sub c A =>
        dsimp only at hst
        repeat' split at hst
        all_goals cases hst
  | panic p => rw [hst] at hr; cases hr
  | again s1 => exact ⟨s1, .inl rfl⟩
  | item i s1 =>
    rw [hst] at hr
    simp only [Prod.mk.injEq] at hr
    obtain ⟨e, rfl⟩ := hes i (by rw [← hr.1]; simp)
    exact ⟨s1, .inr ⟨e, rfl⟩⟩

theorem src_zero {i : Str} {its : List Item} {c : Sl} {A : Option AlignCount} {B b : List Instr} {D : Macros.Ctx} (h : Exec cf (State.init i) its ⟨.sub c A :: B, b, D, Spans.init i⟩)
    (hn : NoErr its) : c.src = 0 := by
  rcases (h.located hn).placed c (by simp [texts]) with h1 | ⟨e, h1, -⟩
  · exact h1.1
  · cases h1

/-! ### With more macros -/

theorem exec_roomier {M' : Macros.Ctx} (hU : Idle M') {i j : Str} (hl : Stacked cf i) (hl' : Stacked cf j) {its its' es : List Item} {s s' t : State}
    (hs : Exec cf (State.init i) its s) (hn : NoErr its) (ht : Exec cf (State.init j) its' t) (hn' : NoErr its') (h : Roomier M' s t) (he : Exec cf s es s') (hes : NoErr es)
    (hc : Clear M' s'.macros) : ∃ t', Exec cf t es t' ∧ Roomier M' s' t' := by
  have hM : ∀ {es s1 t1}, NoErr es → Exec cf s es s1 → Exec cf t es t1 → Roomier M' s1 t1 → ∀ c A rest c' rest', s1.stack = .sub c A :: rest → t1.stack = .sub c' A :: rest' →
      c'.src = c.src → trimStart c.cs ≠ [] → Abreast cf (startSt s1 c A) (startSt t1 c' A) := by
    intro es s1 t1 h0 h1 h2 h3 c A rest c' rest' g1 g2 g3 g4
    refine abreast_start hl hl' (hs.trans h1) (noErr_append.2 ⟨hn, h0⟩) (ht.trans h2) (noErr_append.2 ⟨hn', h0⟩) h3.level g1 g2 g3 g4 ?_
    have := h3.stack
    rw [g1, g2] at this
    injection this with h5 h6
    injection h5 with h7
    rw [show c'.cs = c.cs from show c'.pin.cs = c.pin.cs from congrArg Sl.cs h7]
    exact g4
  induction he with
  | init => exact ⟨t, .init, h⟩
  | @item es s1 it s2 h1 hst ih =>
    have hes1 : NoErr es := fun x hx => hes x (by simp [hx])
    obtain ⟨e, rfl⟩ := hes it (by simp)
    obtain ⟨t1, h2, h3⟩ := ih hes1 (hc.back (step_grows (.inr ⟨e, hst⟩)))
    have h4 := (step_ahead hU h3 (.inr ⟨e, hst⟩)).2 (hM hes1 h1 h2 h3) hc
    rw [hst] at h4
    generalize hst' : PL.step cf t1 = w at h4
    cases h4 with
    | item hw => exact ⟨_, h2.item hst', hw⟩
  | @again es s1 s2 h1 hst ih =>
    obtain ⟨t1, h2, h3⟩ := ih hes (hc.back (step_grows (.inl hst)))
    have h4 := (step_ahead hU h3 (.inl hst)).2 (hM hes h1 h2 h3) hc
    rw [hst] at h4
    generalize hst' : PL.step cf t1 = w at h4
    cases h4 with
    | again hw => exact ⟨_, h2.again hst', hw⟩

/-- The same after leading white space. -/
theorem exec_roomier_text {M' : Macros.Ctx} (hU : Idle M') {i j : Str} (hl : Stacked cf i) (hl' : Stacked cf j) {c c' : Sl} {D : Macros.Ctx}
    (hs : Exec cf (State.init i) [] ⟨[.sub c none], [], D, Spans.init i⟩) (ht : Exec cf (State.init j) [] ⟨[.sub c' none], [], D ++ M', Spans.init j⟩)
    (hcs : trimStart c'.cs = trimStart c.cs) {es : List Item} {s' : State} (he : Exec cf ⟨[.sub c none], [], D, Spans.init i⟩ es s') (hes : NoErr es) (h0 : s'.stack = [])
    (hc : Clear M' s'.macros) : ∃ t', Exec cf ⟨[.sub c' none], [], D ++ M', Spans.init j⟩ es t' ∧ Roomier M' s' t' := by
  have nil : NoErr [] := fun _ h => by cases h
  have e1 := step_trim (cf := cf) (s := ⟨[], [], D, Spans.init i⟩) (c := c) (A := none) (B := [])
  have e2 := step_trim (cf := cf) (s := ⟨[], [], D ++ M', Spans.init j⟩) (c := c') (A := none) (B := [])
  dsimp only at e1 e2
  have z := src_zero hs nil
  have z' := src_zero ht nil
  have hR : Roomier M' ⟨[.sub { c with cs := trimStart c.cs } none], [], D, Spans.init i⟩ ⟨[.sub { c' with cs := trimStart c'.cs } none], [], D ++ M', Spans.init j⟩ :=
    ⟨by simp [Instr.pin, Sl.pin, z, z', hcs], rfl, rfl, ⟨rfl, rfl, rfl⟩⟩
  have first : ∀ {s1}, (PL.step cf ⟨[.sub c none], [], D, Spans.init i⟩ = .again s1 ∨ ∃ e, PL.step cf ⟨[.sub c none], [], D, Spans.init i⟩ = .item (.ok e) s1) → Clear M' s1.macros →
      StepRoomier M' (PL.step cf ⟨[.sub c none], [], D, Spans.init i⟩) (PL.step cf ⟨[.sub c' none], [], D ++ M', Spans.init j⟩) := by
    intro s1 hst hcl
    rw [← e1] at hst
    have hO := (step_ahead hU hR hst).2 (by
      intro d A rest d' rest' g1 g2 g3 g4
      injection g1 with g1 _
      injection g2 with g2 _
      injection g1 with g1 g5
      injection g2 with g2 _
      subst g1 g2 g5
      have n1 : trimStart c.cs ≠ [] := by intro h; rw [h] at g4; exact g4 rfl
      have n2 : trimStart c'.cs ≠ [] := by rw [hcs]; exact n1
      have h0 := abreast_start hl hl' hs nil ht nil ⟨rfl, rfl, rfl⟩ rfl rfl (z'.trans z.symm) n1 n2
      exact ⟨h0.level, fun a b ha hb => h0.found a b (Sub.trans ha ((Sub.refl c).suffix (trimStart_suffix _))) (Sub.trans hb ((Sub.refl c').suffix (trimStart_suffix _)))⟩) hcl
    rw [e1, e2] at hO
    exact hO
  rcases he.split with ⟨rfl, rfl⟩ | ⟨s1, h1, h2⟩ | ⟨it, s1, es', h1, h2, rfl⟩
  · cases h0
  · have hO := first (.inl h1) (hc.back (exec_grows h2 hes))
    rw [h1] at hO
    generalize hst' : PL.step cf ⟨[.sub c' none], [], D ++ M', Spans.init j⟩ = w at hO
    cases hO with
    | again hw =>
      obtain ⟨t', h3, h4⟩ := exec_roomier hU hl hl' (hs.again h1) nil (ht.again hst') nil hw h2 hes hc
      exact ⟨t', (Exec.init.again hst').trans h3, h4⟩
  · obtain ⟨e, rfl⟩ := hes it (by simp)
    have hes' : NoErr es' := fun x hx => hes x (by simp [hx])
    have one : NoErr [.ok e] := fun x hx => ⟨e, by simpa using hx⟩
    have hO := first (.inr ⟨e, h1⟩) (hc.back (exec_grows h2 hes'))
    rw [h1] at hO
    generalize hst' : PL.step cf ⟨[.sub c' none], [], D ++ M', Spans.init j⟩ = w at hO
    cases hO with
    | item hw =>
      obtain ⟨t', h3, h4⟩ := exec_roomier hU hl hl' (hs.item h1) one (ht.item hst') one hw h2 hes' hc
      exact ⟨t', (Exec.init.item hst').trans h3, h4⟩

end PL.Props
