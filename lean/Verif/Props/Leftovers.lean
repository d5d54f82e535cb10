import Verif.Lemmas.Staged
import Verif.Props.Recovery
import Verif.Props.Effect
set_option autoImplicit false
/-!
# After an error: what the failed element leaves (C46, C62)

An element that fails may have staged instructions already. They stay until an element of some text succeeds, and come out before it (or after the event that
announces its scripts). If there is none, they are lost.
-/
namespace PL.Props
open PL PL.Lex Spec PL.Formula

variable {cf : Cfg}

/-- `b` comes before the instructions, or after the script event that they start with. -/
inductive Ahead (b : List Instr) : List Instr → List Instr → Prop
  | first {l} : Ahead b l (b ++ l)
  | script {ty p l} : Ahead b (.ev (.script ty p) :: l) (.ev (.script ty p) :: (b ++ l))

/-- Every result satisfies `Q`. -/
def Only {α : Type} (Q : α → Prop) (m : H α) : Prop := ∀ s a s', m s = .ok a s' → Q a

theorem Only.bind {α β : Type} {Q : β → Prop} {m : H α} {f : α → H β} (h : ∀ a, Only Q (f a)) : Only Q (m >>= f) := by
  intro s b s' e
  rw [M.run_bind] at e
  cases hm : m s with
  | ok a s1 => rw [hm] at e; exact h a s1 b s' e
  | err k s1 => rw [hm] at e; cases e
  | panic p => rw [hm] at e; cases e
theorem Only.pure {α : Type} {Q : α → Prop} {a : α} (h : Q a) : Only Q (Pure.pure a : H α) := by
  intro s b s' e; cases e; exact h
theorem Only.fail {α : Type} {Q : α → Prop} (k : ErrorKind) : Only Q (M.fail k : H α) := by intro s b s' e; cases e
theorem Only.ite {α : Type} {Q : α → Prop} {c : Prop} [Decidable c] {a b : H α} (h1 : Only Q a) (h2 : Only Q b) : Only Q (if c then a else b) := by
  split
  exacts [h1, h2]

theorem scripts_event (rec : HTok → H PUnit) : Only (fun o => ∀ d, o = some d → ∃ ty p, d.event = .script ty p) (scripts rec) := by
  unfold scripts
  refine Only.bind fun st => Only.ite (Only.pure (by simp)) ?_
  refine Only.bind fun _ => Only.bind fun _ => Only.bind fun s => ?_
  obtain ⟨⟨src, stop, cs⟩, x2, x3, x4, x5, x6, x7, x8⟩ := s
  dsimp only
  cases cs with
  | nil => exact Only.pure (by simp)
  | cons c rest =>
    refine Only.ite ?_ (Only.pure (by simp))
    refine Only.bind fun _ => Only.bind fun a => Only.bind fun _ => Only.bind fun s => ?_
    have last : ∀ f : HSt → Desc, (∀ x, ∃ ty p, (f x).event = .script ty p) →
        Only (fun o => ∀ d, o = some d → ∃ ty p, d.event = .script ty p) (do let s' ← M.get; return some (f s') : H (Option Desc)) := by
      intro f hf
      refine Only.bind fun s' => Only.pure ?_
      intro d h; cases h; exact hf s'
    refine Only.ite ?_ (Only.ite (Only.fail _) (last _ fun x => ⟨_, _, rfl⟩))
    refine Only.bind fun _ => Only.bind fun a => Only.bind fun _ => Only.bind fun t => ?_
    show Only _ (match t.content.cs.head? with | some '_' => _ | some '^' => _ | _ => _)
    split
    · exact Only.fail _
    · exact Only.fail _
    · exact last _ fun x => ⟨_, _, rfl⟩

theorem atom_event (t : HTok) : Only (fun o => ∀ d, o = some d → ∃ ty p, d.event = .script ty p) (atom cf t) :=
  Only.bind fun _ => Only.bind fun _ => Only.bind fun _ => scripts_event _

theorem parseLoop_event (n : Nat) : ∀ {s s' : PSt} {d : Desc}, parseLoop cf n s = .ok (some d) s' → ∃ ty p, d.event = .script ty p := by
  induction n with
  | zero => intro s s' d h; cases h
  | succ n ih =>
    intro s s' d h
    have key : ∀ (t : HTok) (x : PSt), liftH (atom cf t) x = .ok (some d) s' → ∃ ty p, d.event = .script ty p := by
      intro t x hx
      unfold liftH at hx
      cases ha : atom cf t x.h with
      | ok o y => rw [ha] at hx; cases hx; exact atom_event t _ _ _ ha d rfl
      | err k y => rw [ha] at hx; cases hx
      | panic p => rw [ha] at hx; cases hx
    unfold parseLoop at h
    dsimp only at h
    cases ht : token s.h.content.cs with
    | panic p => rw [ht] at h; cases h
    | err e rest => rw [ht] at h; dsimp only at h; split at h <;> cases h
    | ok t rest =>
      rw [ht] at h
      cases t with
      | chr c r => exact key _ _ h
      | cs name =>
        dsimp only at h
        cases hm : Macros.tryExpand cf s.h.macros name rest with
        | none => rw [hm] at h; exact key _ _ h
        | some x =>
          rw [hm] at h
          cases x with
          | panic p => cases h
          | err e => dsimp only at h; split at h <;> cases h
          | ok new consumed =>
            dsimp only at h
            split at h
            · cases h
            · split at h
              · cases h
              · exact ih h

/-- The step of a state in which something is staged is that of the same state without it: the same item, and it stays staged; or if an element of a text
succeeds, it comes before what the element stands for. -/
theorem C46_staged (cf : Cfg) (s : State) (b : List Instr) (hb : s.buf = []) : match step cf s with
    | .done => step cf { s with buf := b } = .done
    | .panic p => step cf { s with buf := b } = .panic p
    | .item i s' => step cf { s with buf := b } = .item i { s' with buf := b ++ s'.buf }
    | .again s' => (∃ c A rest, s.stack = .sub c A :: rest ∧ trimStart c.cs = [] ∧ step cf { s with buf := b } = .again { s' with buf := b ++ s'.buf }) ∨
      (∃ c A rest l, s.stack = .sub c A :: rest ∧ trimStart c.cs ≠ [] ∧ step cf { s with buf := b } = .again { s' with stack := l } ∧ Ahead b s'.stack l) := by
  have h := step_pre (cf := cf) (pb := b) s
  have e : s.pre b = { s with buf := b } := by unfold State.pre; rw [hb, List.append_nil]
  rw [e] at h
  cases hst : step cf s with
  | done => rw [hst] at h; exact h
  | panic p => rw [hst] at h; exact h
  | item i s' => rw [hst] at h; exact h
  | again s' =>
    rw [hst] at h
    rcases h with h | ⟨c, A, rest, h1, h2, d, st, l, h3, h4, h5⟩
    · exact .inl h
    · refine .inr ⟨c, A, rest, l, h1, h2, h4, ?_⟩
      generalize hl : s'.stack = m at h5
      cases h5 with
      | plain => exact .first
      | @script d l' =>
        obtain ⟨ty, p, he⟩ := parseLoop_event _ h3
        rw [he]
        exact .script

/-- If nothing but white space is left after an error, then what is staged is lost. -/
theorem C46_lost (cf : Cfg) (inp : Str) (its : List Item) (e : ErrorKind) (ctx : Str) (s : State) (h : Reached cf inp (its ++ [.err e ctx]) s) (c : Sl)
    (A : Option AlignCount) (hs : s.stack = [.sub c A]) (hc : trimStart c.cs = []) : Yields cf inp (its ++ [.err e ctx]) := by
  refine exec_yields ((reached_exec h).again (s' := ⟨[], s.buf, s.macros, s.sp⟩) ?_) rfl
  unfold step
  rw [hs]
  simp only
  rw [if_pos (by simp [hc])]

theorem exec_front {s s' : State} {its : List Item} (h : Exec cf s its s') : (its = [] ∧ s' = s) ∨ (∃ s1, step cf s = .again s1 ∧ Exec cf s1 its s') ∨
    ∃ i r s1, its = i :: r ∧ step cf s = .item i s1 ∧ Exec cf s1 r s' := by
  induction h with
  | init => exact .inl ⟨rfl, rfl⟩
  | @item its s1 i s2 _ h ih =>
    rcases ih with ⟨rfl, rfl⟩ | ⟨s3, h1, h2⟩ | ⟨j, r, s3, rfl, h1, h2⟩
    · exact .inr (.inr ⟨i, [], s2, rfl, h, .init⟩)
    · exact .inr (.inl ⟨s3, h1, h2.item h⟩)
    · exact .inr (.inr ⟨j, r ++ [i], s3, rfl, h1, h2.item h⟩)
  | @again its s1 s2 _ h ih =>
    rcases ih with ⟨rfl, rfl⟩ | ⟨s3, h1, h2⟩ | ⟨j, r, s3, rfl, h1, h2⟩
    · exact .inr (.inl ⟨s2, h, .init⟩)
    · exact .inr (.inl ⟨s3, h1, h2.again h⟩)
    · exact .inr (.inr ⟨j, r, s3, rfl, h1, h2.again h⟩)

theorem step_empty {s s' : State} (hb : s.buf = []) (h : (∃ e, step cf s = .item (.ok e) s') ∨ step cf s = .again s') : s'.buf = [] := by
  unfold step at h
  split at h
  · rcases h with ⟨e, h⟩ | h <;> cases h
  · rcases h with ⟨e, h⟩ | h <;> cases h; exact hb
  · split at h
    · rcases h with ⟨e, h⟩ | h <;> cases h; exact hb
    · split at h
      · rcases h with ⟨e, h⟩ | h <;> cases h
      · split at h <;> rcases h with ⟨e, h⟩ | h <;> cases h
      · split at h <;> rcases h with ⟨e, h⟩ | h <;> cases h
        rfl

theorem exec_empty {s s' : State} {its : List Item} (h : Exec cf s its s') (hn : NoErr its) (hb : s.buf = []) : s'.buf = [] := by
  induction h with
  | init => exact hb
  | @item its s1 i s2 _ h ih =>
    obtain ⟨e, rfl⟩ := hn i (by simp)
    exact step_empty (ih fun j hj => hn j (by simp [hj])) (.inl ⟨e, h⟩)
  | again _ h ih => exact step_empty (ih hn) (.inr h)

/-- Instructions one after the other, each of them known from elsewhere. -/
theorem exec_both {inp : Str} {u v1 t1 v2 t2 : State} {b l rest : List Instr} {a r : List Item} (hd : ¬ Defines inp) (hu : Base inp u) (hub : u.buf = [])
    (hs : u.stack = b ++ (l ++ rest)) (h1 : Exec cf v1 a t1) (hv1 : Base inp v1) (hs1 : v1.stack = b) (hb1 : v1.buf = []) (ha : NoErr a) (he1 : t1.stack = [])
    (h2 : Exec cf v2 r t2) (hv2 : Base inp v2) (hs2 : v2.stack = l) (hb2 : v2.buf = []) (hr : NoErr r) (he2 : t2.stack = []) :
    ∃ t, Exec cf u (a ++ r) t ∧ t.stack = rest ∧ t.buf = [] := by
  obtain ⟨us, ub, um, usp⟩ := u
  simp only at hs hub
  subst hs hub
  have w1 : Base inp ⟨b, [], um, usp⟩ := hu.part rfl rfl (by intro x A hx; exact ⟨A, by simp at hx ⊢; exact .inl hx⟩)
  obtain ⟨-, a', t1', h3, h4, h5, h6⟩ := exec_sim (cf := cf) hv1 w1 hd hd ⟨by rw [hs1], by rw [hb1]⟩ h1
  obtain rfl := map_bare_noErr h4 ha
  have h7 := exec_over (l ++ rest) h3
  obtain ⟨ts, tb, tm, tsp⟩ := t1'
  have e1 : ts = [] := h5.empty he1
  have e2 : tb = [] := exec_empty h3 ha rfl
  subst e1 e2
  have w2 : Base inp ⟨l, [], tm, tsp⟩ := by
    have hB : Base inp (State.over ⟨[], [], tm, tsp⟩ (l ++ rest)) := (exec_sim (cf := cf) hu hu hd hd ⟨rfl, rfl⟩ h7).1
    exact hB.part rfl rfl (by intro x A hx; exact ⟨A, by simp [State.over] at hx ⊢; exact .inl hx⟩)
  obtain ⟨-, r', t2', h8, h9, h10, h11⟩ := exec_sim (cf := cf) hv2 w2 hd hd ⟨by rw [hs2], by rw [hb2]⟩ h2
  obtain rfl := map_bare_noErr h9 hr
  have h12 := exec_over rest h8
  refine ⟨_, h7.trans (s2 := t2'.over rest) h12, ?_, (exec_empty h8 hr rfl : t2'.buf = [])⟩
  show t2'.stack ++ rest = rest
  rw [h10.empty he2]
  rfl

/-- For every input without definitions and every error in it: if the text that is left stands for `r` and the instructions that are staged stand for `a`, then
these come out one after the other, except that the script event at the start of `r` goes first if the first element of the text has scripts. -/
theorem C46_leftovers (cf : Cfg) (inp : Str) (hd : ¬ Defines inp) (its : List Item) (e : ErrorKind) (ctx : Str) (s : State)
    (h : Reached cf inp (its ++ [.err e ctx]) s) (c : Sl) (rest : List Instr) (hs : s.stack = .sub c none :: rest) (hc : trimStart c.cs ≠ [])
    (r : List Item) (hr : Yields cf c.cs r) (hn : NoErr r) (a : List Item) (n : Nat) (ha : run cf n ⟨s.buf, [], s.macros, s.sp⟩ = (a, .done)) (hna : NoErr a) :
    ∃ s', s'.stack = rest ∧ s'.buf = [] ∧ (Reached cf inp (its ++ .err e ctx :: a ++ r) s' ∨
      ∃ ty p r', r = .ok (.script ty p) :: r' ∧ Reached cf inp (its ++ .err e ctx :: .ok (.script ty p) :: a ++ r') s') := by
  have hx := reached_exec h
  have hdc : ¬ Defines c.cs := by
    obtain ⟨-, -, h3⟩ := hx.base.nodef hd
    have := h3 c none (by simp [hs])
    exact fun h => hd (h.mono this.infix)
  obtain ⟨st, sb, sm, ssp⟩ := s
  simp only at hs ha
  subst hs
  obtain ⟨m, hm⟩ := hr
  obtain ⟨t, h1, h2⟩ := yields_exec hm
  have b0 : Base inp ⟨[.sub c none], [], sm, ssp⟩ := hx.base.part rfl rfl (by intro x A hx; simp at hx; exact ⟨none, by simp [hx.1]⟩)
  have b1 : Base inp ⟨sb, [], sm, ssp⟩ := hx.base.part rfl rfl (by intro x A hx; exact ⟨A, by simp at hx ⊢; exact .inr (.inr hx)⟩)
  obtain ⟨r', s', h3, h4, h5, -⟩ := exec_text b0 hd rfl rfl hdc rfl rfl h1
  obtain rfl := map_bare_noErr h4 hn
  have hse := h5.empty h2
  obtain ⟨t1, ha1, ha2⟩ := yields_exec ha
  have hstep := C46_staged cf ⟨[.sub c none], [], sm, ssp⟩ sb rfl
  have notOk : ∀ e s1, step cf ⟨[.sub c none], [], sm, ssp⟩ ≠ .item (.ok e) s1 := by
    intro e s1 h0
    rw [step_text rfl hc] at h0
    split at h0
    · cases h0
    · split at h0 <;> cases h0
    · split at h0 <;> cases h0
  rcases exec_front h3 with ⟨-, rfl⟩ | ⟨s1, h6, h7⟩ | ⟨i, r1, s1, rfl, h6, -⟩
  · cases hse
  · rw [h6] at hstep
    rcases hstep with ⟨c', A', rest', h8, h9, -⟩ | ⟨c', A', rest', l, h8, h9, h10, h11⟩
    · cases h8; exact absurd h9 hc
    · have h12 : step cf ⟨.sub c none :: rest, sb, sm, ssp⟩ = .again ⟨l ++ rest, s1.buf, s1.macros, s1.sp⟩ := by
        have := step_over (cf := cf) (s := ⟨[.sub c none], sb, sm, ssp⟩) rest (by simp)
        rw [h10] at this
        exact this
      have hs1b : s1.buf = [] := step_empty rfl (.inr h6)
      have hu := hx.again h12
      have hv2 : Base inp s1 := (Exec.init.again h6 |> exec_sim (cf := cf) b0 b0 hd hd ⟨rfl, rfl⟩).1
      generalize hss : s1.stack = m at h11
      cases h11 with
      | first =>
        obtain ⟨t', h13, h14, h15⟩ := exec_both (rest := rest) hd hu.base hs1b (by simp) ha1 b1 rfl rfl hna ha2 h7 hv2 hss hs1b hn hse
        exact ⟨t', h14, h15, .inl (exec_reached (by simpa using hu.trans h13))⟩
      | @script ty p l =>
        have e6 : step cf s1 = .item (.ok (.script ty p)) ⟨l, s1.buf, s1.macros, s1.sp⟩ := by unfold step; rw [hss]
        have hv3 : Base inp ⟨l, s1.buf, s1.macros, s1.sp⟩ := hv2.part rfl rfl (by intro x A hx; exact ⟨A, by rw [hss]; simpa using hx⟩)
        rcases exec_front h7 with ⟨-, rfl⟩ | ⟨s2, h8, -⟩ | ⟨i, r1, s2, rfl, h8, h9⟩
        · rw [hse] at hss; cases hss
        · rw [e6] at h8; cases h8
        · rw [e6] at h8
          cases h8
          have hu' := hu.item (i := .ok (.script ty p)) (s' := ⟨sb ++ l ++ rest, s1.buf, s1.macros, s1.sp⟩) (by unfold step; simp)
          obtain ⟨t', h13, h14, h15⟩ := exec_both (rest := rest) hd hu'.base hs1b (by simp) ha1 b1 rfl rfl hna ha2 h9 hv3 rfl hs1b
            (fun j hj => hn j (by simp [hj])) hse
          exact ⟨t', h14, h15, .inr ⟨ty, p, r1, rfl, exec_reached (by simpa using hu'.trans h13)⟩⟩
  · obtain ⟨ev, rfl⟩ := hn i (by simp)
    exact absurd h6 (notOk _ _)

theorem Ahead.above {b pre rest l : List Instr} {c : Sl} {A : Option AlignCount} (h : Ahead b (pre ++ .sub c A :: rest) l) : ∃ pre', l = pre' ++ .sub c A :: rest := by
  generalize e : pre ++ .sub c A :: rest = m at h
  cases h with
  | first => exact ⟨b ++ pre, by rw [← e]; simp⟩
  | @script ty p l =>
    cases pre with
    | nil => cases e
    | cons x pre =>
      simp only [List.cons_append, List.cons.injEq] at e
      exact ⟨.ev (.script ty p) :: (b ++ pre), by rw [← e.2]; simp⟩

theorem later_panic {inp : Str} {its : List Item} {s : State} (h : Exec cf (State.init inp) its s) (hd : ¬ Defines inp) {p : Panic} (hp : step cf s = .panic p) :
    p ≠ .assertion ∧ p ≠ .fuel := by
  refine ⟨h.base.panic hd hp, ?_⟩
  rcases h.panic hp with ⟨rfl, -⟩ | ⟨rfl, -⟩ | ⟨rfl, -⟩ | ⟨rfl, -⟩ <;> simp

theorem stage {s : State} {i : Item} {s' : State} (h : step cf ⟨s.stack, [], s.macros, s.sp⟩ = .item i s') : ∃ s1, step cf s = .item i s1 := by
  have := C46_staged cf ⟨s.stack, [], s.macros, s.sp⟩ s.buf rfl
  rw [h] at this
  exact ⟨_, this⟩

theorem stage_panic {s : State} {p : Panic} (h : step cf ⟨s.stack, [], s.macros, s.sp⟩ = .panic p) : step cf s = .panic p := by
  have := C46_staged cf ⟨s.stack, [], s.macros, s.sp⟩ s.buf rfl
  rw [h] at this
  exact this

theorem stage_does {s : State} {c : Sl} {A : Option AlignCount} {rest : List Instr} (hs : s.stack = .sub c A :: rest) (hne : trimStart c.cs ≠ []) {e : Effect}
    (h : Step.does cf ⟨s.stack, [], s.macros, s.sp⟩ rest e) : Step.does cf s rest e := by
  cases e with
  | wrong k =>
    obtain ⟨ctx, s', h⟩ := h
    obtain ⟨s1, h1⟩ := stage h
    exact ⟨ctx, s1, h1⟩
  | right m r Δ =>
    obtain ⟨pre, c', A', D', sp', h1, h2, h3⟩ := h
    have := C46_staged cf ⟨s.stack, [], s.macros, s.sp⟩ s.buf rfl
    rw [h1] at this
    rcases this with ⟨c0, A0, rest0, h4, h5, -⟩ | ⟨c0, A0, rest0, l, h4, -, h5, h6⟩
    · simp only at h4
      rw [hs] at h4
      cases h4
      exact absurd h5 hne
    · obtain ⟨pre', rfl⟩ := h6.above
      exact ⟨pre', c', A', D', sp', h5, h2, h3⟩

theorem later_sound {inp : Str} {its : List Item} {s : State} {c : Sl} {A : Option AlignCount} {rest : List Instr} (h : Exec cf (State.init inp) its s)
    (hd : ¬ Defines inp) (hs : s.stack = .sub c A :: rest) (hne : trimStart c.cs ≠ []) {e : Effect} (he : Acts (A.map fun a => a.max - a.count) Known.none c.cs e) :
    Step.does cf s rest e ∨ Limit cf s := by
  have hb := h.base
  have hm : s.macros = [] := (hb.nodef hd).1
  rcases step_sound_of (cf := cf) (s := ⟨s.stack, [], s.macros, s.sp⟩) (Δ := Known.none) hb.calls (hb.wf c A (by simp [hs]))
    (fun p hp => later_panic h hd (stage_panic hp)) hs hne (by rw [hm]; exact stores_none) he with h1 | ⟨ctx, s', h1⟩
  · exact .inl (stage_does hs hne h1)
  · obtain ⟨s1, h2⟩ := stage h1
    exact .inr ⟨ctx, s1, h2⟩

/-- Also after errors, in inputs without definitions: an element that is wrong gives its error, and after an element that is right the parser goes on with the text
after it, and below it everything is as it was. -/
theorem C62_later (cf : Cfg) (inp : Str) (hd : ¬ Defines inp) (its : List Item) (s : State) (h : Reached cf inp its s) (c : Sl) (A : Option AlignCount)
    (B : List Instr) (hs : s.stack = .sub c A :: B) (hne : trimStart c.cs ≠ []) :
    (∀ k, Acts (A.map fun a => a.max - a.count) Known.none c.cs (.wrong k) →
      ∃ l ctx s', step cf s = .item (.err l ctx) s' ∧ (l = k ∨ l = .macroRecursionLimit)) ∧
    (∀ m r Δ', Acts (A.map fun a => a.max - a.count) Known.none c.cs (.right m r Δ') →
      (∃ s' pre c' A', step cf s = .again s' ∧ s'.stack = pre ++ .sub c' A' :: B ∧ c'.cs = r) ∨ ∃ ctx s', step cf s = .item (.err .macroRecursionLimit ctx) s') := by
  have hx := reached_exec h
  constructor
  · intro k ha
    rcases later_sound hx hd hs hne ha with ⟨ctx, s', e⟩ | ⟨ctx, s', e⟩
    · exact ⟨_, _, _, e, .inl rfl⟩
    · exact ⟨_, _, _, e, .inr rfl⟩
  · intro m r Δ' ha
    rcases later_sound hx hd hs hne ha with ⟨pre, c', A', D', sp', e, h4, -⟩ | h4
    · exact .inl ⟨_, pre, c', A', e, rfl, h4⟩
    · exact .inr h4

/-- And there is no other possibility but a panic. -/
theorem C62_later_either (cf : Cfg) (ho : cf.overflowChecks = true) (inp : Str) (hd : ¬ Defines inp) (its : List Item) (s : State) (h : Reached cf inp its s) (c : Sl)
    (A : Option AlignCount) (B : List Instr) (hs : s.stack = .sub c A :: B) (hne : trimStart c.cs ≠ []) :
    (∃ p, step cf s = .panic p) ∨ (∃ ctx s', step cf s = .item (.err .macroRecursionLimit ctx) s') ∨
    (∃ k ctx s', step cf s = .item (.err k ctx) s' ∧ Acts (A.map fun a => a.max - a.count) Known.none c.cs (.wrong k)) ∨
    ∃ m r Δ' s' pre c' A', step cf s = .again s' ∧ Acts (A.map fun a => a.max - a.count) Known.none c.cs (.right m r Δ') ∧
      s'.stack = pre ++ .sub c' A' :: B ∧ c'.cs = r := by
  have hx := reached_exec h
  have hm : s.macros = [] := (hx.base.nodef hd).1
  by_cases hp : ∃ p, step cf s = .panic p
  · exact .inl hp
  · have hp' : ∀ p, parseLoop cf (maxExpansionDepth + 2) (startSt ⟨s.stack, [], s.macros, s.sp⟩ c A) ≠ .panic p := by
      intro p e
      have e : parse cf (startSt ⟨s.stack, [], s.macros, s.sp⟩ c A) = .panic p := e
      exact hp ⟨p, stage_panic (by rw [step_text (s := ⟨s.stack, [], s.macros, s.sp⟩) hs hne, e])⟩
    rcases acts_total (cf := cf) (T := A.map fun a => a.max - a.count) ho (maxExpansionDepth + 2) (startSt ⟨s.stack, [], s.macros, s.sp⟩ c A).h s.sp fresh_start
      (show Stores cf s.macros Known.none by rw [hm]; exact stores_none) hp' with ⟨e, he⟩ | ⟨st, h1⟩
    · rcases later_sound hx hd hs hne he with h1 | h1
      · cases e with
        | wrong k =>
          obtain ⟨ctx, s', e⟩ := h1
          exact .inr (.inr (.inl ⟨k, ctx, s', e, he⟩))
        | right m r Δ' =>
          obtain ⟨pre, c', A', D', sp', e, h4, -⟩ := h1
          exact .inr (.inr (.inr ⟨m, r, Δ', _, pre, c', A', e, he, rfl, h4⟩))
      · exact .inr (.inl h1)
    · have h1 : parse cf (startSt ⟨s.stack, [], s.macros, s.sp⟩ c A) = .err .macroRecursionLimit st := h1
      rcases Formula.step_err (s := ⟨s.stack, [], s.macros, s.sp⟩) hs hne hx.base.calls h1 with ⟨ctx, s', h1⟩ | h1
      · obtain ⟨s1, h2⟩ := stage h1
        exact .inr (.inl ⟨ctx, s1, h2⟩)
      · exact absurd ⟨_, stage_panic h1⟩ hp

/-- Case: the fraction after an unknown command. -/
example : ∃ ctx s, Reached cf0 c!"\\foo\\frac{a}b c" [.err .unknownPrimitive ctx] s ∧
    ((∃ s' pre c' A', step cf0 s = .again s' ∧ s'.stack = pre ++ [.sub c' A'] ∧ c'.cs = c!"c") ∨ ∃ ctx s', step cf0 s = .item (.err .macroRecursionLimit ctx) s') := by
  have h1 : (match step cf0 (State.init c!"\\foo\\frac{a}b c") with
      | .item (.err .unknownPrimitive _) ⟨[.sub c none], _, _, _⟩ => c.cs == c!"\\frac{a}b c"
      | _ => false) = true := by decide +kernel
  split at h1
  · next e =>
    have hc := beq_iff_eq.1 h1
    exact ⟨_, _, .item .new e, (C62_later cf0 _ (by unfold Defines; decide +kernel) _ _ (.item .new e) _ none [] rfl (by rw [hc]; decide +kernel)).2 _ _ _ (by rw [hc]; exact acts_frac)⟩
  · cases h1

/-- Cases: the fraction and its numerator are staged when the denominator is an unknown command. The letter `b` comes after them; with a superscript, the script
event comes before them. If nothing follows they are lost. -/
example : (run cf0 60 (State.init c!"\\frac{a}\\foo b")).1.map Item.bare = [.inr .unknownPrimitive] ++
      [.inl (.visual (.fraction none)), .inl (.begin_ .normal), .inl (ordinary 'a'), .inl .end_] ++ [.inl (ordinary 'b')] ∧
    (run cf0 60 (State.init c!"\\frac{a}\\foo b^2")).1.map Item.bare = [.inr .unknownPrimitive, .inl (.script .sup .right)] ++
      [.inl (.visual (.fraction none)), .inl (.begin_ .normal), .inl (ordinary 'a'), .inl .end_] ++ [.inl (ordinary 'b'), .inl (.content (.number c!"2"))] ∧
    (run cf0 60 (State.init c!"\\frac{a}\\foo ")).1.map Item.bare = [.inr .unknownPrimitive] := by decide +kernel

/-- They may come out after the end of the group in which the mistake is made. -/
theorem C46_false_group : (run cf0 60 (State.init c!"{\\frac{a}\\foo}b")).1.map Item.bare = [.inl (.begin_ .normal), .inr .unknownPrimitive, .inl .end_,
    .inl (.visual (.fraction none)), .inl (.begin_ .normal), .inl (ordinary 'a'), .inl .end_, .inl (ordinary 'b')] := by decide +kernel

end PL.Props
