import Verif.Lemmas.StepSpec
import Verif.Spec.Items
set_option autoImplicit false
/-! # Executions of the parser and their invariants -/
namespace PL
open Lex Spec Macros

variable {cf : Cfg}

/-- The items emitted on the way from `s0` to a state. -/
inductive Exec (cf : Cfg) (s0 : State) : List Item → State → Prop
  | init : Exec cf s0 [] s0
  | item {its s i s'} : Exec cf s0 its s → step cf s = .item i s' → Exec cf s0 (its ++ [i]) s'
  | again {its s s'} : Exec cf s0 its s → step cf s = .again s' → Exec cf s0 its s'

theorem Exec.trans {s0 s1 s2 : State} {a b : List Item} (h1 : Exec cf s0 a s1) (h2 : Exec cf s1 b s2) : Exec cf s0 (a ++ b) s2 := by
  induction h2 with
  | init => simpa using h1
  | item _ h ih => rw [← List.append_assoc]; exact ih.item h
  | again _ h ih => exact ih.again h

/-- Where a run stops. -/
theorem run_exec (n : Nat) : ∀ (s : State), ∃ s', Exec cf s (run cf n s).1 s' ∧
    match (run cf n s).2 with
    | .done => step cf s' = .done
    | .panic p => step cf s' = .panic p
    | .more s'' => s'' = s' := by
  induction n with
  | zero => intro s; exact ⟨s, .init, rfl⟩
  | succ n ih =>
    intro s
    unfold run
    cases h : step cf s with
    | done => exact ⟨s, .init, h⟩
    | panic p => exact ⟨s, .init, h⟩
    | again s1 =>
      obtain ⟨s', h1, h2⟩ := ih s1
      exact ⟨s', by simpa using (Exec.init.again h).trans h1, h2⟩
    | item i s1 =>
      obtain ⟨s', h1, h2⟩ := ih s1
      exact ⟨s', by simpa using (Exec.init.item h).trans h1, h2⟩

theorem events_append (a b : List Item) : events (a ++ b) = events a ++ events b := by simp [events]

/-! ### Cases of a step -/

/-- The four things a step can do. -/
theorem step_cases {s s' : State} (o : Option Item) (h : step cf s = match o with | some i => .item i s' | none => .again s') :
    (∃ e, o = some (.ok e) ∧ s.stack = .ev e :: s'.stack ∧ s' = { s with stack := s'.stack }) ∨
    (∃ c A, o = none ∧ s.stack = .sub c A :: s'.stack ∧ s' = { s with stack := s'.stack }) ∨
    (∃ c A rest, s.stack = .sub c A :: rest ∧ trimStart c.cs ≠ []) := by
  unfold step at h
  cases hs : s.stack with
  | nil => rw [hs] at h; cases o <;> cases h
  | cons x rest =>
    rw [hs] at h
    cases x with
    | ev e =>
      simp only at h
      cases o with
      | none => cases h
      | some i => cases h; exact .inl ⟨e, rfl, rfl, rfl⟩
    | sub c A =>
      simp only at h
      split at h
      · cases o with
        | some i => cases h
        | none => cases h; exact .inr (.inl ⟨c, A, rfl, rfl, rfl⟩)
      · rename_i hne
        exact .inr (.inr ⟨c, A, rest, rfl, by simpa using hne⟩)

/-! ### What always holds -/

/-- Characters of several bytes come from the input. -/
def Asc (inp t : Str) : Prop := ∀ c ∈ t, c.utf8Size ≠ 1 → Wide inp

theorem Asc.mono {inp a b : Str} (h : Asc inp b) (hs : ∀ c ∈ a, c ∈ b) : Asc inp a := fun c hc => h c (hs c hc)
theorem Asc.wide {inp t : Str} (h : Asc inp t) (hw : Wide t) : Wide inp := by
  obtain ⟨c, hc, hn⟩ := hw
  exact h c hc hn

/-- The whole input. -/
def whole (inp : Str) : Sl := ⟨0, blen inp, inp⟩

structure Base (inp : Str) (s : State) : Prop where
  input : s.sp.input = inp
  calls : CallsOK s.sp.exps
  depth : s.sp.exps.length ≤ maxExpansionDepth
  wf : ∀ x A, Instr.sub x A ∈ s.stack ++ s.buf → x.wf
  asc : ∀ x A, Instr.sub x A ∈ s.stack ++ s.buf → Asc inp x.cs
  macs : ∀ x ∈ s.macros, ∃ o, Asc inp o ∧ DefFrom o x.2
  nodef : ¬ Defines inp → s.macros = [] ∧ s.sp.exps = [] ∧ ∀ x A, Instr.sub x A ∈ s.stack ++ s.buf → Sub x (whole inp)

theorem Base.init (inp : Str) : Base inp (State.init inp) where
  input := rfl
  calls := by intro e he; cases he
  depth := Nat.zero_le _
  wf x A h := by simp [State.init] at h; rw [h.1]; exact Nat.le_refl _
  asc x A h := by simp [State.init] at h; rw [h.1]; intro c hc hn; exact ⟨c, hc, hn⟩
  macs := by simp [State.init]
  nodef _ := ⟨rfl, rfl, fun x A h => by simp [State.init] at h; rw [h.1]; exact Sub.refl _⟩

theorem lookup_mem {m : Ctx} {name : Str} {d : Definition} (h : m.get name = some d) : (name, d) ∈ m := by
  unfold Ctx.get at h
  induction m with
  | nil => cases h
  | cons x m ih =>
    obtain ⟨n, d'⟩ := x
    simp only [List.lookup] at h
    split at h
    · rename_i hb
      cases h
      have : name = n := by simpa using hb
      rw [this]; simp
    · exact List.mem_cons_of_mem _ (ih h)

theorem tryExpand_mem {m : Ctx} {name rest : Str} {x : XRes} (h : tryExpand cf m name rest = some x) :
    ∃ d, (name, d) ∈ m ∧ expandDefinition cf d rest = x := by
  unfold tryExpand at h
  cases hg : m.get name with
  | none => rw [hg] at h; cases h
  | some d =>
    rw [hg] at h
    cases h
    exact ⟨d, lookup_mem hg, rfl⟩

theorem Expands.asc {inp : Str} {s s' : PSt} (h : Expands cf s s') (hc : Asc inp s.h.content.cs)
    (hm : ∀ x ∈ s.h.macros, ∃ o, Asc inp o ∧ DefFrom o x.2) : Asc inp s'.h.content.cs := by
  induction h with
  | refl => exact hc
  | @step s _ _ h1 _ ih =>
    refine ih ?_ (by rw [h1.h]; exact hm)
    obtain ⟨name, rest, new, consumed, start, es, len, ht, hx, -, -, -, rfl⟩ := h1.ex
    obtain ⟨d, hd, he⟩ := tryExpand_mem hx
    obtain ⟨o, ho, hdo⟩ := hm _ hd
    have hsuf := good_token (cf := cf) s.h.content.cs
    rw [ht] at hsuf
    exact expand_chars hdo he (P := fun c => c.utf8Size ≠ 1 → Wide inp) ho (hc.mono fun c hc' => List.IsSuffix.subset hsuf hc')
      (fun h => absurd rfl h) (fun h => absurd rfl h)

theorem Expands.depth {s s' : PSt} (h : Expands cf s s') (hd : s.sp.exps.length ≤ maxExpansionDepth) :
    s'.sp.exps.length ≤ maxExpansionDepth := by
  induction h with
  | refl => exact hd
  | step h1 _ ih =>
    apply ih
    obtain ⟨name, rest, new, consumed, start, es, len, -, -, h1, -, hr, rfl⟩ := h1.ex
    have := (reachLoop_some hr).1.length_le
    simp; omega

theorem reach_sp {sp sp' : Spans} {ptr k : Nat} (h : sp.reach cf ptr = some (k, sp')) :
    sp'.input = sp.input ∧ sp'.exps <:+ sp.exps ∧ sp'.total = sp.total ∧ sp'.nalloc = sp.nalloc := by
  unfold Spans.reach at h
  cases hr : reachLoop cf sp.input ptr sp.exps with
  | none => rw [hr] at h; cases h
  | some y =>
    obtain ⟨i, es⟩ := y
    rw [hr] at h
    cases h
    exact ⟨rfl, (reachLoop_some hr).1, rfl, rfl⟩

theorem _root_.PL.Spec.Defines.mono {a b : Str} (h : a <:+: b) (ha : Defines a) : Defines b := by
  obtain ⟨w, hw, hi⟩ := ha
  exact ⟨w, hw, hi.trans h⟩

/-- The facts that hold when text is parsed. -/
structure OnText (cf : Cfg) (inp : Str) (s : State) (c : Sl) (A : Option AlignCount) (p1 : PSt) : Prop where
  wf : p1.h.content.wf
  asc : Asc inp p1.h.content.cs
  calls : CallsOK p1.sp.exps
  depth : p1.sp.exps.length ≤ maxExpansionDepth
  input : p1.sp.input = inp
  nodef : ¬ Defines inp → p1 = startSt s c A ∧ Sub c (whole inp)

theorem Base.onText {inp : Str} {s : State} (h : Base inp s) {c : Sl} {A : Option AlignCount} {rest : List Instr}
    (hs : s.stack = .sub c A :: rest) {p1 : PSt} (hx : Expands cf (startSt s c A) p1) : OnText cf inp s c A p1 where
  wf := hx.wf (h.wf c A (by simp [hs]))
  asc := hx.asc (h.asc c A (by simp [hs])) h.macs
  calls := hx.calls h.calls
  depth := hx.depth h.depth
  input := by rw [hx.input]; exact h.input
  nodef hn := ⟨hx.nil (h.nodef hn).1, (h.nodef hn).2.2 c A (by simp [hs])⟩

theorem macs_next {inp : Str} {m m' : Ctx} {o : Str} (hm : ∀ x ∈ m, ∃ o, Asc inp o ∧ DefFrom o x.2) (ho : Asc inp o)
    (h : ∀ x ∈ m', x ∈ m ∨ Defines o ∧ DefFrom o x.2) : ∀ x ∈ m', ∃ o, Asc inp o ∧ DefFrom o x.2 := by
  intro x hx
  rcases h x hx with h | h
  · exact hm x h
  · exact ⟨o, ho, h.2⟩

theorem macs_nil {m' : Ctx} {o : Str} (hn : ¬ Defines o) (h : ∀ x ∈ m', x ∈ ([] : Ctx) ∨ Defines o ∧ DefFrom o x.2) : m' = [] := by
  cases m' with
  | nil => rfl
  | cons x m => rcases h x (by simp) with h | h
                · cases h
                · exact absurd h.1 hn

theorem Base.next {inp : Str} {s s' : State} (h : Base inp s) (o : Option Item)
    (hst : step cf s = match o with | some i => .item i s' | none => .again s') : Base inp s' := by
  rcases step_cases o hst with ⟨e, rfl, hs, he⟩ | ⟨c, A, rfl, hs, he⟩ | ⟨c, A, rest, hs, hne⟩
  · have hmem : ∀ x A, Instr.sub x A ∈ s'.stack ++ s'.buf → Instr.sub x A ∈ s.stack ++ s.buf := by
      intro x A hx
      rw [show s'.buf = s.buf by rw [he]] at hx
      rw [hs]; simp at hx ⊢; exact hx
    exact ⟨by rw [he]; exact h.input, by rw [he]; exact h.calls, by rw [he]; exact h.depth, fun x A hx => h.wf x A (hmem x A hx),
      fun x A hx => h.asc x A (hmem x A hx), by rw [he]; exact h.macs, fun hn => ⟨by rw [he]; exact (h.nodef hn).1,
        by rw [he]; exact (h.nodef hn).2.1, fun x A hx => (h.nodef hn).2.2 x A (hmem x A hx)⟩⟩
  · have hmem : ∀ x A, Instr.sub x A ∈ s'.stack ++ s'.buf → Instr.sub x A ∈ s.stack ++ s.buf := by
      intro x A hx
      rw [show s'.buf = s.buf by rw [he]] at hx
      rw [hs]; simp at hx ⊢; exact .inr hx
    exact ⟨by rw [he]; exact h.input, by rw [he]; exact h.calls, by rw [he]; exact h.depth, fun x A hx => h.wf x A (hmem x A hx),
      fun x A hx => h.asc x A (hmem x A hx), by rw [he]; exact h.macs, fun hn => ⟨by rw [he]; exact (h.nodef hn).1,
        by rw [he]; exact (h.nodef hn).2.1, fun x A hx => (h.nodef hn).2.2 x A (hmem x A hx)⟩⟩
  · obtain ⟨p1, hx, -, hr⟩ := step_sub (cf := cf) (st := false) hs (h.wf c A (by simp [hs])) hne (by intro h; cases h) h.calls
    have T := h.onText hs hx
    have hnd : ¬ Defines inp → ¬ Defines p1.h.content.cs ∧ p1.h.content = c := by
      intro hn
      obtain ⟨e, hsub⟩ := T.nodef hn
      have : p1.h.content = c := by rw [e]; rfl
      exact ⟨fun hd => hn (hd.mono (by rw [this]; exact hsub.infix)), this⟩
    rw [hst] at hr
    cases o with
    | none =>
      obtain ⟨pre, D, c', A', R⟩ := hr
      have hsp : s'.sp = p1.sp := by rw [R.eq]
      have hmem : ∀ x B, Instr.sub x B ∈ s'.stack ++ s'.buf → Instr.sub x B ∈ s.stack ++ s.buf ∨ Sub x p1.h.content := by
        intro x B hx
        rw [R.eq] at hx
        simp only [List.append_nil, List.mem_append, List.mem_cons] at hx
        rcases hx with ((hx | hx) | hx) | hx | hx
        · rcases R.head with rfl | ⟨ty, p, rfl⟩ <;> simp at hx
        · exact .inl (by simp [hx])
        · exact .inr (R.subs x B hx)
        · cases hx; exact .inr R.sub
        · exact .inl (by simp [hs, hx])
      refine ⟨by rw [hsp]; exact T.input, by rw [hsp]; exact T.calls, by rw [hsp]; exact T.depth, ?_, ?_,
        macs_next h.macs T.asc R.mac, ?_⟩
      · intro x B hx
        rcases hmem x B hx with hx | hx
        · exact h.wf x B hx
        · exact hx.wf T.wf
      · intro x B hx
        rcases hmem x B hx with hx | hx
        · exact h.asc x B hx
        · exact T.asc.mono fun c hc => hx.infix.subset hc
      · intro hn
        obtain ⟨h1, h2, h4⟩ := h.nodef hn
        have hp := T.nodef hn
        refine ⟨macs_nil (hnd hn).1 (by rw [← h1]; exact R.mac), by rw [hsp, hp.1]; exact h2, ?_⟩
        intro x B hx
        rcases hmem x B hx with hx | hx
        · exact h4 x B hx
        · rw [(hnd hn).2] at hx; exact hx.trans hp.2
    | some i =>
      obtain ⟨sp2, d, c', A', R⟩ := hr
      obtain ⟨k, hre⟩ := R.reach
      obtain ⟨r1, r2, r3, r4⟩ := reach_sp hre
      have hmem : ∀ x B, Instr.sub x B ∈ s'.stack ++ s'.buf → Instr.sub x B ∈ s.stack ++ s.buf ∨ Sub x p1.h.content := by
        intro x B hx
        rw [R.eq] at hx
        simp only [List.mem_append, List.mem_cons] at hx
        rcases hx with (hx | hx) | hx | hx
        · cases hx; exact .inr R.sub
        · exact .inl (by simp [hs, hx])
        · exact .inl (by simp [hx])
        · exact .inr (R.subs x B hx)
      refine ⟨by rw [r1, R.span.1]; exact T.input, ?_, ?_, ?_, ?_, macs_next h.macs T.asc R.mac, ?_⟩
      · intro e he
        have := r2.subset he
        rw [R.span.2.1] at this
        exact T.calls e this
      · have := r2.length_le
        rw [R.span.2.1] at this
        exact Nat.le_trans this T.depth
      · intro x B hx
        rcases hmem x B hx with hx | hx
        · exact h.wf x B hx
        · exact hx.wf T.wf
      · intro x B hx
        rcases hmem x B hx with hx | hx
        · exact h.asc x B hx
        · exact T.asc.mono fun c hc => hx.infix.subset hc
      · intro hn
        obtain ⟨h1, h2, h4⟩ := h.nodef hn
        have hp := T.nodef hn
        have hex : s'.sp.exps = [] := by
          have := r2
          rw [R.span.2.1, hp.1] at this
          have e : (startSt s c A).sp.exps = [] := h2
          rw [e] at this
          exact List.suffix_nil.1 this
        refine ⟨macs_nil (hnd hn).1 (by rw [← h1]; exact R.mac), hex, ?_⟩
        · intro x B hx
          rcases hmem x B hx with hx | hx
          · exact h4 x B hx
          · rw [(hnd hn).2] at hx; exact hx.trans hp.2

theorem Exec.base {inp : Str} {its : List Item} {s : State} (h : Exec cf (State.init inp) its s) : Base inp s := by
  induction h with
  | init => exact .init inp
  | @item _ _ i _ _ h ih => exact ih.next (some i) h
  | again _ h ih => exact ih.next none h

/-! ### Groups -/

/-- Instructions for the events already emitted. -/
def emitted (its : List Item) : List Instr := (events its).map .ev

theorem emitted_append (a b : List Item) : emitted (a ++ b) = emitted a ++ emitted b := by simp [emitted, events_append]
theorem emitted_ok (its : List Item) (e : Event) : emitted (its ++ [.ok e]) = emitted its ++ [.ev e] := by
  rw [emitted_append]; rfl
theorem emitted_err (its : List Item) (e : ErrorKind) (c : Str) : emitted (its ++ [.err e c]) = emitted its := by
  rw [emitted_append]; simp [emitted, events]

/-- No group is closed that was not opened, whatever happened. -/
def Deep (its : List Item) (s : State) : Prop := (∃ k, dep 0 (emitted its ++ s.stack) = some k) ∧ Grow s.buf

theorem dep_insert {a b d : List Instr} {k m : Nat} (h : dep k (a ++ b) = some m) (hd : Grow d) :
    ∃ m', dep k (a ++ (d ++ b)) = some m' := by
  obtain ⟨j, hd⟩ := hd
  rw [dep_append] at h
  rw [dep_append]
  cases ha : dep k a with
  | none => rw [ha] at h; cases h
  | some q =>
    rw [ha] at h
    refine ⟨m + j, ?_⟩
    show dep q (d ++ b) = _
    rw [dep_append, hd q]
    exact dep_mono b q m j h

theorem dep_sub {a b : List Instr} {x y : Sl} {A B : Option AlignCount} {k : Nat} :
    dep k (a ++ .sub x A :: b) = dep k (a ++ .sub y B :: b) := by
  rw [dep_append, dep_append]; rfl
theorem dep_drop {a b : List Instr} {x : Sl} {A : Option AlignCount} {k : Nat} : dep k (a ++ .sub x A :: b) = dep k (a ++ b) := by
  rw [dep_append, dep_append]; rfl

theorem flat_head {pre : List Instr} (h : pre = [] ∨ ∃ ty p, pre = [.ev (.script ty p)]) : Flat pre := by
  rcases h with rfl | ⟨ty, p, rfl⟩ <;> intro k <;> rfl

/-- The output after a step. -/
def out (its : List Item) : Option Item → List Item
  | some i => its ++ [i]
  | none => its

theorem Deep.next {inp : Str} {its : List Item} {s s' : State} (hb : Base inp s) (h : Deep its s) (o : Option Item)
    (hst : step cf s = match o with | some i => .item i s' | none => .again s') : Deep (out its o) s' := by
  obtain ⟨⟨k, h⟩, hg⟩ := h
  rcases step_cases o hst with ⟨e, rfl, hs, he⟩ | ⟨c, A, rfl, hs, he⟩ | ⟨c, A, rest, hs, hne⟩
  · refine ⟨⟨k, ?_⟩, by rw [he]; exact hg⟩
    rw [out, emitted_ok, List.append_assoc]
    rw [hs] at h
    exact h
  · refine ⟨⟨k, ?_⟩, by rw [he]; exact hg⟩
    rw [hs, dep_drop] at h
    exact h
  · obtain ⟨p1, hx, -, hr⟩ := step_sub (cf := cf) (st := false) hs (hb.wf c A (by simp [hs])) hne (by intro h; cases h) hb.calls
    rw [hst] at hr
    rw [hs] at h
    cases o with
    | none =>
      obtain ⟨pre, D, c', A', R⟩ := hr
      refine ⟨?_, by rw [R.eq]; exact ⟨0, fun k => rfl⟩⟩
      rw [dep_sub (y := c') (B := A')] at h
      rw [R.eq]
      exact dep_insert h ((Grow.append (flat_head R.head).grow hg).append R.flat.grow)
    | some i =>
      obtain ⟨sp2, d, c', A', R⟩ := hr
      obtain ⟨e, ctx, rfl⟩ := R.item
      refine ⟨⟨k, ?_⟩, by rw [R.eq]; exact hg.append R.grow⟩
      rw [out, emitted_err, R.eq, ← h]
      exact dep_sub

theorem Deep.init (inp : Str) : Deep [] (State.init inp) := ⟨⟨0, rfl⟩, 0, fun _ => rfl⟩

theorem Exec.deep {inp : Str} {its : List Item} {s : State} (h : Exec cf (State.init inp) its s) : Deep its s := by
  induction h with
  | init => exact .init inp
  | @item _ _ i _ h0 h ih => exact ih.next h0.base (some i) h
  | again h0 h ih => exact ih.next h0.base none h

/-! ### Before the first error -/

structure Fine (st : Bool) (its : List Item) (s : State) : Prop where
  buf : s.buf = []
  dep : dep 0 (emitted its ++ s.stack) = some 0
  acc : acc st [] (emitted its ++ s.stack) = some []

/-- The text to parse never defines a macro, and is clean. -/
structure Strict (s : State) : Prop where
  mac : s.macros = []
  clean : ∀ x A, Instr.sub x A ∈ s.stack → Clean x.cs

theorem Fine.next {st : Bool} {inp : Str} {its : List Item} {s s' : State} (hb : Base inp s) (h : Fine st its s)
    (hst' : st = true → Strict s) (o : Option Item)
    (hst : step cf s = match o with | some i => .item i s' | none => .again s') (hno : NoErr (out its o)) :
    Fine st (out its o) s' ∧ (st = true → Strict s') := by
  rcases step_cases o hst with ⟨e, rfl, hs, he⟩ | ⟨c, A, rfl, hs, he⟩ | ⟨c, A, rest, hs, hne⟩
  · refine ⟨⟨by rw [he]; exact h.buf, ?_, ?_⟩, fun hs' => ⟨by rw [he]; exact (hst' hs').mac, fun x A hx => (hst' hs').clean x A (by rw [hs]; simp [hx])⟩⟩
    · rw [out, emitted_ok, List.append_assoc]
      have := h.dep
      rw [hs] at this
      exact this
    · rw [out, emitted_ok, List.append_assoc]
      have := h.acc
      rw [hs] at this
      exact this
  · refine ⟨⟨by rw [he]; exact h.buf, ?_, ?_⟩, fun hs' => ⟨by rw [he]; exact (hst' hs').mac, fun x A hx => (hst' hs').clean x A (by rw [hs]; simp [hx])⟩⟩
    · have := h.dep
      rw [hs, dep_drop] at this
      exact this
    · have := h.acc
      rw [hs, acc_append] at this
      rw [out, acc_append]
      cases ha : PL.acc st [] (emitted its) with
      | none => rw [ha] at this; cases this
      | some F =>
        rw [ha] at this
        exact acc_drop this
  · obtain ⟨p1, hx, hp, hr⟩ := step_sub (cf := cf) (st := st) hs (hb.wf c A (by simp [hs])) hne
      (fun hs' => ⟨(hst' hs').mac, (hst' hs').clean c A (by simp [hs])⟩) hb.calls
    rw [hst] at hr
    cases o with
    | some i =>
      obtain ⟨sp2, d, c', A', R⟩ := hr
      obtain ⟨e, ctx, rfl⟩ := R.item
      obtain ⟨e', h'⟩ := hno (.err e ctx) (by simp [out])
      cases h'
    | none =>
      obtain ⟨pre, D, c', A', R⟩ := hr
      have hstack : s'.stack = (pre ++ D) ++ .sub c' A' :: rest := by rw [R.eq, h.buf]; simp
      refine ⟨⟨by rw [R.eq], ?_, ?_⟩, ?_⟩
      · have := h.dep
        rw [hs, dep_append] at this
        rw [out, hstack, dep_append]
        cases ha : PL.dep 0 (emitted its) with
        | none => rw [ha] at this; cases this
        | some q =>
          rw [ha] at this
          have hf := (flat_head R.head).append R.flat
          show PL.dep q ((pre ++ D) ++ _) = _
          rw [dep_append, hf q]
          exact this
      · have := h.acc
        rw [hs, acc_append] at this
        rw [out, hstack, acc_append]
        cases ha : PL.acc st [] (emitted its) with
        | none => rw [ha] at this; cases this
        | some F =>
          rw [ha] at this
          exact acc_replace R.shape this
      · intro hs'
        have hpc : p1.h.content = c := by rw [hp hs']; rfl
        refine ⟨by rw [R.smac hs']; exact (hst' hs').mac, fun x B hx => ?_⟩
        rw [hstack] at hx
        simp only [List.mem_append, List.mem_cons] at hx
        have hcl := (hst' hs').clean c A (by simp [hs])
        rcases hx with (hx | hx) | hx | hx
        · rcases R.head with rfl | ⟨ty, p, rfl⟩ <;> simp at hx
        · have := R.subs x B hx
          rw [hpc] at this
          exact hcl.infix this.infix
        · cases hx
          have := R.sub
          rw [hpc] at this
          exact hcl.infix this.infix
        · exact (hst' hs').clean x B (by simp [hs, hx])

theorem Fine.init (st : Bool) (inp : Str) : Fine st [] (State.init inp) := ⟨rfl, rfl, by cases st <;> rfl⟩

theorem Exec.fine {st : Bool} {inp : Str} {its : List Item} {s : State} (h : Exec cf (State.init inp) its s)
    (hn : NoErr its) (hc : st = true → Clean inp) : Fine st its s ∧ (st = true → Strict s) := by
  induction h with
  | init => exact ⟨.init st inp, fun h => ⟨rfl, fun x A hx => by simp [State.init] at hx; rw [hx.1]; exact hc h⟩⟩
  | @item _ _ i _ h0 h ih =>
    have := ih fun j hj => hn j (by simp [hj])
    exact this.1.next h0.base this.2 (some i) h hn
  | again h0 h ih => exact (ih hn).1.next h0.base (ih hn).2 none h hn

/-! ### Where the texts lie -/

/-- The text is part of the input or of an expansion that is still on the list. -/
def Placed (inp : Str) (es : List ExpSpan) (x : Sl) : Prop :=
  Sub x (whole inp) ∨ ∃ e ∈ es, Sub x ⟨e.id, blen e.full, e.full⟩

theorem Placed.sub {inp : Str} {es : List ExpSpan} {x y : Sl} (h : Placed inp es y) (hs : Sub x y) : Placed inp es x := by
  rcases h with h | ⟨e, he, h⟩
  · exact .inl (hs.trans h)
  · exact .inr ⟨e, he, hs.trans h⟩

/-- Later expansions come first and have larger numbers. -/
structure Ordered (sp : Spans) : Prop where
  desc : sp.exps.Pairwise fun a b => b.id < a.id
  pos : ∀ e ∈ sp.exps, 1 ≤ e.id ∧ e.id ≤ sp.nalloc

theorem Sub.ptr_range {x : Sl} {id : Nat} {t : Str} (h : Sub x ⟨id, blen t, t⟩) :
    x.src = id ∧ cf.addr id ≤ x.ptr cf ∧ x.ptr cf ≤ cf.addr id + blen t := by
  obtain ⟨h1, pre, post, h2, h3⟩ := h
  simp only at h1 h2 h3
  refine ⟨h1, ?_, ?_⟩ <;> simp only [Sl.ptr, Sl.start, h1] <;> omega

theorem reach_keep {inp : Str} {x c' : Sl} (hc : Sub c' x) : ∀ {es : List ExpSpan}, Placed inp es x →
    es.Pairwise (fun a b => b.id < a.id) → (∀ e ∈ es, 1 ≤ e.id) →
    ∃ k es', reachLoop cf inp (c'.ptr cf) es = some (k, es') ∧ ∀ y, Placed inp es y → y.src ≤ x.src → Placed inp es' y
  | [], hp, _, _ => by
    rcases hp with hp | ⟨e, he, _⟩
    · obtain ⟨h1, h2, h3⟩ := Sub.ptr_range (cf := cf) (hc.trans hp)
      refine ⟨c'.ptr cf - cf.addr 0, [], ?_, fun y hy _ => hy⟩
      unfold reachLoop
      rw [if_pos (by simpa using ⟨h2, h3⟩)]
    · cases he
  | e :: es, hp, hd, hpos => by
    unfold reachLoop
    split
    · exact ⟨_, _, rfl, fun y hy _ => hy⟩
    · rename_i hn
      have hx : Placed inp es x := by
        rcases hp with hp | ⟨e', he, hp⟩
        · exact .inl hp
        · simp only [List.mem_cons] at he
          rcases he with rfl | he
          · obtain ⟨h1, h2, h3⟩ := Sub.ptr_range (cf := cf) (hc.trans hp)
            exact absurd (by simpa using ⟨h2, h3⟩) hn
          · exact .inr ⟨e', he, hp⟩
      have hlt : x.src < e.id := by
        rcases hx with hx | ⟨e', he, hx⟩
        · rw [hx.1]; exact (hpos e (by simp))
        · rw [hx.1]; exact (List.pairwise_cons.1 hd).1 e' he
      obtain ⟨k, es', h1, h2⟩ := reach_keep hc hx (List.pairwise_cons.1 hd).2 fun e' he => hpos e' (by simp [he])
      refine ⟨k, es', h1, fun y hy hl => h2 y ?_ hl⟩
      rcases hy with hy | ⟨e', he, hy⟩
      · exact .inl hy
      · simp only [List.mem_cons] at he
        rcases he with rfl | he
        · have := hy.1
          simp only at this
          omega
        · exact .inr ⟨e', he, hy⟩

/-- The texts of a stack. -/
def texts (st : List Instr) : List Sl := st.filterMap fun i => match i with
  | .ev _ => none
  | .sub x _ => some x

theorem mem_texts {st : List Instr} {x : Sl} : x ∈ texts st ↔ ∃ A, Instr.sub x A ∈ st := by
  induction st with
  | nil => simp [texts]
  | cons i st ih =>
    cases i with
    | ev e => simp only [texts, List.filterMap_cons, List.mem_cons, reduceCtorEq, false_or]; exact ih
    | sub y B =>
      simp only [texts, List.filterMap_cons, List.mem_cons, Instr.sub.injEq]
      constructor
      · rintro (rfl | h)
        · exact ⟨B, .inl ⟨rfl, rfl⟩⟩
        · obtain ⟨A, hA⟩ := ih.1 h
          exact ⟨A, .inr hA⟩
      · rintro ⟨A, ⟨rfl, rfl⟩ | h⟩
        · exact .inl rfl
        · exact .inr (ih.2 ⟨A, h⟩)

structure Located (inp : Str) (s : State) : Prop where
  ord : Ordered s.sp
  placed : ∀ x ∈ texts s.stack, Placed inp s.sp.exps x
  desc : (texts s.stack).Pairwise fun a b => b.src ≤ a.src

/-- Where the text being parsed and the ones below it lie. -/
structure LocatedP (inp : Str) (p : PSt) (rest : List Sl) : Prop where
  input : p.sp.input = inp
  ord : Ordered p.sp
  cont : Placed inp p.sp.exps p.h.content
  placed : ∀ x ∈ rest, Placed inp p.sp.exps x ∧ x.src ≤ p.h.content.src

theorem Placed.src_le {inp : Str} {es : List ExpSpan} {x : Sl} {n : Nat} (h : Placed inp es x) (hp : ∀ e ∈ es, e.id ≤ n) : x.src ≤ n := by
  rcases h with h | ⟨e, he, h⟩
  · rw [h.1]; exact Nat.zero_le _
  · rw [h.1]; exact hp e he

theorem LocatedP.expand {inp : Str} {p p' : PSt} {rest : List Sl} (h : LocatedP inp p rest) (hx : Expand cf p p') :
    LocatedP inp p' rest := by
  obtain ⟨name, tl, new, consumed, start, es, len, ht, -, -, -, hr, rfl⟩ := hx.ex
  have hsub : Sub { p.h.content with cs := trimStart p.h.content.cs } p.h.content := by
    obtain ⟨w, hw⟩ := trimStart_suffix p.h.content.cs
    exact ⟨rfl, w, [], by simp [hw], by simp [blen]⟩
  obtain ⟨k, es', h1, h2⟩ := reach_keep (cf := cf) hsub h.cont h.ord.desc fun e he => (h.ord.pos e he).1
  rw [h.input] at hr
  rw [h1] at hr
  cases hr
  have hsuf := (reachLoop_some h1).1
  refine ⟨h.input, ⟨?_, ?_⟩, ?_, ?_⟩
  · refine List.pairwise_cons.2 ⟨fun e he => ?_, h.ord.desc.sublist hsuf.sublist⟩
    have := (h.ord.pos e (hsuf.subset he)).2
    simp only; omega
  · intro e he
    simp only [List.mem_cons] at he
    rcases he with rfl | he
    · simp
    · have := h.ord.pos e (hsuf.subset he)
      simp only; omega
  · exact .inr ⟨_, List.mem_cons_self .., Sub.refl _⟩
  · intro x hx
    obtain ⟨hpl, hle⟩ := h.placed x hx
    refine ⟨?_, ?_⟩
    · rcases h2 x hpl hle with h | ⟨e, he, h⟩
      · exact .inl h
      · exact .inr ⟨e, by simp [he], h⟩
    · have := hpl.src_le fun e he => (h.ord.pos e he).2
      simp only; omega

theorem LocatedP.expands {inp : Str} {p p' : PSt} {rest : List Sl} (h : LocatedP inp p rest) (hx : Expands cf p p') :
    LocatedP inp p' rest := by
  induction hx with
  | refl => exact h
  | step h1 _ ih => exact ih (h.expand h1)

theorem Located.start {inp : Str} {s : State} {c : Sl} {A : Option AlignCount} {rest : List Instr} (hb : Base inp s) (h : Located inp s)
    (hs : s.stack = .sub c A :: rest) : LocatedP inp (startSt s c A) (texts rest) where
  input := hb.input
  ord := h.ord
  cont := h.placed c (by simp [hs, texts])
  placed x hx := ⟨h.placed x (by rw [hs]; simp [texts] at hx ⊢; exact .inr hx), by
    have := h.desc
    rw [hs] at this
    exact (List.pairwise_cons.1 this).1 x hx⟩

theorem texts_append (a b : List Instr) : texts (a ++ b) = texts a ++ texts b := by simp [texts]

theorem Located.next {inp : Str} {its : List Item} {s s' : State} (hb : Base inp s) (h : Located inp s) (hbuf : s.buf = [])
    (o : Option Item) (hst : step cf s = match o with | some i => .item i s' | none => .again s') (hno : NoErr (out its o)) :
    Located inp s' := by
  rcases step_cases o hst with ⟨e, rfl, hs, he⟩ | ⟨c, A, rfl, hs, he⟩ | ⟨c, A, rest, hs, hne⟩
  · have : texts s.stack = texts s'.stack := by rw [hs]; rfl
    exact ⟨by rw [he]; exact h.ord, fun x hx => by rw [he]; exact h.placed x (this ▸ hx), this ▸ h.desc⟩
  · have : texts s.stack = c :: texts s'.stack := by rw [hs]; rfl
    refine ⟨by rw [he]; exact h.ord, fun x hx => by rw [he]; exact h.placed x (by simp [this, hx]), ?_⟩
    have hd := h.desc
    rw [this] at hd
    exact (List.pairwise_cons.1 hd).2
  · obtain ⟨p1, hx, -, hr⟩ := step_sub (cf := cf) (st := false) hs (hb.wf c A (by simp [hs])) hne (by intro h; cases h) hb.calls
    have T := (h.start hb hs).expands hx
    rw [hst] at hr
    cases o with
    | some i =>
      obtain ⟨sp2, d, c', A', R⟩ := hr
      obtain ⟨e, ctx, rfl⟩ := R.item
      obtain ⟨e', h'⟩ := hno (.err e ctx) (by simp [out])
      cases h'
    | none =>
      obtain ⟨pre, D, c', A', R⟩ := hr
      have hstack : texts s'.stack = texts D ++ c' :: texts rest := by
        rw [R.eq, hbuf]
        rcases R.head with rfl | ⟨ty, p, rfl⟩ <;> simp [texts]
      have hsp : s'.sp = p1.sp := by rw [R.eq]
      have hD : ∀ x ∈ texts D, Sub x p1.h.content := fun x hx => by
        obtain ⟨B, hB⟩ := mem_texts.1 hx
        exact R.subs x B hB
      have hrest : (texts rest).Pairwise fun a b => b.src ≤ a.src := by
        have := h.desc
        rw [hs] at this
        exact (List.pairwise_cons.1 this).2
      refine ⟨by rw [hsp]; exact T.ord, fun x hx => ?_, ?_⟩
      · rw [hstack] at hx
        rw [hsp]
        simp only [List.mem_append, List.mem_cons] at hx
        rcases hx with hx | rfl | hx
        · exact T.cont.sub (hD x hx)
        · exact T.cont.sub R.sub
        · exact (T.placed x hx).1
      · rw [hstack]
        refine List.pairwise_append.2 ⟨?_, List.pairwise_cons.2 ⟨fun x hx => ?_, hrest⟩, ?_⟩
        · refine List.Pairwise.imp_of_mem (R := fun _ _ => True) ?_ (List.pairwise_of_forall (fun _ _ => trivial))
          intro a b ha hb _
          rw [(hD a ha).1, (hD b hb).1]; exact Nat.le_refl _
        · rw [R.sub.1]; exact (T.placed x hx).2
        · intro a ha b hb
          rw [(hD a ha).1]
          simp only [List.mem_cons] at hb
          rcases hb with rfl | hb
          · rw [R.sub.1]; exact Nat.le_refl _
          · exact (T.placed b hb).2

theorem Located.init (inp : Str) : Located inp (State.init inp) :=
  ⟨⟨by simp [State.init, Spans.init], by simp [State.init, Spans.init]⟩, by
    intro x hx
    simp [texts, State.init] at hx
    rw [hx]
    exact .inl (Sub.refl _), by simp [texts, State.init]⟩

theorem Exec.located {inp : Str} {its : List Item} {s : State} (h : Exec cf (State.init inp) its s) (hn : NoErr its) :
    Located inp s := by
  induction h with
  | init => exact .init inp
  | @item its _ i _ h0 h ih =>
    have hn' : NoErr its := fun j hj => hn j (by simp [hj])
    exact (ih hn').next (its := its) h0.base (h0.fine (st := false) hn' (by simp)).1.buf (some i) h hn
  | @again its _ _ h0 h ih => exact (ih hn).next (its := its) h0.base (h0.fine (st := false) hn (by simp)).1.buf none h hn

/-! ### Panics -/

theorem reach_none {sp : Spans} {ptr : Nat} (h : sp.reach cf ptr = none) : reachLoop cf sp.input ptr sp.exps = none := by
  unfold Spans.reach at h
  cases hr : reachLoop cf sp.input ptr sp.exps with
  | none => rfl
  | some y => rw [hr] at h; cases h

/-- The panics that can happen in the parser. -/
theorem Exec.panic {inp : Str} {its : List Item} {s : State} (h : Exec cf (State.init inp) its s) {p : Panic} (hp : step cf s = .panic p) :
    (p = .overflow ∧ cf.overflowChecks = true) ∨ (p = .sliceBoundary ∧ Wide inp) ∨ (p = .index ∧ Defines inp) ∨
    (p = .assertion ∧ Defines inp ∧ ∃ e ctx, Item.err e ctx ∈ its) := by
  have hb := h.base
  have hcase : ∃ c A rest, s.stack = .sub c A :: rest ∧ trimStart c.cs ≠ [] := by
    unfold step at hp
    cases hs : s.stack with
    | nil => rw [hs] at hp; cases hp
    | cons x rest =>
      rw [hs] at hp
      cases x with
      | ev e => cases hp
      | sub c A =>
        simp only at hp
        split at hp
        · cases hp
        · rename_i hne
          exact ⟨c, A, rest, rfl, by simpa using hne⟩
  obtain ⟨c, A, rest, hs, hne⟩ := hcase
  obtain ⟨p1, hx, -, hr⟩ := step_sub (cf := cf) (st := false) hs (hb.wf c A (by simp [hs])) hne (by intro h; cases h) hb.calls
  rw [hp] at hr
  have T := hb.onText hs hx
  cases hr with
  | lex hl =>
    rcases hl with ⟨rfl, hl⟩ | ⟨rfl, hl⟩
    · exact .inl ⟨rfl, hl⟩
    · exact .inr (.inl ⟨rfl, T.asc.wide hl⟩)
  | expansion hl =>
    obtain ⟨d, hd, he⟩ := tryExpand_mem hl
    obtain ⟨o, -, hdo⟩ := hb.macs _ hd
    have hdef : Defines inp := Classical.byContradiction fun hn => by
      rw [(hb.nodef hn).1] at hd
      cases hd
    rcases expand_panic hdo he with ⟨rfl, h⟩ | rfl
    · exact .inl ⟨rfl, h⟩
    · exact .inr (.inr (.inl ⟨rfl, hdef⟩))
  | assertion hsub hi hes hre =>
    have hre := reach_none hre
    rw [hi, hes, T.input] at hre
    have hdef : Defines inp := Classical.byContradiction fun hn => by
      obtain ⟨rfl, hc⟩ := T.nodef hn
      have he : (startSt s c A).sp.exps = [] := (hb.nodef hn).2.1
      rw [he] at hre
      obtain ⟨k, es', h1, -⟩ := reach_keep (cf := cf) hsub (es := []) (.inl hc) .nil (by simp)
      rw [h1] at hre
      cases hre
    refine .inr (.inr (.inr ⟨rfl, hdef, Classical.byContradiction fun hn => ?_⟩))
    have hno : NoErr its := by
      intro i hi
      cases i with
      | ok e => exact ⟨e, rfl⟩
      | err e ctx => exact absurd ⟨e, ctx, hi⟩ hn
    have L := ((h.located hno).start hb hs).expands hx
    obtain ⟨k, es', h1, -⟩ := reach_keep (cf := cf) hsub L.cont L.ord.desc fun e he => (L.ord.pos e he).1
    rw [h1] at hre
    cases hre

/-! ### Termination -/

theorem Expands.total {s s' : PSt} (h : Expands cf s s') :
    (s.sp.total < maxExpansionBytes ∧ s.sp.total < s'.sp.total) ∨
    (s'.sp.total = s.sp.total ∧ (s'.h.content = s.h.content ∨ s'.h.content.cs = [])) := by
  induction h with
  | refl => exact .inr ⟨rfl, .inl rfl⟩
  | @step s s1 s2 h1 h2 ih =>
    obtain ⟨name, rest, new, consumed, start, es, len, ht, -, -, hlt, hr, rfl⟩ := h1.ex
    cases new with
    | nil =>
      have : s2.sp.total = s.sp.total ∧ s2.h.content.cs = [] := by
        cases h2 with
        | refl => exact ⟨rfl, rfl⟩
        | step h3 _ =>
          obtain ⟨_, _, _, _, _, _, _, ht, _⟩ := h3.ex
          simp only at ht
          cases ht
      exact .inr ⟨this.1, .inr this.2⟩
    | cons c new =>
      have hpos : 0 < blen (c :: new) := by
        rw [blen_cons]
        have := Char.utf8Size_pos c
        omega
      refine .inl ⟨hlt, ?_⟩
      rcases ih with ⟨_, h⟩ | ⟨h, _⟩ <;> simp only at h <;> omega

/-- The measure that every step decreases. -/
def State.measure (s : State) : Nat × Nat := (maxExpansionBytes - s.sp.total, W s.stack + W s.buf)

def Less : Nat × Nat → Nat × Nat → Prop := Prod.Lex (· < ·) (· < ·)
theorem less_wf : WellFounded Less := (Prod.lex ⟨_, Nat.lt_wfRel.wf⟩ ⟨_, Nat.lt_wfRel.wf⟩).wf

theorem trim_ne {t : Str} (h : trimStart t ≠ []) : 1 ≤ t.length := by
  cases t with
  | nil => exact absurd rfl h
  | cons c t => simp

theorem measure_next {inp : Str} {s s' : State} (hb : Base inp s) (o : Option Item)
    (hst : step cf s = match o with | some i => .item i s' | none => .again s') : Less s'.measure s.measure := by
  rcases step_cases o hst with ⟨e, rfl, hs, he⟩ | ⟨c, A, rfl, hs, he⟩ | ⟨c, A, rest, hs, hne⟩
  · rw [he]; simp only [State.measure, hs]; exact Prod.Lex.right _ (by simp only [W]; omega)
  · rw [he]; simp only [State.measure, hs]; exact Prod.Lex.right _ (by simp [W]; omega)
  · obtain ⟨p1, hx, -, hr⟩ := step_sub (cf := cf) (st := false) hs (hb.wf c A (by simp [hs])) hne (by intro h; cases h) hb.calls
    have hlen := trim_ne hne
    have ht : (s.sp.total < maxExpansionBytes ∧ s.sp.total < p1.sp.total) ∨
      (p1.sp.total = s.sp.total ∧ (p1.h.content = c ∨ p1.h.content.cs = [])) := hx.total
    rw [hst] at hr
    cases o with
    | none =>
      obtain ⟨pre, D, c', A', R⟩ := hr
      rw [R.eq]
      rcases ht with ⟨h1, h2⟩ | ⟨h1, h2⟩
      · exact Prod.Lex.left _ _ (by simp only; omega)
      · simp only [State.measure, h1]
        refine Prod.Lex.right _ ?_
        have hw := R.weight
        simp only [hs, W_append, W] at hw ⊢
        rcases hw with hw | ⟨hw1, hw2⟩
        · rcases h2 with h2 | h2
          · rw [h2] at hw; omega
          · rw [h2] at hw; simp at hw
        · have : pre = [] ∧ D = [] := by simpa using hw1
          rw [this.1, this.2, hw2]; simp [W]; omega
    | some i =>
      obtain ⟨sp2, d, c', A', R⟩ := hr
      obtain ⟨k, hre⟩ := R.reach
      obtain ⟨-, -, r3, -⟩ := reach_sp hre
      have hto : s'.sp.total = p1.sp.total := by rw [r3, R.span.2.2.1]
      have hst2 : s'.stack = .sub c' A' :: rest := by rw [R.eq]
      have hbf : s'.buf = s.buf ++ d := by rw [R.eq]
      rcases ht with ⟨h1, h2⟩ | ⟨h1, h2⟩
      · exact Prod.Lex.left _ _ (by simp only [hto]; omega)
      · simp only [State.measure, hto, h1, hst2, hbf]
        refine Prod.Lex.right _ ?_
        have hw := R.weight
        simp only [hs, W_append, W] at hw ⊢
        rcases h2 with h2 | h2
        · rw [h2] at hw; omega
        · rw [h2] at hw; simp at hw

theorem run_ends {inp : Str} (s : State) (hb : Base inp s) : ∃ N, ∀ n ≥ N, run cf n s = run cf N s ∧
    ∀ s', (run cf n s).2 ≠ .more s' := by
  have key : ∀ r, ∀ s, Base inp s → s.measure = r → ∃ N, ∀ n ≥ N, run cf n s = run cf N s ∧ ∀ s', (run cf n s).2 ≠ .more s' := by
    intro r
    induction r using less_wf.induction with
    | _ r ih =>
      intro s hb hr
      cases h : step cf s with
      | done =>
        have e : ∀ n ≥ 1, run cf n s = ([], .done) := by
          intro n hn
          obtain ⟨m, rfl⟩ : ∃ m, n = m + 1 := ⟨n - 1, by omega⟩
          unfold run; rw [h]
        exact ⟨1, fun n hn => by rw [e n hn, e 1 (Nat.le_refl _)]; exact ⟨rfl, fun _ h => by cases h⟩⟩
      | panic p =>
        have e : ∀ n ≥ 1, run cf n s = ([], .panic p) := by
          intro n hn
          obtain ⟨m, rfl⟩ : ∃ m, n = m + 1 := ⟨n - 1, by omega⟩
          unfold run; rw [h]
        exact ⟨1, fun n hn => by rw [e n hn, e 1 (Nat.le_refl _)]; exact ⟨rfl, fun _ h => by cases h⟩⟩
      | again s1 =>
        have hb1 : Base inp s1 := hb.next (cf := cf) none h
        obtain ⟨N, hN⟩ := ih _ (hr ▸ measure_next hb none h) s1 hb1 rfl
        have e : ∀ n, run cf (n + 1) s = run cf n s1 := by
          intro n
          generalize hq : run cf n = q
          rw [run, hq, h]
        refine ⟨N + 1, fun n hn => ?_⟩
        obtain ⟨m, rfl⟩ : ∃ m, n = m + 1 := ⟨n - 1, by omega⟩
        rw [e, e]
        exact hN m (by omega)
      | item i s1 =>
        have hb1 : Base inp s1 := hb.next (cf := cf) (some i) h
        obtain ⟨N, hN⟩ := ih _ (hr ▸ measure_next hb (some i) h) s1 hb1 rfl
        have e : ∀ n, run cf (n + 1) s = (i :: (run cf n s1).1, (run cf n s1).2) := by
          intro n
          generalize hq : run cf n = q
          rw [run, hq, h]
        refine ⟨N + 1, fun n hn => ?_⟩
        obtain ⟨m, rfl⟩ : ∃ m, n = m + 1 := ⟨n - 1, by omega⟩
        rw [e, e]
        obtain ⟨h1, h2⟩ := hN m (by omega)
        exact ⟨by rw [h1], h2⟩
  exact key _ s hb rfl

theorem step_done {s : State} (h : step cf s = .done) : s.stack = [] := by
  cases hs : s.stack with
  | nil => rfl
  | cons x rest =>
    unfold step at h
    rw [hs] at h
    cases x with
    | ev e => cases h
    | sub c A =>
      simp only at h
      split at h
      · cases h
      · split at h
        · cases h
        · split at h <;> cases h
        · split at h <;> cases h

/-- One activation more. -/
theorem run_snoc (n : Nat) : ∀ (s s' : State), (run cf n s).2 = .more s' →
    run cf (n + 1) s = match step cf s' with
      | .done => ((run cf n s).1, .done)
      | .panic p => ((run cf n s).1, .panic p)
      | .again s'' => ((run cf n s).1, .more s'')
      | .item i s'' => ((run cf n s).1 ++ [i], .more s'') := by
  induction n with
  | zero =>
    intro s s' h
    cases h
    unfold run
    cases step cf s <;> rfl
  | succ n ih =>
    intro s s' h
    generalize hq : run cf (n + 1) = q at *
    rw [run]
    rw [← hq, run] at h ⊢
    cases hs : step cf s with
    | done => rw [hs] at h; cases h
    | panic p => rw [hs] at h; cases h
    | again s1 =>
      rw [hs] at h
      simp only at h ⊢
      rw [hq]
      exact ih s1 s' h
    | item i s1 =>
      rw [hs] at h
      simp only at h ⊢
      rw [hq, ih s1 s' h]
      cases step cf s' <;> rfl

theorem run_more (n m : Nat) : ∀ (s : State), (run cf n s).1 <+: (run cf (n + m) s).1 := by
  induction n with
  | zero => intro s; exact List.nil_prefix
  | succ n ih =>
    intro s
    rw [show n + 1 + m = (n + m) + 1 by omega, run, run]
    cases step cf s with
    | done => exact List.prefix_refl _
    | panic p => exact List.prefix_refl _
    | again s1 => exact ih s1
    | item i s1 => exact List.cons_prefix_cons.2 ⟨rfl, ih s1⟩

end PL
