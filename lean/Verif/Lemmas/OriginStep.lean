import Verif.Lemmas.Origin
import Verif.Lemmas.FitsStep
set_option autoImplicit false
set_option linter.unusedSectionVars false
/-! # Where texts come from: steps -/
namespace PL
open Lex Spec Macros

variable {cf : Cfg} {Q : Str → Prop} [Cut Q]

theorem prim_comes (name : Str) : (primOf name).comes = true := by
  have h1 : ∀ p ∈ primTable, p.2.comes = true := by decide +kernel
  unfold primOf
  cases h : primTable.lookup name with
  | some p => exact h1 _ (lookup_mem_gen h)
  | none =>
    dsimp only
    cases controlSequenceDelimiterMap name with
    | some x => rfl
    | none => dsimp only; split <;> rfl

theorem from_handleToken (n : Nat) : ∀ t : HTok, t.comes Q → Froms Q Any (handleToken cf n t) := by
  induction n with
  | zero => intro t _; exact Froms.boom _
  | succ n ih =>
    intro t ht
    cases t with
    | cs name => exact from_execPrim ih _ (prim_comes name)
    | chr c ctx => exact from_handleChar c ht

theorem from_limits : Froms Q Any limits := by
  refine Froms.bind Froms.get fun st hst => Froms.ite ?_ (Froms.pure trivial)
  have h := limitModifiers_suffix st.content.cs
  generalize limitModifiers st.content.cs = x at h
  obtain ⟨o, rest⟩ := x
  have hl : rest <:+: st.content.cs := h.isInfix
  cases o with
  | none => exact Froms.set (from_cs hst hl)
  | some b => cases b <;> exact Froms.set (from_cs hst hl)

theorem from_scripts {rec : HTok → H PUnit} (hr : ∀ t, t.comes Q → Froms Q Any (rec t)) :
    Froms Q (fun d : Option Desc => ∀ x, d = some x → Origin Q x.event) (scripts rec) := by
  refine Froms.bind Froms.get fun st _ => Froms.ite (Froms.pure (by intro x h; cases h)) ?_
  refine Froms.bind from_limits fun _ _ => Froms.bind (Froms.modify fun s hs => from_cs hs (trimStart_suffix _).isInfix) fun _ _ => Froms.bind Froms.get fun s hs => ?_
  split
  · rename_i c rest e
    have h1 : rest <:+: s.content.cs := ⟨[c], [], by rw [e]; simp⟩
    have last : ∀ (a b d e : Nat) (k : Bool), Froms Q (fun d : Option Desc => ∀ x, d = some x → Origin Q x.event) (do
        let s' ← M.get
        return some ⟨.script (if a = s'.buf.length then (if k = true then .sub else .sup) else .subSup) s'.pos, d, e⟩ : H (Option Desc)) := by
      intro a b d e k
      refine Froms.bind Froms.get fun s' _ => Froms.pure ?_
      intro x h; cases h; exact trivial
    refine Froms.ite ?_ (Froms.pure (by intro x h; cases h))
    refine Froms.bind (Froms.set (from_cs hs h1)) fun _ _ => Froms.bind Froms.argument fun a ha => Froms.bind (from_handleArgument hr ha) fun _ _ =>
      Froms.bind Froms.get fun s2 hs2 => ?_
    refine Froms.ite ?_ (Froms.ite Froms.fail (last _ 0 _ _ _))
    refine Froms.bind (Froms.set (from_cs hs2 (List.tail_suffix _).isInfix)) fun _ _ => Froms.bind Froms.argument fun a ha => Froms.bind (from_handleArgument hr ha) fun _ _ =>
      Froms.bind Froms.get fun t _ => ?_
    split
    · exact Froms.fail
    · exact Froms.fail
    · exact last _ 0 _ _ _
  · exact Froms.pure (by intro x h; cases h)

theorem from_atom {t : HTok} (ht : t.comes Q) : Froms Q (fun d : Option Desc => ∀ x, d = some x → Origin Q x.event) (atom cf t) :=
  Froms.bind Froms.get fun _ _ => Froms.bind (from_handleToken _ t ht) fun _ _ => Froms.bind Froms.get fun _ _ => from_scripts (from_handleToken _)

/-- Everything pending comes from `Q`. -/
def State.comes (Q : Str → Prop) (s : State) : Prop := ∀ i ∈ s.stack ++ s.buf, InstrFrom Q i

theorem parse_from {s : PSt} (hb : ∀ i ∈ s.h.buf, InstrFrom Q i) (hE : ∀ q, Expands cf s q → Q q.h.content.cs) :
    Sat (fun d st => (∀ x, d = some x → Origin Q x.event) ∧ st.h.comes Q) (fun _ st => st.h.comes Q) (fun _ => True) (parse cf s) := by
  obtain ⟨q, h1, h2⟩ := parse_spec cf s
  have h3 : q.h.comes Q := ⟨hE q h1, by rw [h1.h]; exact hb⟩
  have hsuf := good_token (cf := cf) q.h.content.cs
  revert h2
  generalize parse cf s = r
  intro h2
  cases h2 with
  | @nothing rest ht =>
    rw [ht] at hsuf
    exact ⟨by (intro x h; cases h), from_cs h3 hsuf.isInfix⟩
  | @error e rest ht =>
    rw [ht] at hsuf
    exact from_cs h3 hsuf.isInfix
  | @atom t rest ht hn =>
    rw [ht] at hsuf
    have hf : (HTok.ofTok q.h.content t).comes Q := by
      have h3 := h3.1
      have ht := token_facts ht
      cases t with
      | cs name => exact trivial
      | chr c r' =>
        obtain ⟨rfl, k, hk, e, -⟩ := ht
        exact Cut.infix ⟨k, [], by rw [e]; simp⟩ h3
    have := from_atom (cf := cf) hf { q.h with content := { q.h.content with cs := rest } } (from_cs h3 hsuf.isInfix)
    unfold liftH
    dsimp only
    revert this
    cases atom cf (HTok.ofTok q.h.content t) { q.h with content := { q.h.content with cs := rest } } with
    | ok d st => exact fun h => h
    | err e st => exact fun h => h
    | panic p => intro _; exact trivial
  | macroPanic => exact trivial
  | @macroError name rest e sp ht i1 i2 i3 i4 he =>
    rw [ht] at hsuf
    exact from_cs h3 hsuf.isInfix
  | assertion => exact trivial

theorem step_from {s s' : State} {o : Option Item} (hs : s.comes Q)
    (hE : ∀ c A rest q, s.stack = .sub c A :: rest → Expands cf (startSt s c A) q → Q q.h.content.cs)
    (h : step cf s = match o with | some i => .item i s' | none => .again s') :
    s'.comes Q ∧ ∀ e, o = some (.ok e) → Origin Q e := by
  unfold step at h
  cases hst : s.stack with
  | nil => rw [hst] at h; cases o <;> cases h
  | cons x rest =>
    rw [hst] at h
    have hx : InstrFrom Q x := hs x (by simp [hst])
    have hrest : ∀ i ∈ rest ++ s.buf, InstrFrom Q i := fun i hi => hs i (by rw [hst]; exact List.mem_cons_of_mem _ hi)
    cases x with
    | ev e =>
      cases o <;> cases h
      exact ⟨hrest, fun i hi => by cases hi; exact hx⟩
    | sub c A =>
      dsimp only at h
      by_cases hb : (trimStart c.cs).isEmpty = true
      · rw [if_pos hb] at h
        cases o <;> cases h
        exact ⟨hrest, fun i hi => by cases hi⟩
      · rw [if_neg hb] at h
        have hp := parse_from (Q := Q) (cf := cf) (s := startSt s c A) (fun i hi => hs i (by simp [show i ∈ s.buf from hi])) (fun q hq => hE c A rest q hst hq)
        revert hp h
        change (match parse cf (startSt s c A) with | .panic p => _ | .err e st => _ | .ok d st => _) = _ → _
        cases parse cf (startSt s c A) with
        | panic p => intro h; cases o <;> cases h
        | err e st =>
          intro h h2
          dsimp only at h
          cases he : errorContext cf st.sp (st.h.content.ptr cf) with
          | error p => rw [he] at h; cases o <;> cases h
          | ok y =>
            obtain ⟨ctx, sp⟩ := y
            rw [he] at h
            cases o with
            | none => cases h
            | some i =>
              cases h
              refine ⟨?_, fun i hi => by cases hi⟩
              intro i hi
              simp only [List.cons_append, List.mem_cons, List.mem_append] at hi
              rcases hi with rfl | hi | hi
              · exact h2.1
              · exact hrest i (by simp [hi])
              · exact h2.2 i hi
        | ok d st =>
          intro h ⟨h1, h2⟩
          dsimp only at h
          cases he : unstage st.h.buf (.sub st.h.content st.h.align :: rest) d with
          | error p => rw [he] at h; cases o <;> cases h
          | ok y =>
            rw [he] at h
            cases o with
            | some i => cases h
            | none =>
              cases h
              refine ⟨?_, fun i hi => by cases hi⟩
              intro i hi
              simp only [List.append_nil] at hi
              rcases unstage_mem he i hi with hi | hi | ⟨x, rfl, rfl⟩
              · exact h2.2 i hi
              · rcases List.mem_cons.1 hi with rfl | hi
                · exact h2.1
                · exact hrest i (by simp [hi])
              · exact h1 x rfl

/-- The definitions come from texts with the property. -/
def MacrosFrom (Q : Str → Prop) (s : State) : Prop := ∀ x ∈ s.macros, ∃ o, Q o ∧ DefFrom o x.2

theorem step_macros {inp : Str} {s s' : State} {o : Option Item} (hb : Base inp s) (hm : MacrosFrom Q s)
    (hE : ∀ c A rest q, s.stack = .sub c A :: rest → Expands cf (startSt s c A) q → Q q.h.content.cs)
    (h : step cf s = match o with | some i => .item i s' | none => .again s') : MacrosFrom Q s' := by
  rcases step_cases o h with ⟨e, rfl, hs, he⟩ | ⟨c, A, rfl, hs, he⟩ | ⟨c, A, rest, hs, hne⟩
  · rw [he]; exact hm
  · rw [he]; exact hm
  · obtain ⟨p1, hx, -, hr⟩ := step_sub (cf := cf) (st := false) hs (hb.wf c A (by simp [hs])) hne (by intro h; cases h) hb.calls
    rw [h] at hr
    have key : ∀ x, (x ∈ s.macros ∨ Defines p1.h.content.cs ∧ DefFrom p1.h.content.cs x.2) → ∃ o, Q o ∧ DefFrom o x.2 := by
      intro x hx'
      rcases hx' with h | h
      · exact hm x h
      · exact ⟨_, hE c A rest p1 hs hx, h.2⟩
    cases o with
    | none => obtain ⟨pre, D, c', A', R⟩ := hr; exact fun x hx => key x (R.mac x hx)
    | some i => obtain ⟨sp2, d, c', A', R⟩ := hr; exact fun x hx => key x (R.mac x hx)

/-- When expansions keep the property, every text in an event has it or is fixed. -/
theorem exec_from {inp : Str} (hi : Q inp)
    (hE : ∀ s : State, Base inp s → s.comes Q → MacrosFrom Q s →
      ∀ c A rest q, s.stack = .sub c A :: rest → Expands cf (startSt s c A) q → Q q.h.content.cs)
    {its : List Item} {s : State} (h : Exec cf (State.init inp) its s) :
    s.comes Q ∧ MacrosFrom Q s ∧ ∀ e, .ok e ∈ its → Origin Q e := by
  induction h with
  | init =>
    refine ⟨fun i hi' => ?_, ?_, by simp⟩
    · simp [State.init] at hi'
      subst hi'
      exact hi
    · intro x hx; cases hx
  | @item its s i s' h0 hst ih =>
    have hE' := hE s h0.base ih.1 ih.2.1
    obtain ⟨h1, h3⟩ := step_from (o := some i) ih.1 hE' hst
    refine ⟨h1, step_macros (o := some i) h0.base ih.2.1 hE' hst, fun e he => ?_⟩
    rcases List.mem_append.1 he with he | he
    · exact ih.2.2 e he
    · simp only [List.mem_singleton] at he
      exact h3 e (by rw [he])
  | @again its s s' h0 hst ih =>
    have hE' := hE s h0.base ih.1 ih.2.1
    exact ⟨(step_from (o := none) ih.1 hE' hst).1, step_macros (o := none) h0.base ih.2.1 hE' hst, ih.2.2⟩

end PL
