import Verif.Lemmas.NoTag
import Verif.Lemmas.OriginStep
set_option autoImplicit false
set_option linter.unusedSectionVars false
/-! # Where the character that begins a tag comes from: steps -/
namespace PL
open Lex Spec Macros

variable {cf : Cfg} {Q : Str → Prop} [NoTag Q]

theorem prim_safe {name : Str} (h1 : name ≠ c!"lt") (h2 : name ≠ c!"char") : (primOf name).safe = true := by
  have h : ∀ p ∈ primTable, p.1 ≠ c!"lt" → p.1 ≠ c!"char" → p.2.safe = true := by decide +kernel
  unfold primOf
  cases hl : primTable.lookup name with
  | some p => exact h _ (lookup_mem_gen hl) h1 h2
  | none =>
    dsimp only
    cases hc : controlSequenceDelimiterMap name with
    | some x => exact (by simpa using csDelimiterMap_safe hc : (x.1 != '<') = true)
    | none => dsimp only; split <;> rfl

theorem safe_handleToken (n : Nat) : ∀ t : HTok, t.safe Q → Safes Q Any (handleToken cf n t) := by
  induction n with
  | zero => intro t _; exact Safes.boom _
  | succ n ih =>
    intro t ht
    cases t with
    | cs name =>
      refine safe_execPrim ih _ (prim_safe ?_ ?_)
      · rintro rfl; exact NoTag.lt (Q := Q) ht
      · rintro rfl; exact NoTag.char (Q := Q) ht
    | chr c ctx => exact safe_handleChar ht.1 ht.2

theorem safe_limits : Safes Q Any limits := by
  refine Safes.bind Safes.get fun st hst => Safes.ite ?_ (Safes.pure trivial)
  have h := limitModifiers_suffix st.content.cs
  generalize limitModifiers st.content.cs = x at h
  obtain ⟨o, rest⟩ := x
  have hl : rest <:+: st.content.cs := h.isInfix
  cases o with
  | none => exact Safes.set (safe_cs hst hl)
  | some b => cases b <;> exact Safes.set (safe_cs hst hl)

theorem safe_scripts {rec : HTok → H PUnit} (hr : ∀ t, t.safe Q → Safes Q Any (rec t)) :
    Safes Q (fun d : Option Desc => ∀ x, d = some x → SafeEvent x.event) (scripts rec) := by
  refine Safes.bind Safes.get fun st _ => Safes.ite (Safes.pure (by intro x h; cases h)) ?_
  refine Safes.bind safe_limits fun _ _ => Safes.bind (Safes.modify fun s hs => safe_cs hs (trimStart_suffix _).isInfix) fun _ _ => Safes.bind Safes.get fun s hs => ?_
  split
  · rename_i c rest e
    have h1 : rest <:+: s.content.cs := ⟨[c], [], by rw [e]; simp⟩
    have last : ∀ (a b d e : Nat) (k : Bool), Safes Q (fun d : Option Desc => ∀ x, d = some x → SafeEvent x.event) (do
        let s' ← M.get
        return some ⟨.script (if a = s'.buf.length then (if k = true then .sub else .sup) else .subSup) s'.pos, d, e⟩ : H (Option Desc)) := by
      intro a b d e k
      refine Safes.bind Safes.get fun s' _ => Safes.pure ?_
      intro x h; cases h; exact trivial
    refine Safes.ite ?_ (Safes.pure (by intro x h; cases h))
    refine Safes.bind (Safes.set (safe_cs hs h1)) fun _ _ => Safes.bind Safes.argument fun a ha => Safes.bind (safe_handleArgument hr ha) fun _ _ =>
      Safes.bind Safes.get fun s2 hs2 => ?_
    refine Safes.ite ?_ (Safes.ite Safes.fail (last _ 0 _ _ _))
    refine Safes.bind (Safes.set (safe_cs hs2 (List.tail_suffix _).isInfix)) fun _ _ => Safes.bind Safes.argument fun a ha => Safes.bind (safe_handleArgument hr ha) fun _ _ =>
      Safes.bind Safes.get fun t _ => ?_
    split
    · exact Safes.fail
    · exact Safes.fail
    · exact last _ 0 _ _ _
  · exact Safes.pure (by intro x h; cases h)

theorem safe_atom {t : HTok} (ht : t.safe Q) : Safes Q (fun d : Option Desc => ∀ x, d = some x → SafeEvent x.event) (atom cf t) :=
  Safes.bind Safes.get fun _ _ => Safes.bind (safe_handleToken _ t ht) fun _ _ => Safes.bind Safes.get fun _ _ => safe_scripts (safe_handleToken _)

/-- Everything pending comes from `Q`. -/
def State.safe (Q : Str → Prop) (s : State) : Prop := ∀ i ∈ s.stack ++ s.buf, InstrSafe Q i

theorem parse_safe {s : PSt} (hb : ∀ i ∈ s.h.buf, InstrSafe Q i) (hE : ∀ q, Expands cf s q → Q q.h.content.cs) :
    Sat (fun d st => (∀ x, d = some x → SafeEvent x.event) ∧ st.h.safe Q) (fun _ st => st.h.safe Q) (fun _ => True) (parse cf s) := by
  obtain ⟨q, h1, h2⟩ := parse_spec cf s
  have h3 : q.h.safe Q := ⟨hE q h1, by rw [h1.h]; exact hb⟩
  have hsuf := good_token (cf := cf) q.h.content.cs
  revert h2
  generalize parse cf s = r
  intro h2
  cases h2 with
  | @nothing rest ht =>
    rw [ht] at hsuf
    exact ⟨by (intro x h; cases h), safe_cs h3 hsuf.isInfix⟩
  | @error e rest ht =>
    rw [ht] at hsuf
    exact safe_cs h3 hsuf.isInfix
  | @atom t rest ht hn =>
    rw [ht] at hsuf
    have hf : (HTok.ofTok q.h.content t).safe Q := by
      have h3 := h3.1
      have ht := token_facts ht
      cases t with
      | cs name =>
        obtain ⟨k, w, -, -, -, e⟩ := ht
        exact Cut.infix ⟨k, w ++ rest, by rw [e]; simp⟩ h3
      | chr c r' =>
        obtain ⟨rfl, k, hk, e, -⟩ := ht
        have := Cut.infix (Q := Q) (a := c :: r') ⟨k, [], by rw [e]; simp⟩ h3
        exact ⟨NoTag.head this, this⟩
    have := safe_atom (cf := cf) hf { q.h with content := { q.h.content with cs := rest } } (safe_cs h3 hsuf.isInfix)
    unfold liftH
    dsimp only
    revert this
    cases atom cf (HTok.ofTok q.h.content t) { q.h with content := { q.h.content with cs := rest } } with
    | ok d st => exact fun h => h
    | err e st => exact fun h => h
    | panic p => intro _; exact trivial
  | macroPanic => exact trivial
  | @macroError name rest e sp ht i1 i2 i3 i4 he =>
    rw [ht] at hsuf
    exact safe_cs h3 hsuf.isInfix
  | assertion => exact trivial

theorem step_safe {s s' : State} {o : Option Item} (hs : s.safe Q)
    (hE : ∀ c A rest q, s.stack = .sub c A :: rest → Expands cf (startSt s c A) q → Q q.h.content.cs)
    (h : step cf s = match o with | some i => .item i s' | none => .again s') :
    s'.safe Q ∧ ∀ e, o = some (.ok e) → SafeEvent e := by
  unfold step at h
  cases hst : s.stack with
  | nil => rw [hst] at h; cases o <;> cases h
  | cons x rest =>
    rw [hst] at h
    have hx : InstrSafe Q x := hs x (by simp [hst])
    have hrest : ∀ i ∈ rest ++ s.buf, InstrSafe Q i := fun i hi => hs i (by rw [hst]; exact List.mem_cons_of_mem _ hi)
    cases x with
    | ev e =>
      cases o <;> cases h
      exact ⟨hrest, fun i hi => by cases hi; exact hx⟩
    | sub c A =>
      dsimp only at h
      by_cases hb : (trimStart c.cs).isEmpty = true
      · rw [if_pos hb] at h
        cases o <;> cases h
        exact ⟨hrest, fun i hi => by cases hi⟩
      · rw [if_neg hb] at h
        have hp := parse_safe (Q := Q) (cf := cf) (s := startSt s c A) (fun i hi => hs i (by simp [show i ∈ s.buf from hi])) (fun q hq => hE c A rest q hst hq)
        revert hp h
        change (match parse cf (startSt s c A) with | .panic p => _ | .err e st => _ | .ok d st => _) = _ → _
        cases parse cf (startSt s c A) with
        | panic p => intro h; cases o <;> cases h
        | err e st =>
          intro h h2
          dsimp only at h
          cases he : errorContext cf st.sp (st.h.content.ptr cf) with
          | error p => rw [he] at h; cases o <;> cases h
          | ok y =>
            obtain ⟨ctx, sp⟩ := y
            rw [he] at h
            cases o with
            | none => cases h
            | some i =>
              cases h
              refine ⟨?_, fun i hi => by cases hi⟩
              intro i hi
              simp only [List.cons_append, List.mem_cons, List.mem_append] at hi
              rcases hi with rfl | hi | hi
              · exact h2.1
              · exact hrest i (by simp [hi])
              · exact h2.2 i hi
        | ok d st =>
          intro h ⟨h1, h2⟩
          dsimp only at h
          cases he : unstage st.h.buf (.sub st.h.content st.h.align :: rest) d with
          | error p => rw [he] at h; cases o <;> cases h
          | ok y =>
            rw [he] at h
            cases o with
            | some i => cases h
            | none =>
              cases h
              refine ⟨?_, fun i hi => by cases hi⟩
              intro i hi
              simp only [List.append_nil] at hi
              rcases unstage_mem he i hi with hi | hi | ⟨x, rfl, rfl⟩
              · exact h2.2 i hi
              · rcases List.mem_cons.1 hi with rfl | hi
                · exact h2.1
                · exact hrest i (by simp [hi])
              · exact h1 x rfl

/-- When expansions keep the property, every text in an event has it or is fixed. -/
theorem exec_safe {inp : Str} (hi : Q inp)
    (hE : ∀ s : State, Base inp s → s.safe Q → MacrosFrom Q s →
      ∀ c A rest q, s.stack = .sub c A :: rest → Expands cf (startSt s c A) q → Q q.h.content.cs)
    {its : List Item} {s : State} (h : Exec cf (State.init inp) its s) :
    s.safe Q ∧ MacrosFrom Q s ∧ ∀ e, .ok e ∈ its → SafeEvent e := by
  induction h with
  | init =>
    refine ⟨fun i hi' => ?_, ?_, by simp⟩
    · simp [State.init] at hi'
      subst hi'
      exact hi
    · intro x hx; cases hx
  | @item its s i s' h0 hst ih =>
    have hE' := hE s h0.base ih.1 ih.2.1
    obtain ⟨h1, h3⟩ := step_safe (o := some i) ih.1 hE' hst
    refine ⟨h1, step_macros (o := some i) h0.base ih.2.1 hE' hst, fun e he => ?_⟩
    rcases List.mem_append.1 he with he | he
    · exact ih.2.2 e he
    · simp only [List.mem_singleton] at he
      exact h3 e (by rw [he])
  | @again its s s' h0 hst ih =>
    have hE' := hE s h0.base ih.1 ih.2.1
    exact ⟨(step_safe (o := none) ih.1 hE' hst).1, step_macros (o := none) h0.base ih.2.1 hE' hst, ih.2.2⟩

end PL
