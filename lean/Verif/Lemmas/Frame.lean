import Verif.Lemmas.Sim
set_option autoImplicit false
/-!
# What lies under the top of the stack does not matter
-/
namespace PL
open Lex Spec

variable {cf : Cfg}

/-- More instructions under those of a state. -/
def State.over (s : State) (B : List Instr) : State := { s with stack := s.stack ++ B }

theorem unstage_over (buf S B : List Instr) (d : Option Desc) :
    unstage buf (S ++ B) d = (unstage buf S d).map (· ++ B) := by
  cases d with
  | none => simp [unstage, Except.map]
  | some d =>
    unfold unstage
    dsimp only
    split
    · split
      · rfl
      · cases fillSlots (buf.drop d.sup).reverse (d.sub - d.sup) (List.replicate (buf.drop d.sup).reverse.length none) with
        | none => rfl
        | some slots =>
          dsimp only
          cases slots.mapM (id : Option Instr → Option Instr) with
          | none => rfl
          | some added => simp [Except.map]
    · split
      · rfl
      · simp [Except.map]

/-- The result of a step, with more instructions below. -/
def Step.over (B : List Instr) : Step → Step
  | .item i s => .item i (s.over B)
  | .again s => .again (s.over B)
  | .done => .done
  | .panic p => .panic p

theorem step_over {s : State} (B : List Instr) (hs : s.stack ≠ []) : step cf (s.over B) = (step cf s).over B := by
  cases hst : s.stack with
  | nil => exact absurd hst hs
  | cons x rest =>
    cases x with
    | ev e =>
      unfold step State.over
      rw [hst]
      rfl
    | sub c A =>
      have e : startSt (s.over B) c A = startSt s c A := rfl
      unfold step
      rw [show (s.over B).stack = .sub c A :: (rest ++ B) by unfold State.over; rw [hst]; rfl, hst]
      simp only [e]
      split
      · rfl
      · cases parse cf (startSt s c A) with
        | panic p => rfl
        | err e st =>
          dsimp only
          cases errorContext cf st.sp (st.h.content.ptr cf) with
          | error p => rfl
          | ok x => rfl
        | ok d st =>
          dsimp only
          rw [show Instr.sub st.h.content st.h.align :: (rest ++ B) = (Instr.sub st.h.content st.h.align :: rest) ++ B from rfl, unstage_over]
          cases unstage st.h.buf (.sub st.h.content st.h.align :: rest) d <;> rfl

theorem exec_over {s s' : State} {its : List Item} (B : List Instr) (h : Exec cf s its s') : Exec cf (s.over B) its (s'.over B) := by
  have hne : ∀ {s : State}, step cf s ≠ .done → s.stack ≠ [] := by
    intro s h he
    apply h
    unfold step
    rw [he]
  induction h with
  | init => exact .init
  | item _ hst ih =>
    refine ih.item ?_
    rw [step_over B (hne (by rw [hst]; simp)), hst]
    rfl
  | again _ hst ih =>
    refine ih.again ?_
    rw [step_over B (hne (by rw [hst]; simp)), hst]
    rfl

/-- Fewer or other instructions among those of a state. -/
theorem Base.part {inp : Str} {s s' : State} (h : Base inp s) (h1 : s'.sp = s.sp) (h2 : s'.macros = s.macros)
    (h3 : ∀ x A, Instr.sub x A ∈ s'.stack ++ s'.buf → ∃ A', Instr.sub x A' ∈ s.stack ++ s.buf) : Base inp s' where
  input := by rw [h1]; exact h.input
  calls := by rw [h1]; exact h.calls
  depth := by rw [h1]; exact h.depth
  wf x A hx := by obtain ⟨A', h⟩ := h3 x A hx; exact Base.wf ‹_› x A' h
  asc x A hx := by obtain ⟨A', h⟩ := h3 x A hx; exact Base.asc ‹_› x A' h
  macs := by rw [h2]; exact h.macs
  nodef hn := ⟨by rw [h2]; exact (h.nodef hn).1, by rw [h1]; exact (h.nodef hn).2.1, fun x A hx => by
    obtain ⟨A', h'⟩ := h3 x A hx; exact (h.nodef hn).2.2 x A' h'⟩

/-- Running a text to its end from some state amounts to running it as an input. -/
theorem exec_text {inp X : Str} {s : State} {c : Sl} {A : Option AlignCount} {its : List Item} {t : State} (hb : Base inp s) (hn : ¬ Defines inp)
    (hs : s.stack = [.sub c A]) (hbuf : s.buf = []) (hX : ¬ Defines X) (hc : c.cs = X) (hA : A = none) (he : Exec cf (State.init X) its t) :
    ∃ its' s', Exec cf s its' s' ∧ its'.map Item.bare = its.map Item.bare ∧ Alike t s' ∧ Base inp s' := by
  have ha : Alike (State.init X) s := by
    subst hA
    refine ⟨?_, by rw [hbuf]; rfl⟩
    rw [hs]
    simp [State.init, Instr.er, Sl.er, hc]
  exact (exec_sim (Base.init X) hb hX hn ha he).2

theorem Alike.empty {s t : State} (h : Alike s t) (hs : s.stack = []) : t.stack = [] := by
  have := h.stack
  rw [hs] at this
  simpa using this.symm

theorem Alike.noBuf {s t : State} (h : Alike s t) (hs : s.buf = []) : t.buf = [] := by
  have := h.buf
  rw [hs] at this
  simpa using this.symm

end PL
