import Verif.Lemmas.Render.Writer
set_option autoImplicit false
/-! # Weakest preconditions of renderer computations -/
namespace PL.Mathml
open W (boom get modify out)

/-- `m` returns from `s`, with `Q` of the result and the final state. -/
def wp {α : Type} (m : W α) (Q : α → RSt → Prop) (s : RSt) : Prop := ∃ a s', m s = .ok a s' ∧ Q a s'

theorem wp_pure {α : Type} (a : α) (Q : α → RSt → Prop) (s : RSt) : wp (Pure.pure a) Q s ↔ Q a s :=
  ⟨fun ⟨_, _, h, hq⟩ => by cases h; exact hq, fun h => ⟨_, _, rfl, h⟩⟩

theorem wp_bind {α β : Type} (m : W α) (f : α → W β) (Q : β → RSt → Prop) (s : RSt) :
    wp (m >>= f) Q s ↔ wp m (fun a s' => wp (f a) Q s') s := by
  constructor
  · rintro ⟨b, s', h, hq⟩
    rw [run_bind] at h
    cases hm : m s with
    | ok a s1 => rw [hm] at h; exact ⟨a, s1, hm, b, s', h, hq⟩
    | io w => rw [hm] at h; cases h
    | panic p => rw [hm] at h; cases h
  · rintro ⟨a, s1, hm, b, s', h, hq⟩
    exact ⟨b, s', by rw [run_bind, hm]; exact h, hq⟩

theorem wp_mono {α : Type} {m : W α} {Q R : α → RSt → Prop} {s : RSt} (h : wp m Q s) (hr : ∀ a s', Q a s' → R a s') :
    wp m R s := by
  obtain ⟨a, s', e, q⟩ := h
  exact ⟨a, s', e, hr _ _ q⟩

theorem wp_get (Q : RSt → RSt → Prop) (s : RSt) : wp W.get Q s ↔ Q s s :=
  ⟨fun ⟨_, _, h, hq⟩ => by cases h; exact hq, fun h => ⟨_, _, rfl, h⟩⟩

theorem wp_modify (f : RSt → RSt) (Q : PUnit → RSt → Prop) (s : RSt) : wp (W.modify f) Q s ↔ Q ⟨⟩ (f s) :=
  ⟨fun ⟨_, _, h, hq⟩ => by cases h; exact hq, fun h => ⟨_, _, rfl, h⟩⟩

theorem wp_out (t : Str) (Q : PUnit → RSt → Prop) (s : RSt) (hb : s.budget = none) :
    wp (W.out t) Q s ↔ Q ⟨⟩ { s with out := s.out ++ t } := by
  have : W.out t s = .ok ⟨⟩ { s with out := s.out ++ t } := by unfold W.out; rw [hb]
  constructor
  · rintro ⟨a, s', h, hq⟩
    rw [this] at h
    cases h
    exact hq
  · intro h; exact ⟨_, _, this, h⟩

theorem wp_boom {α : Type} (p : Panic) (Q : α → RSt → Prop) (s : RSt) : ¬ wp (W.boom p) Q s := by
  rintro ⟨_, _, h, _⟩; cases h

section
variable (pk rt : List RItem) (o : Str) (env : List EnvR) (st : RState) (ss : List RState) (pv : Option Atom) (rc : Bool)

theorem wp_out' (t : Str) (Q : PUnit → RSt → Prop) : wp (W.out t) Q ⟨pk, rt, o, none, env, ss, pv, rc⟩ ↔
    Q ⟨⟩ ⟨pk, rt, o ++ t, none, env, ss, pv, rc⟩ := wp_out _ _ _ rfl

theorem wp_state (Q : RState → RSt → Prop) : wp state Q ⟨pk, rt, o, none, env, st :: ss, pv, rc⟩ ↔
    Q st ⟨pk, rt, o, none, env, st :: ss, pv, rc⟩ := by
  rw [state, wp_bind, wp_get]
  exact wp_pure _ _ _

theorem wp_updState (f : RState → RState) (Q : PUnit → RSt → Prop) :
    wp (updState f) Q ⟨pk, rt, o, none, env, st :: ss, pv, rc⟩ ↔
    Q ⟨⟩ ⟨pk, rt, o, none, env, f st :: ss, pv, rc⟩ := by
  rw [updState, wp_bind, wp_get]
  exact wp_modify _ _ _

theorem wp_openTag (tag : Str) (cl : Option Str) (Q : PUnit → RSt → Prop) :
    wp (openTag tag cl) Q ⟨pk, rt, o, none, env, st :: ss, pv, rc⟩ ↔
    Q ⟨⟩ ⟨pk, rt, o ++ openTagStr st env tag cl, none, env, st :: ss, pv, rc⟩ := by
  rw [openTag, wp_bind, wp_state, wp_bind, wp_get, wp_out']

/-- What `setPrev` makes of the previous atom. -/
def prevOf (env : List EnvR) (p : Option Atom) (a : Atom) : Option Atom :=
  if (match env with
    | .visual .root 0 :: _ => true
    | .visual (.fraction _) 0 :: _ => true
    | env => inScriptOperand env) then p else some a

theorem setPrev_eq (a : Atom) (s : RSt) : setPrev a s = .ok ⟨⟩ { s with prev := prevOf s.env s.prev a } := by
  have : ∀ b : Bool, WRes.ok PUnit.unit (if b then s else { s with prev := some a }) =
    WRes.ok PUnit.unit { s with prev := if b then s.prev else some a } := by intro b; cases b <;> rfl
  exact this _

theorem wp_setPrev (a : Atom) (Q : PUnit → RSt → Prop) :
    wp (setPrev a) Q ⟨pk, rt, o, none, env, ss, pv, rc⟩ ↔ Q ⟨⟩ ⟨pk, rt, o, none, env, ss, prevOf env pv a, rc⟩ := by
  constructor
  · rintro ⟨_, _, h, hq⟩
    rw [setPrev_eq] at h
    cases h; exact hq
  · intro h; exact ⟨_, _, setPrev_eq a _, h⟩

theorem wp_forcePrev (a : Option Atom) (Q : PUnit → RSt → Prop) :
    wp (forcePrev a) Q ⟨pk, rt, o, none, env, ss, pv, rc⟩ ↔ Q ⟨⟩ ⟨pk, rt, o, none, env, ss, a, rc⟩ := wp_modify _ _ _

end
/-- Symbolic execution. -/
macro "wps" : tactic => `(tactic| simp only [wp_bind, wp_pure, wp_get, wp_modify, wp_out', wp_state, wp_updState,
  wp_openTag, wp_setPrev, wp_forcePrev])

end PL.Mathml
