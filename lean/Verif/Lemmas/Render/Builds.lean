import Verif.Model.Mathml
set_option autoImplicit false
/-!
# Rendering in builds with and without overflow checks
-/
namespace PL.Mathml
open W (boom get modify out)

/-- The same result, unless the first panics with an overflow. -/
structure Agree {α : Type} (m m' : W α) : Prop where
  out : ∀ s, m s = .panic .overflow ∨ m s = m' s

namespace Agree
variable {α β : Type}

theorem refl (m : W α) : Agree m m := ⟨fun _ => .inr rfl⟩

theorem boom {m : W α} : Agree (W.boom .overflow) m := ⟨fun _ => .inl rfl⟩

theorem bind {m m' : W α} {f f' : α → W β} (h : Agree m m') (hf : ∀ a, Agree (f a) (f' a)) : Agree (m >>= f) (m' >>= f') := by
  refine ⟨fun s => ?_⟩
  show W.bind m f s = _ ∨ W.bind m f s = W.bind m' f' s
  unfold W.bind
  rcases h.out s with h | h
  · rw [h]; exact .inl rfl
  · rw [h]
    cases m' s with
    | ok a s' => exact (hf a).out s'
    | io w => exact .inr rfl
    | panic p => exact .inr rfl

theorem ite {c : Prop} [Decidable c] {m m' n n' : W α} (h : Agree m m') (h' : Agree n n') : Agree (if c then m else n) (if c then m' else n') := by
  split
  · exact h
  · exact h'
end Agree

/-- The same build without overflow checks. -/
def RCfg.unchecked (cfg : RCfg) : RCfg := { cfg with checks := false }

variable (cfg : RCfg)

theorem writeAlignment_agree : Agree (writeAlignment cfg) (writeAlignment cfg.unchecked) := by
  have e : cfg.unchecked.checks = false := rfl
  unfold writeAlignment
  rw [e]
  simp only [Bool.and_false]
  refine (Agree.refl _).bind fun _ => (Agree.refl _).bind fun _ => (Agree.refl _).bind fun s => ?_
  split <;> try exact .refl _
  split <;> try exact .refl _
  split
  · exact .boom
  · exact .refl _

theorem writeContent_unchecked (b : Bool) (c : Content) : writeContent cfg.unchecked b c = writeContent cfg b c := by cases c <;> rfl

theorem writeEvent_agree (i : RItem) : Agree (writeEvent cfg i) (writeEvent cfg.unchecked i) := by
  cases i with
  | err => exact .refl _
  | ok e =>
    cases e with
    | flow f =>
      cases f with
      | alignment => exact writeAlignment_agree cfg
      | newLine => exact .refl _
      | startLines => exact .refl _
    | content c =>
      show Agree (writeContent cfg false c) (writeContent cfg.unchecked false c)
      rw [writeContent_unchecked]
      exact .refl _
    | visual v =>
      show Agree (writeVisual cfg v) (writeVisual cfg.unchecked v)
      unfold writeVisual
      simp only [writeContent_unchecked]
      exact .refl _
    | _ => exact .refl _

theorem mainLoop_agree : ∀ (n : Nat), Agree (mainLoop cfg n) (mainLoop cfg.unchecked n)
  | 0 => .refl _
  | n + 1 => by
    unfold mainLoop
    refine (Agree.refl _).bind fun i => ?_
    cases i with
    | none => exact .refl _
    | some i => exact (writeEvent_agree cfg i).bind fun _ => (Agree.refl _).bind fun _ => (Agree.refl _).bind fun _ => mainLoop_agree n

theorem write_agree : Agree (write cfg) (write cfg.unchecked) := by
  have e1 : cfg.unchecked.block = cfg.block := rfl
  have e2 : cfg.unchecked.xml = cfg.xml := rfl
  have e3 : cfg.unchecked.annotation = cfg.annotation := rfl
  unfold write
  simp only [e1, e2, e3]
  repeat' (first
    | with_reducible exact Agree.refl _
    | exact mainLoop_agree cfg _
    | apply Agree.bind
    | apply Agree.ite
    | intro _
    | split)

theorem render_agree (items : List RItem) (target : Str) (budget : Option Nat) :
    render cfg items target budget = .panic .overflow ∨ render cfg items target budget = render cfg.unchecked items target budget := by
  unfold render
  rcases (write_agree cfg).out (initSt items target budget) with h | h
  · rw [h]; exact .inl rfl
  · rw [h]; exact .inr rfl

end PL.Mathml
