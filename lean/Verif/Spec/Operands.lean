import Verif.Spec.Stream
set_option autoImplicit false
/-!
# A recogniser for streams whose operands are complete

Used to show that a given stream is not of the form `WF`.
-/
namespace PL.Spec

/-- One element is complete. A frame is `none` for a group and `some n` for `n` missing operands. -/
def complete1 : List (Option Nat) → List (Option Nat)
  | some 1 :: S => complete1 S
  | some (n + 2) :: S => some (n + 1) :: S
  | S => S

def recognise : List (Option Nat) → List Event → Option (List (Option Nat))
  | S, [] => some S
  | S, .begin_ _ :: es => recognise (none :: S) es
  | none :: S, .end_ :: es => recognise (complete1 S) es
  | _, .end_ :: _ => none
  | S, .script ty _ :: es => recognise (some (scriptOperands ty) :: S) es
  | S, .visual v :: es => recognise (some (visualOperands v) :: S) es
  | some _ :: _, .flow _ :: _ => none
  | S, .flow _ :: es => recognise S es
  | S, .content _ :: es => recognise (complete1 S) es
  | S, .space _ _ _ :: es => recognise (complete1 S) es
  | S, .stateChange _ :: es => recognise (complete1 S) es

def Form.Recognised : Form → List Event → Prop
  | .elem, a => ∀ S r, recognise S (a ++ r) = recognise (complete1 S) r
  | .elems n, a => (n = 0 → a = []) ∧ ∀ S r, n ≠ 0 → recognise (some n :: S) (a ++ r) = recognise (complete1 S) r
  | .body, a => ∀ S r, (∀ n T, S ≠ some n :: T) → recognise S (a ++ r) = recognise S r

theorem complete1_open {S : List (Option Nat)} (h : ∀ n T, S ≠ some n :: T) : complete1 S = S := by
  match S with
  | [] => rfl
  | none :: _ => rfl
  | some n :: T => exact absurd rfl (h n T)

theorem WF.recognised {f : Form} {es : List Event} (h : WF f es) : f.Recognised es := by
  induction h with
  | @simple e h =>
    intro S r
    cases e <;> first | exact h.elim | (match S with | [] => rfl | none :: _ => rfl | some _ :: _ => rfl)
  | @group g b _ ih =>
    intro S r
    simp only [List.cons_append, List.append_assoc]
    match S with
    | [] => exact (ih _ _ (by simp)).trans rfl
    | none :: _ => exact (ih _ _ (by simp)).trans rfl
    | some _ :: _ => exact (ih _ _ (by simp)).trans rfl
  | @script ty p ds _ ih =>
    intro S r
    have := ih.2 S r (by cases ty <;> simp [scriptOperands])
    match S with
    | [] => exact this
    | none :: _ => exact this
    | some _ :: _ => exact this
  | @visual v ds _ ih =>
    intro S r
    have := ih.2 S r (by cases v <;> simp [visualOperands])
    match S with
    | [] => exact this
    | none :: _ => exact this
    | some _ :: _ => exact this
  | nil => exact ⟨fun _ => rfl, fun _ _ h => absurd rfl h⟩
  | @cons n a b _ _ iha ihb =>
    refine ⟨fun h => absurd h (Nat.succ_ne_zero n), fun S r _ => ?_⟩
    rw [List.append_assoc, iha]
    cases n with
    | zero => rw [ihb.1 rfl]; rfl
    | succ n => exact ihb.2 S r (by simp)
  | empty => intro S r _; rfl
  | element _ _ iha ihb =>
    intro S r hS
    rw [List.append_assoc, iha, complete1_open hS, ihb S r hS]
  | @flow f b _ ih =>
    intro S r hS
    have := ih S r hS
    match S, hS with
    | [], _ => exact this
    | none :: _, _ => exact this
    | some n :: T, hS => exact absurd rfl (hS n T)

/-- A complete stream leaves nothing open. -/
theorem WF.accepted {es : List Event} (h : WF .body es) : recognise [] es = some [] := by
  have := h.recognised [] [] (by simp)
  rwa [List.append_nil] at this

end PL.Spec
