import Verif.Model.Parser
set_option autoImplicit false
/-! # The in-place reordering of operands -/
namespace PL

theorem fillSlots_segment {A B : List Instr} : ∀ {P X Q : List (Option Instr)}, X.length = A.length →
    fillSlots (A ++ B) P.length (P ++ X ++ Q) = fillSlots B (P.length + A.length) (P ++ A.map some ++ Q) := by
  induction A with
  | nil =>
    intro P X Q hX
    have : X = [] := List.length_eq_zero_iff.1 hX
    subst this
    simp
  | cons a A ih =>
    intro P X Q hX
    cases X with
    | nil => simp at hX
    | cons x X =>
      simp at hX
      have hne : P.length ≠ (P ++ x :: X ++ Q).length := by simp
      have hlt : P.length < (P ++ x :: X ++ Q).length := by simp
      rw [List.cons_append, fillSlots]
      simp only [if_neg hne, if_pos hlt]
      have hs : (P ++ x :: X ++ Q).set P.length (some a) = (P ++ [some a]) ++ X ++ Q := by
        simp
      rw [hs]
      have := ih (P := P ++ [some a]) (X := X) (Q := Q) hX
      simp only [List.length_append, List.length_singleton] at this
      rw [this]
      simp [Nat.add_assoc, Nat.add_comm 1]

theorem fillSlots_wrap {B : List Instr} {slots : List (Option Instr)} (h : B ≠ [] → slots ≠ []) :
    fillSlots B slots.length slots = fillSlots B 0 slots := by
  cases B with
  | nil => simp [fillSlots]
  | cons b B =>
    have hs := h (by simp)
    have h0 : (0 : Nat) ≠ slots.length := by
      intro e; exact hs (List.length_eq_zero_iff.1 e.symm)
    rw [fillSlots, fillSlots]
    simp only [if_true, if_neg h0]

/-- Writing two segments in rotated order. -/
theorem fillSlots_rotate (A B : List Instr) :
    fillSlots (A ++ B) B.length (List.replicate (A ++ B).length none) = some ((B ++ A).map some) := by
  have e : List.replicate (A ++ B).length (none : Option Instr) =
      List.replicate B.length none ++ List.replicate A.length none ++ [] := by
    simp [Nat.add_comm]
  rw [e]
  have h1 := fillSlots_segment (A := A) (B := B) (P := List.replicate B.length none)
    (X := List.replicate A.length none) (Q := []) (by simp)
  simp only [List.length_replicate] at h1
  rw [h1]
  have hw := fillSlots_wrap (B := B) (slots := List.replicate B.length none ++ A.map some ++ []) (by
    intro hb; cases B with
    | nil => simp at hb
    | cons b B => simp [List.replicate_succ])
  simp only [List.length_append, List.length_replicate, List.length_map, List.length_nil, Nat.add_zero] at hw
  rw [hw]
  have h2 := fillSlots_segment (A := B) (B := []) (P := []) (X := List.replicate B.length none)
    (Q := A.map some) (by simp)
  simp at h2
  simp [h2, fillSlots]

theorem mapM_id_some (l : List Instr) : (l.map some).mapM id = some l := by
  induction l with
  | nil => rfl
  | cons a l ih => simp [ih]

theorem unstage_sub (base sub sup stack : List Instr) (e : Event) :
    unstage (base ++ sub ++ sup) stack (some ⟨e, base.length, base.length + sub.length⟩) =
      .ok (.ev e :: base ++ sub ++ sup ++ stack) := by
  unfold unstage
  simp only
  rw [if_neg (by omega), if_neg (by simp)]
  simp

theorem unstage_sup (base sub sup stack : List Instr) (e : Event) :
    unstage (base ++ sup ++ sub) stack (some ⟨e, base.length + sup.length, base.length⟩) =
      .ok (.ev e :: base ++ sub ++ sup ++ stack) := by
  by_cases h : sup = []
  · subst h
    simpa using unstage_sub base [] sub stack e
  have hl : 0 < sup.length := List.length_pos_iff.2 h
  unfold unstage
  simp only
  rw [if_pos (by omega), if_neg (by simp)]
  have hd : (base ++ sup ++ sub).drop base.length = sup ++ sub := by simp
  have ht : (base ++ sup ++ sub).take base.length = base := by simp
  rw [hd, ht]
  have hr : (sup ++ sub).reverse = sub.reverse ++ sup.reverse := by simp
  have hk : base.length + sup.length - base.length = sup.reverse.length := by simp
  rw [hr, hk, fillSlots_rotate]
  simp only [mapM_id_some]
  simp
end PL
