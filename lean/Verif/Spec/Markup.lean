import Verif.Model.Str
set_option autoImplicit false
/-!
# Escaped text
-/
namespace PL.Spec

/-- `Escaped e t`: the character data `e` stands for the text `t`. -/
inductive Escaped : Str → Str → Prop
  | nil : Escaped [] []
  | plain {c e t} : c ≠ '&' → c ≠ '<' → c ≠ '>' → Escaped e t → Escaped (c :: e) (c :: t)
  | amp {e t} : Escaped e t → Escaped (c!"&amp;" ++ e) ('&' :: t)
  | lt {e t} : Escaped e t → Escaped (c!"&lt;" ++ e) ('<' :: t)
  | gt {e t} : Escaped e t → Escaped (c!"&gt;" ++ e) ('>' :: t)

/-- Character data stands for at most one text. -/
theorem Escaped.unique {e t t' : Str} (h : Escaped e t) (h' : Escaped e t') : t = t' := by
  induction h generalizing t' with
  | nil => cases h'; rfl
  | plain h1 h2 h3 _ ih =>
    cases h' with
    | plain _ _ _ h' => rw [ih h']
    | amp => exact absurd rfl h1
    | lt => exact absurd rfl h1
    | gt => exact absurd rfl h1
  | amp _ ih =>
    generalize hx : c!"&amp;" ++ _ = x at h'
    cases h' with
    | nil => cases hx
    | plain h1 _ _ _ => cases hx; exact absurd rfl h1
    | amp h' => cases hx; rw [ih h']
    | lt h' => cases hx
    | gt h' => cases hx
  | lt _ ih =>
    generalize hx : c!"&lt;" ++ _ = x at h'
    cases h' with
    | nil => cases hx
    | plain h1 _ _ _ => cases hx; exact absurd rfl h1
    | amp h' => cases hx
    | lt h' => cases hx; rw [ih h']
    | gt h' => cases hx
  | gt _ ih =>
    generalize hx : c!"&gt;" ++ _ = x at h'
    cases h' with
    | nil => cases hx
    | plain h1 _ _ _ => cases hx; exact absurd rfl h1
    | amp h' => cases hx
    | lt h' => cases hx
    | gt h' => cases hx; rw [ih h']

/-- It contains no angle bracket. -/
theorem Escaped.no_tag {e t : Str} (h : Escaped e t) : '<' ∉ e ∧ '>' ∉ e := by
  induction h with
  | nil => simp
  | plain h1 h2 h3 _ ih => simp only [List.mem_cons, not_or]; exact ⟨⟨h2.symm, ih.1⟩, ⟨h3.symm, ih.2⟩⟩
  | amp _ ih => simpa using ih
  | lt _ ih => simpa using ih
  | gt _ ih => simpa using ih

/-- Every ampersand starts one of the three entities. -/
theorem Escaped.entity {e t a b : Str} (h : Escaped e t) (hb : e = a ++ '&' :: b) :
    c!"amp;" <+: b ∨ c!"lt;" <+: b ∨ c!"gt;" <+: b := by
  have skip : ∀ (p : Str) (a b e : Str), '&' ∉ p → p ++ e = a ++ '&' :: b → ∃ a', e = a' ++ '&' :: b := by
    intro p
    induction p with
    | nil => intro a b e _ h; exact ⟨a, h⟩
    | cons x p ih =>
      intro a b e hp h
      simp only [List.mem_cons, not_or] at hp
      cases a with
      | nil => exact absurd (List.cons.inj h).1.symm hp.1
      | cons y a => exact ih a b e hp.2 (List.cons.inj h).2
  induction h generalizing a with
  | nil => cases a <;> cases hb
  | plain h1 _ _ _ ih =>
    cases a with
    | nil => exact absurd (List.cons.inj hb).1 h1
    | cons y a => exact ih (List.cons.inj hb).2
  | @amp e t _ ih =>
    cases a with
    | nil => left; exact ⟨e, (List.cons.inj hb).2⟩
    | cons y a =>
      obtain ⟨a', h'⟩ := skip c!"amp;" a b e (by decide) (List.cons.inj hb).2
      exact ih h'
  | @lt e t _ ih =>
    cases a with
    | nil => right; left; exact ⟨e, (List.cons.inj hb).2⟩
    | cons y a =>
      obtain ⟨a', h'⟩ := skip c!"lt;" a b e (by decide) (List.cons.inj hb).2
      exact ih h'
  | @gt e t _ ih =>
    cases a with
    | nil => right; right; exact ⟨e, (List.cons.inj hb).2⟩
    | cons y a =>
      obtain ⟨a', h'⟩ := skip c!"gt;" a b e (by decide) (List.cons.inj hb).2
      exact ih h'

end PL.Spec
