import Verif.Lemmas.Str
import Verif.Model.Relation
set_option autoImplicit false
/-! # Lemmas on UTF-8 -/
namespace PL

/-- The model's encoding is the one of Lean's library. -/
theorem utf8Char_eq (c : Char) : utf8Char c = (String.utf8EncodeChar c).map UInt8.toNat := by
  have hv : c.val.toNat < 0x110000 := by
    rcases c.valid with h | h <;> omega
  unfold utf8Char String.utf8EncodeChar
  rw [show c.toNat = c.val.toNat from rfl]
  generalize c.val.toNat = n at *
  simp only
  by_cases h1 : n < 0x80
  · rw [if_pos h1, if_pos (show n ≤ 127 by omega)]; simp; omega
  · rw [if_neg h1, if_neg (show ¬ n ≤ 127 by omega)]
    by_cases h2 : n < 0x800
    · rw [if_pos h2, if_pos (show n ≤ 2047 by omega)]; simp; omega
    · rw [if_neg h2, if_neg (show ¬ n ≤ 2047 by omega)]
      by_cases h3 : n < 0x10000
      · rw [if_pos h3, if_pos (show n ≤ 65535 by omega)]; simp; omega
      · rw [if_neg h3, if_neg (show ¬ n ≤ 65535 by omega)]; simp; omega

theorem utf8_eq (s : Str) : utf8 s = (s.flatMap String.utf8EncodeChar).map UInt8.toNat := by
  induction s with
  | nil => rfl
  | cons c s ih => simp [utf8, utf8Char_eq, ih]

@[simp] theorem utf8_append (a b : Str) : utf8 (a ++ b) = utf8 a ++ utf8 b := by
  induction a with
  | nil => rfl
  | cons c a ih => simp [utf8, ih]

@[simp] theorem utf8Char_length (c : Char) : (utf8Char c).length = c.utf8Size := by
  rw [utf8Char_eq, List.length_map, String.length_utf8EncodeChar]

@[simp] theorem utf8_length (s : Str) : (utf8 s).length = blen s := by
  induction s with
  | nil => rfl
  | cons c s ih => simp [utf8, ih]

theorem utf8Size_le (c : Char) : c.utf8Size ≤ 4 := Char.utf8Size_le_four c

end PL
