import Verif.Spec.Shade
import Verif.Spec.Document
import Verif.Props.Output
import Verif.Lemmas.Render.Exact
set_option autoImplicit false
/-!
# Colours in the output (C69)
-/
namespace PL.Props
open PL PL.Mathml Spec

/-- The colour of the frame around an error message, as it is written. -/
def frameColour (c : Nat × Nat × Nat) : Str := '#' :: (hexStr c.1 ++ hexStr c.2.1 ++ hexStr c.2.2)

theorem nibble_digit : ∀ k : Fin 16, nibble (Nat.digitChar k.1) = some k.1 := by decide +kernel

theorem nibble_digitChar {k : Nat} (h : k < 16) : nibble (Nat.digitChar k) = some k := nibble_digit ⟨k, h⟩

/-- A byte in hexadecimal: one digit below 16, two digits otherwise. -/
theorem hex_byte {n : Nat} (h : n < 256) :
    n < 16 ∧ hexStr n = [Nat.digitChar n] ∨ 16 ≤ n ∧ hexStr n = [Nat.digitChar (n / 16), Nat.digitChar (n % 16)] := by
  by_cases h1 : n < 16
  · exact .inl ⟨h1, Nat.toDigits_of_lt_base h1⟩
  · refine .inr ⟨by omega, ?_⟩
    rw [hexStr, Nat.toDigits_of_base_le (by decide) (by omega), Nat.toDigits_of_lt_base (by omega)]
    rfl

/-- The frame of an error message has the colour that was configured exactly if every component has two hexadecimal digits, or the colour is
black or blue (`#000` and `#00ff`, where the last digit is taken for the opacity). -/
theorem C69_frame (r g b : Nat) (hr : r < 256) (hg : g < 256) (hb : b < 256) :
    shade (frameColour (r, g, b)) = some (r, g, b, 255) ↔
      (16 ≤ r ∧ 16 ≤ g ∧ 16 ≤ b) ∨ (r, g, b) = (0, 0, 0) ∨ (r, g, b) = (0, 0, 255) := by
  have d := fun k (h : k < 16) => nibble_digitChar h
  rcases hex_byte hr with ⟨r1, r2⟩ | ⟨r1, r2⟩ <;> rcases hex_byte hg with ⟨g1, g2⟩ | ⟨g1, g2⟩ <;> rcases hex_byte hb with ⟨b1, b2⟩ | ⟨b1, b2⟩ <;>
    simp only [frameColour, shade, hexColour, r2, g2, b2, List.cons_append, List.nil_append, nibbles, nibble_digitChar,
      r1, g1, b1, Nat.mod_lt, Nat.div_lt_of_lt_mul (show r < 16 * 16 from hr), Nat.div_lt_of_lt_mul (show g < 16 * 16 from hg),
      Nat.div_lt_of_lt_mul (show b < 16 * 16 from hb), Nat.zero_lt_succ, Option.some.injEq, Prod.mk.injEq, reduceCtorEq, false_iff, not_or, and_true, true_or, iff_true] <;> omega

/-- The colours of texts, frames and backgrounds are always the ones asked for. -/
theorem C69_rgb (r g b : Nat) (hr : r < 256) (hg : g < 256) (hb : b < 256) : shade (rgb (r, g, b)) = some (r, g, b, 255) := by
  have key : ∀ n : Fin 256, ∀ c ∈ [' ', ')'], ∀ s : Str, decimalFrom 0 (Nat.toDigits 10 n.1 ++ c :: s) = (n.1, c :: s) := by
    have h : ∀ n : Fin 256, ∀ c ∈ [' ', ')'], (Nat.toDigits 10 n.1).all (fun d => decide ('0' ≤ d ∧ d ≤ '9')) = true ∧
        (Nat.toDigits 10 n.1).foldl (fun k d => 10 * k + (d.toNat - 48)) 0 = n.1 ∧ ¬ ('0' ≤ c ∧ c ≤ '9') := by decide +kernel
    have go : ∀ (ds : Str) (k : Nat) (c : Char) (s : Str), ds.all (fun d => decide ('0' ≤ d ∧ d ≤ '9')) = true → ¬ ('0' ≤ c ∧ c ≤ '9') →
        decimalFrom k (ds ++ c :: s) = (ds.foldl (fun k d => 10 * k + (d.toNat - 48)) k, c :: s) := by
      intro ds
      induction ds with
      | nil => intro k c s _ hc; simp only [List.nil_append, decimalFrom, if_neg hc, List.foldl_nil]
      | cons d ds ih =>
        intro k c s hd hc
        simp only [List.all_cons, Bool.and_eq_true, decide_eq_true_eq] at hd
        simp only [List.cons_append, decimalFrom, if_pos hd.1, List.foldl_cons]
        exact ih _ c s (by simpa using hd.2) hc
    intro n c hc s
    obtain ⟨h1, h2, h3⟩ := h n c hc
    rw [go _ _ _ _ h1 h3, h2]
  have e : rgb (r, g, b) = c!"rgb(" ++ (Nat.toDigits 10 r ++ ' ' :: (Nat.toDigits 10 g ++ ' ' :: (Nat.toDigits 10 b ++ ')' :: []))) := by
    simp [rgb, joined]
  have k1 := key ⟨r, hr⟩ ' ' (by simp) (Nat.toDigits 10 g ++ ' ' :: (Nat.toDigits 10 b ++ ')' :: []))
  have k2 := key ⟨g, hg⟩ ' ' (by simp) (Nat.toDigits 10 b ++ ')' :: [])
  have k3 := key ⟨b, hb⟩ ')' (by simp) []
  rw [e]
  change rgbColour (Nat.toDigits 10 r ++ ' ' :: (Nat.toDigits 10 g ++ ' ' :: (Nat.toDigits 10 b ++ ')' :: []))) = _
  unfold rgbColour
  simp only [k1, k2, k3]
  rw [Nat.min_eq_left (by omega), Nat.min_eq_left (by omega), Nat.min_eq_left (by omega)]

/-- Where the colours are written: an error puts this frame around its message, wherever it occurs. -/
theorem C69_error (cfg : RCfg) (m : Str) (s : RSt) (h : s.budget = none) : writeEvent cfg (.err m) s = .ok ⟨⟩ { s with
    recov := true
    out := s.out ++ (c!"<merror style=\"border-color: " ++ frameColour cfg.errorColor ++ c!"\"><mtext>" ++ m ++ c!"</mtext></merror>") } := by
  rw [writeEvent, recover]
  simp [run_bind, W.modify, out_none, h, frameColour]

/-- The style attribute of a tag has a declaration for every colour in force, in the notation of `C69_rgb`. -/
theorem C69_style (st : RState) (c : Nat × Nat × Nat) : (st.text = some c → c!"color: " ++ rgb c <:+: colorAttr st) ∧
    (st.border = some c → c!"border: 0.06em solid " ++ rgb c <:+: colorAttr st) ∧
    (st.background = some c → c!"background-color: " ++ rgb c <:+: colorAttr st) := by
  obtain ⟨f, t, b, g, y⟩ := st
  refine ⟨?_, ?_, ?_⟩
  · rintro ⟨⟩
    simp only [colorAttr, rgb_eq, List.append_assoc]
    exact ⟨c!" style=\"", _, by simp only [List.append_assoc]; rfl⟩
  · rintro ⟨⟩
    simp only [colorAttr, rgb_eq]
    refine List.IsInfix.trans ?_ (List.prefix_append _ _).isInfix
    refine List.IsInfix.trans ?_ (List.prefix_append _ _).isInfix
    refine List.IsInfix.trans ?_ (List.suffix_append _ _).isInfix
    rw [List.append_assoc]
    exact (List.suffix_append _ _).isInfix
  · rintro ⟨⟩
    simp only [colorAttr, rgb_eq]
    refine List.IsInfix.trans ?_ (List.prefix_append _ _).isInfix
    refine List.IsInfix.trans ?_ (List.suffix_append _ _).isInfix
    rw [List.append_assoc]
    exact (List.suffix_append _ _).isInfix

/-- As claimed it is false: the frame of errors in a dark colour has another colour, is partly transparent, or has a colour that is no colour. -/
theorem C69_false : shade (frameColour (1, 2, 3)) = some (17, 34, 51, 255) ∧ shade (frameColour (0, 128, 0)) = some (0, 136, 0, 0) ∧
    shade (frameColour (128, 0, 128)) = none := by decide

/-- The default colour has two digits in every component. -/
example : shade (frameColour rc0.errorColor) = some (178, 34, 34, 255) := by decide

end PL.Props
