import Verif.Lemmas.F32Exact
set_option autoImplicit false
/-!
# C76: the value of a dimension is the decimal number written, up to rounding

The claim in full: a dimension is read with the value of the decimal number that is written, up to the rounding of the single steps of the calculation. It holds for
numerals of up to 37 digits before and after the decimal point (`C76_near_partial`), and fails for longer ones (`C76_false`, `C76_lost`, `C76_infinite`).
-/
namespace PL.Props
open PL PL.Lex Spec PL.F32

/-- A dimension with at most 37 digits before and after the point is read with the sign and the unit that are written. Its magnitude is finite. It is the decimal number that is
written, up to as many roundings as are made on the longer of the two parts. -/
theorem C76_near_partial (s t r : Str) (neg : Bool) (ip fp : Str) (u : Unit_) (h : DimText s neg ip fp u t) (ht : OptSpace t r)
    (hs : ∀ c t', t = c :: t' → isWs c = true → c.toNat < 128) (li : ip.length ≤ 37) (lf : fp.length ≤ 37) :
    ∃ k : ℕ, dimension32 s = .ok ((if neg then -1 else 1), .fin k, u) r ∧
      Near (max (2 * ip.length) (3 * fp.length + 1) + 1) (k / unit) (decimalValue ip fp) := by
  obtain ⟨m, ⟨k, rfl, hn⟩, e⟩ := dimension32_is h ht (fun c t' h1 h2 => ascii_size (by have := hs c t' h1 h2; omega)) li lf
  exact ⟨k, e, hn⟩

/-- A whole number below `2²⁴` is read exactly. -/
theorem C76_whole (s t r : Str) (neg : Bool) (ip : Str) (u : Unit_) (h : DimText s neg ip [] u t) (ht : OptSpace t r)
    (hs : ∀ c t', t = c :: t' → isWs c = true → c.toNat < 128) (hv : decValue ip < 2 ^ 24) :
    dimension32 s = .ok ((if neg then -1 else 1), .fin (decValue ip * 2 ^ 149), u) r := by
  obtain ⟨m, hm, e⟩ := dimension32_of h ht (fun c t' h1 h2 => ascii_size (by have := hs c t' h1 h2; omega))
  rw [e]
  obtain ⟨e1, e2⟩ := floating_whole hv
  rcases hm with rfl | ⟨-, rfl⟩
  · rw [e2]
  · rw [e1]

/-- If both parts are below `2²⁴`, and at most ten digits are after the point, then there are at most two roundings. -/
theorem C76_short (s t r : Str) (neg : Bool) (ip fp : Str) (u : Unit_) (h : DimText s neg ip fp u t) (ht : OptSpace t r)
    (hs : ∀ c t', t = c :: t' → isWs c = true → c.toNat < 128) (hi : decValue ip < 2 ^ 24) (hf : decValue fp < 2 ^ 24) (lf : fp.length ≤ 10) :
    ∃ k : ℕ, dimension32 s = .ok ((if neg then -1 else 1), .fin k, u) r ∧ Near 2 (k / unit) (decimalValue ip fp) := by
  obtain ⟨m, hm, e⟩ := dimension32_of h ht (fun c t' h1 h2 => ascii_size (by have := hs c t' h1 h2; omega))
  obtain ⟨k, hk, hn⟩ := floating_short (ip := ip) hi hf (dimText_digits h).2 lf
  refine ⟨k, ?_, hn⟩
  rcases hm with rfl | ⟨rfl, rfl⟩
  · rw [e, hk]
  · rw [e, (floating_whole hi).1, ← (floating_whole hi).2, hk]

/-- The number that is displayed is the exact one of the rest of this model, up to rounding. -/
theorem C76_shown (s t r : Str) (neg : Bool) (ip fp : Str) (u : Unit_) (h : DimText s neg ip fp u t) (ht : OptSpace t r)
    (hs : ∀ c t', t = c :: t' → isWs c = true → c.toNat < 128) (li : ip.length ≤ 36) (lf : fp.length ≤ 32) :
    ∃ m, ∃ k : ℕ, dimension32 s = .ok ((if neg then -1 else 1), m, u) r ∧ shown32 m u = .fin k ∧
      Near (max (2 * ip.length) (3 * fp.length + 1) + 7) (k / unit) (numValue (Mathml.dimShown ⟨⟨decValue (ip ++ fp), 10 ^ fp.length⟩, u⟩).1) := by
  obtain ⟨m, hm, e⟩ := dimension32_is h ht (fun c t' h1 h2 => ascii_size (by have := hs c t' h1 h2; omega)) (by omega) (by omega)
  obtain ⟨hi, hf⟩ := dimText_digits h
  obtain ⟨k, hk, hn⟩ := shown_is u (by omega) hm (decimal_range hi hf li lf)
  refine ⟨m, k, e, hk, ?_⟩
  rw [dimShown_value]
  push_cast
  exact hn

/-- Rounding yields a number of 24 binary digits below `2¹²⁸` that is nearest to the given one. If another one is as near, then the two are neighbours, and
the result is the one that is even. -/
theorem C76_rounds (a b k : ℕ) (hb : 0 < b) (h : Mag.round a b = .fin k) : Exact k ∧ k < 2 ^ 277 ∧
    ∀ k', Exact k' → |(k : ℤ) * b - a| ≤ |(k' : ℤ) * b - a| ∧
      (|(k' : ℤ) * b - a| = |(k : ℤ) * b - a| → k' ≠ k → ∃ m s, k = 2 * m * 2 ^ s ∧ (k' = k + 2 ^ s ∨ k = k' + 2 ^ s)) :=
  ⟨(round_exactness hb h).1, (round_exactness hb h).2, fun _ hk => ⟨round_nearest hb h hk, round_even hb h hk⟩⟩

/-- Numbers become infinite from half a unit of the last place below `2¹²⁸` on. -/
theorem C76_overflow (a b : ℕ) (hb : 0 < b) : Mag.round a b = .inf ↔ (2 ^ 25 - 1) * (b * 2 ^ 252) ≤ a := round_inf hb

/-- The claim fails for more digits: a third with forty or more threes after the point is not a number. -/
theorem C76_false (sg ip fp w : Str) (u : Unit_) (r : Str) (hsg : ∀ c ∈ sg, c = '-' ∨ c = '+' ∨ isWs c = true) (hi : ∀ c ∈ ip, isDigit c = true)
    (hf : ∀ c ∈ fp, isDigit c = true) (hw : Spaces w) (hr : ∀ c t', r = c :: t' → isWs c = false) :
    ∃ sign, dimension32 (sg ++ ip ++ '.' :: (List.replicate 40 '3' ++ fp) ++ w ++ unitName u ++ r) = .ok (sign, .nan, u) r := by
  have hd : ∀ c ∈ List.replicate 40 '3' ++ fp, isDigit c = true := by
    intro c hc
    rcases List.mem_append.1 hc with hc | hc
    · rw [List.eq_of_mem_replicate hc]; rfl
    · exact hf c hc
  have h := DimText.frac (sg := sg) (w := w) (u := u) (r := r) hsg hi (.inl rfl) hd hw
  obtain ⟨m, hm, e⟩ := dimension32_of h (.none hr) (fun c t' h1 h2 => by rw [hr c t' h1] at h2; cases h2)
  refine ⟨if decide (sg.count '-' % 2 = 1) then -1 else 1, ?_⟩
  rw [e]
  have hm' : m = floating32 ip (some (List.replicate 40 '3' ++ fp)) := by
    rcases hm with rfl | ⟨hn, -⟩
    · rfl
    · cases hn
  rw [hm', floating_nan (x := List.replicate 40 '3') (y := fp) (by decide +kernel) (by decide +kernel) rfl hf]

/-- With thirty-nine digits after the point they are lost. -/
theorem C76_lost : dimension32 c!"0.333333333333333333333333333333333333333em" = .ok (1, .fin 0, .em) [] ∧
    dimension32 c!"-2.333333333333333333333333333333333333333em" = .ok (-1, .fin (2 * 2 ^ 149), .em) [] := by decide +kernel

/-- A whole number of thirty-nine or more digits can be infinite. -/
theorem C76_infinite (sg ip w : Str) (u : Unit_) (r : Str) (hsg : ∀ c ∈ sg, c = '-' ∨ c = '+' ∨ isWs c = true) (hi : ∀ c ∈ ip, isDigit c = true)
    (hw : Spaces w) (hr : ∀ c t', r = c :: t' → isWs c = false) :
    ∃ sign, dimension32 (sg ++ (('4' :: List.replicate 38 '0') ++ ip) ++ w ++ unitName u ++ r) = .ok (sign, .inf, u) r := by
  have hd : ∀ c ∈ ('4' :: List.replicate 38 '0') ++ ip, isDigit c = true := by
    intro c hc
    rcases List.mem_append.1 hc with hc | hc
    · rcases List.mem_cons.1 hc with rfl | hc
      · rfl
      · rw [List.eq_of_mem_replicate hc]; rfl
    · exact hi c hc
  have h := DimText.whole (sg := sg) (w := w) (u := u) (r := r) hsg hd hw
  obtain ⟨m, hm, e⟩ := dimension32_of h (.none hr) (fun c t' h1 h2 => by rw [hr c t' h1] at h2; cases h2)
  refine ⟨if decide (sg.count '-' % 2 = 1) then -1 else 1, ?_⟩
  rw [e]
  have hx : floating32 (('4' :: List.replicate 38 '0') ++ ip) none = .inf :=
    floating_inf (x := '4' :: List.replicate 38 '0') (y := ip) (by decide +kernel) rfl hi
  have hm' : m = .inf := by
    rcases hm with rfl | ⟨-, rfl⟩
    · show (digits32 _ _).add _ = _
      rw [show digits32 (.ofNat 0) (('4' :: List.replicate 38 '0') ++ ip) = .inf from hx]
      decide +kernel
    · exact hx
  rw [hm']

/-- The numbers of a dimension: `-1.25em` is exact. -/
example : dimension32 c!"-1.25em x" = .ok (-1, .fin (5 * 2 ^ 147), .em) c!"x" ∧ Near 2 (((5 * 2 ^ 147 : ℕ) : ℚ) / unit) (decimalValue c!"1" c!"25") := by
  refine ⟨by decide +kernel, ?_⟩
  have : ((5 * 2 ^ 147 : ℕ) : ℚ) / unit = decimalValue c!"1" c!"25" := by
    have e : decValue (c!"1" ++ c!"25") = 125 := rfl
    unfold unit decimalValue
    rw [e]
    norm_num
  rw [this]
  exact (near_refl _).mono (by omega) (by unfold decimalValue; positivity) (by unfold decimalValue; positivity)

/-- `0.1` is rounded up. -/
example : dimension32 c!"0.1pt" = .ok (1, .fin (13421773 * 2 ^ 122), .pt) [] ∧ Exact (13421773 * 2 ^ 122) ∧
    DimText c!"0.1pt" false c!"0" c!"1" .pt [] := by
  refine ⟨by decide +kernel, ⟨_, _, by norm_num, rfl⟩, ?_⟩
  have := DimText.frac (sg := []) (ip := c!"0") (sep := '.') (fp := c!"1") (w := []) (u := .pt) (r := []) (by simp) (by decide) (.inl rfl) (by decide)
    (by intro c hc; cases hc)
  simpa [unitName] using this

end PL.Props
