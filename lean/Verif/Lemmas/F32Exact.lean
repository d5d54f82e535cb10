import Verif.Lemmas.F32
import Verif.Model.Mathml
set_option autoImplicit false
/-!
# Exact results and nearest numbers in single precision
-/
namespace PL.F32
open PL PL.Mag PL.Lex Spec

/-! ## Rounding -/

/-- The parts of a rounded number. -/
theorem round_parts {a b : ℕ} (hb : 0 < b) : ∃ s m r m', a = b * 2 ^ s * m + r ∧ r < b * 2 ^ s ∧ m < 2 ^ 24 ∧ (s = 0 ∨ 2 ^ 23 ≤ m) ∧
    (m' = m ∧ 2 * r ≤ b * 2 ^ s ∧ (2 * r = b * 2 ^ s → m % 2 = 0) ∨ m' = m + 1 ∧ b * 2 ^ s ≤ 2 * r ∧ (2 * r = b * 2 ^ s → m % 2 = 1)) ∧
    round a b = if m' * 2 ^ s < 2 ^ 277 then fin (m' * 2 ^ s) else inf := by
  obtain ⟨s, hs⟩ : ∃ s, s = Nat.log2 (a / b) - 23 := ⟨_, rfl⟩
  have hc : 0 < b * 2 ^ s := by positivity
  refine ⟨s, a / (b * 2 ^ s), a % (b * 2 ^ s), _, (Nat.div_add_mod _ _).symm, Nat.mod_lt _ hc, ?_, ?_, ?_, by unfold round; rw [← hs]⟩
  · rw [Nat.div_lt_iff_lt_mul hc]
    have h1 : a / b < 2 ^ (Nat.log2 (a / b) + 1) := Nat.lt_log2_self
    have h2 : a / b < 2 ^ (s + 24) := lt_of_lt_of_le h1 (Nat.pow_le_pow_right (by norm_num) (by omega))
    rw [Nat.div_lt_iff_lt_mul hb, pow_add] at h2
    calc a < 2 ^ s * 2 ^ 24 * b := h2
      _ = 2 ^ 24 * (b * 2 ^ s) := by ring
  · by_cases h0 : s = 0
    · exact .inl h0
    · right
      have hq : a / b ≠ 0 := by
        intro h
        rw [h] at hs
        simp at hs
        exact h0 hs
      have h1 : 2 ^ (s + 23) ≤ a / b := by
        have : s + 23 = Nat.log2 (a / b) := by omega
        rw [this]
        exact Nat.log2_self_le hq
      rw [Nat.le_div_iff_mul_le hb, pow_add] at h1
      rw [Nat.le_div_iff_mul_le hc]
      calc 2 ^ 23 * (b * 2 ^ s) = 2 ^ s * 2 ^ 23 * b := by ring
        _ ≤ a := h1
  · generalize b * 2 ^ s = c
    split <;> omega

theorem round_exactness {a b k : ℕ} (hb : 0 < b) (h : round a b = fin k) : Exact k ∧ k < 2 ^ 277 := by
  obtain ⟨s, m, r, m', -, -, hm, -, hm', e⟩ := round_parts (a := a) hb
  rw [e] at h
  split at h
  · rename_i hlt
    cases h
    refine ⟨?_, hlt⟩
    by_cases h24 : m' < 2 ^ 24
    · exact ⟨m', s, h24, rfl⟩
    · have : m' = 2 ^ 24 := by omega
      exact ⟨1, 24 + s, by norm_num, by rw [this, pow_add]; ring⟩
  · cases h

theorem exact_outside {k m s : ℕ} (h : Exact k) (hm : s = 0 ∨ 2 ^ 23 ≤ m) : k ≤ m * 2 ^ s ∨ (m + 1) * 2 ^ s ≤ k := by
  obtain ⟨n, t, hn, rfl⟩ := h
  by_contra hc
  obtain ⟨h1, h2⟩ := not_or.1 hc
  have h1 : m * 2 ^ s < n * 2 ^ t := by omega
  have h2 : n * 2 ^ t < (m + 1) * 2 ^ s := by omega
  have hst : s ≤ t := by
    rcases hm with rfl | hm
    · exact Nat.zero_le _
    · by_contra hts
      have e : 2 ^ s = 2 * 2 ^ (s - t - 1) * 2 ^ t := by
        rw [← pow_succ', ← pow_add]
        congr 1
        omega
      have h3 : n * 2 ^ t < 2 ^ 24 * 2 ^ t := Nat.mul_lt_mul_of_pos_right hn (by positivity)
      have h4 : 2 ^ 23 * 2 ^ s ≤ m * 2 ^ s := Nat.mul_le_mul_right _ hm
      have h5 : 2 * 2 ^ t ≤ 2 ^ s := by
        rw [e]
        have : 1 ≤ 2 ^ (s - t - 1) := Nat.one_le_two_pow
        nlinarith [this, Nat.one_le_two_pow (n := t)]
      generalize 2 ^ t = T at *
      generalize 2 ^ s = S at *
      omega
  obtain ⟨d, rfl⟩ := Nat.exists_eq_add_of_le hst
  have e : n * 2 ^ (s + d) = n * 2 ^ d * 2 ^ s := by rw [pow_add]; ring
  rw [e] at h1 h2
  have a1 := Nat.lt_of_mul_lt_mul_right h1
  have a2 := Nat.lt_of_mul_lt_mul_right h2
  omega

/-- The result of rounding is a nearest number. -/
theorem round_nearest {a b k k' : ℕ} (hb : 0 < b) (h : round a b = fin k) (hk : Exact k') : |(k : ℤ) * b - a| ≤ |(k' : ℤ) * b - a| := by
  obtain ⟨s, m, r, m', ha, hr, -, hm, hm', e⟩ := round_parts (a := a) hb
  rw [e] at h
  split at h
  · cases h
    have hout := exact_outside hk hm
    have h1 : k' * b ≤ b * 2 ^ s * m ∨ b * 2 ^ s * m + b * 2 ^ s ≤ k' * b := by
      rcases hout with h | h
      · left
        calc k' * b ≤ m * 2 ^ s * b := Nat.mul_le_mul_right b h
          _ = _ := by ring
      · right
        calc b * 2 ^ s * m + b * 2 ^ s = (m + 1) * 2 ^ s * b := by ring
          _ ≤ _ := Nat.mul_le_mul_right b h
    have e1 : ((m' * 2 ^ s : ℕ) : ℤ) * b = ((b * 2 ^ s * m' : ℕ) : ℤ) := by push_cast; ring
    have e2 : (k' : ℤ) * b = ((k' * b : ℕ) : ℤ) := by push_cast; ring
    rw [e1, e2]
    generalize k' * b = K at *
    have h2 : b * 2 ^ s * m' = b * 2 ^ s * m ∧ 2 * r ≤ b * 2 ^ s ∨ b * 2 ^ s * m' = b * 2 ^ s * m + b * 2 ^ s ∧ b * 2 ^ s ≤ 2 * r := by
      rcases hm' with ⟨rfl, h, -⟩ | ⟨rfl, h, -⟩
      · exact .inl ⟨rfl, h⟩
      · exact .inr ⟨by ring, h⟩
    generalize b * 2 ^ s * m' = A at *
    generalize b * 2 ^ s * m = B at *
    generalize b * 2 ^ s = c at *
    rcases abs_cases ((A : ℤ) - a) with ⟨q1, q2⟩ | ⟨q1, q2⟩ <;> rcases abs_cases ((K : ℤ) - a) with ⟨q3, q4⟩ | ⟨q3, q4⟩ <;> rw [q1, q3] <;> omega
  · cases h

/-- If another number is as near, then it is a neighbour, and the result is the one with the even last digit. -/
theorem round_even {a b k k' : ℕ} (hb : 0 < b) (h : round a b = fin k) (hk : Exact k') (hd : |(k' : ℤ) * b - a| = |(k : ℤ) * b - a|) (hne : k' ≠ k) :
    ∃ m s, k = 2 * m * 2 ^ s ∧ (k' = k + 2 ^ s ∨ k = k' + 2 ^ s) := by
  obtain ⟨s, m, r, m', ha, hr, -, hm, hm', e⟩ := round_parts (a := a) hb
  rw [e] at h
  split at h
  · cases h
    have hout := exact_outside hk hm
    have h1 : k' * b ≤ b * 2 ^ s * m ∨ b * 2 ^ s * m + b * 2 ^ s ≤ k' * b := by
      rcases hout with h | h
      · left
        calc k' * b ≤ m * 2 ^ s * b := Nat.mul_le_mul_right b h
          _ = _ := by ring
      · right
        calc b * 2 ^ s * m + b * 2 ^ s = (m + 1) * 2 ^ s * b := by ring
          _ ≤ _ := Nat.mul_le_mul_right b h
    have e1 : ((m' * 2 ^ s : ℕ) : ℤ) * b = ((b * 2 ^ s * m' : ℕ) : ℤ) := by push_cast; ring
    have e2 : (k' : ℤ) * b = ((k' * b : ℕ) : ℤ) := by push_cast; ring
    rw [e1, e2] at hd
    have back : ∀ n, k' * b = b * 2 ^ s * n → k' = n * 2 ^ s := by
      intro n hn
      have : k' * b = n * 2 ^ s * b := by rw [hn]; ring
      exact Nat.eq_of_mul_eq_mul_right hb this
    have c1 : b * 2 ^ s * (m + 1) = b * 2 ^ s * m + b * 2 ^ s := by ring
    rcases hm' with ⟨rfl, h2, h3⟩ | ⟨rfl, h2, h3⟩
    · have key : k' * b = b * 2 ^ s * m' + b * 2 ^ s ∧ 2 * r = b * 2 ^ s ∨ k' * b = b * 2 ^ s * m' := by
        generalize k' * b = K at *
        generalize b * 2 ^ s * m' = B at *
        generalize b * 2 ^ s = c at *
        rcases abs_cases ((B : ℤ) - a) with ⟨q1, q2⟩ | ⟨q1, q2⟩ <;> rcases abs_cases ((K : ℤ) - a) with ⟨q3, q4⟩ | ⟨q3, q4⟩ <;> rw [q1, q3] at hd <;> omega
      rcases key with ⟨k1, k2⟩ | k1
      · have k3 := back (m' + 1) (by rw [k1, c1])
        have k4 := h3 k2
        refine ⟨m' / 2, s, ?_, .inl ?_⟩
        · rw [show 2 * (m' / 2) = m' by omega]
        · rw [k3]; ring
      · exact absurd (back m' k1) hne
    · have key : k' * b = b * 2 ^ s * m ∧ 2 * r = b * 2 ^ s ∨ k' * b = b * 2 ^ s * (m + 1) := by
        rw [c1] at hd ⊢
        generalize k' * b = K at *
        generalize b * 2 ^ s * m = B at *
        generalize b * 2 ^ s = c at *
        rcases abs_cases (((B + c : ℕ) : ℤ) - a) with ⟨q1, q2⟩ | ⟨q1, q2⟩ <;> rcases abs_cases ((K : ℤ) - a) with ⟨q3, q4⟩ | ⟨q3, q4⟩ <;> rw [q1, q3] at hd <;> omega
      rcases key with ⟨k1, k2⟩ | k1
      · have k3 := back m k1
        have k4 := h3 k2
        refine ⟨(m + 1) / 2, s, ?_, .inr ?_⟩
        · rw [show 2 * ((m + 1) / 2) = m + 1 by omega]
        · rw [k3]; ring
      · exact absurd (back (m + 1) k1) hne
  · cases h

/-- Numbers become infinite from half a unit of the last place below `2¹²⁸` on. -/
theorem round_inf {a b : ℕ} (hb : 0 < b) : round a b = inf ↔ (2 ^ 25 - 1) * (b * 2 ^ 252) ≤ a := by
  obtain ⟨s, m, r, m', ha, hr, hm24, hm, hm', e⟩ := round_parts (a := a) hb
  rw [e]
  have key : m' * 2 ^ s < 2 ^ 277 ↔ ¬ (2 ^ 25 - 1) * (b * 2 ^ 252) ≤ a := by
    have e0 : (2 : ℕ) ^ 277 = 2 ^ 25 * 2 ^ 252 := by rw [← pow_add]
    have e1 : (2 : ℕ) ^ 253 = 2 * 2 ^ 252 := pow_succ' 2 252
    have hlow : s < 253 → 2 ^ s ≤ 2 ^ 252 := fun h => Nat.pow_le_pow_right (by norm_num) (by omega)
    have hhigh : 253 < s → 2 * 2 ^ 253 ≤ 2 ^ s := fun h => by
      rw [← pow_succ']
      exact Nat.pow_le_pow_right (by norm_num) h
    have heq : s = 253 → 2 ^ s = 2 ^ 253 := fun h => by rw [h]
    rw [e0]
    rw [e1] at hhigh heq
    have hD : 0 < (2 : ℕ) ^ 252 := by positivity
    have hS : 0 < (2 : ℕ) ^ s := by positivity
    clear e0 e1 e
    generalize (2 : ℕ) ^ 252 = D at *
    generalize (2 : ℕ) ^ s = S at *
    rcases Nat.lt_trichotomy s 253 with hs | hs | hs
    · have hSD := hlow hs
      have h2 : m' * S ≤ 2 ^ 24 * S := Nat.mul_le_mul_right _ (by omega)
      have h4 : b * S ≤ b * D := Nat.mul_le_mul_left _ hSD
      have h5 : b * S * m ≤ b * S * (2 ^ 24 - 1) := Nat.mul_le_mul_left _ (by omega)
      generalize b * S * m = B at *
      generalize b * S = c at *
      generalize b * D = d at *
      generalize m' * S = A at *
      constructor
      · intro _ h
        omega
      · intro _
        omega
    · have hSD := heq hs
      subst hSD
      have e1 : b * (2 * D) = 2 * (b * D) := by ring
      have hd : 0 < b * D := by positivity
      rw [e1] at ha hr hm'
      have e2 : m' * (2 * D) < 2 ^ 25 * D ↔ m' < 2 ^ 24 := by
        have : 2 ^ 25 * D = 2 ^ 24 * (2 * D) := by ring
        rw [this]
        exact Nat.mul_lt_mul_right (by omega)
      rw [e2]
      generalize b * D = d at *
      constructor
      · intro h h'
        have hmm : m = 2 ^ 24 - 1 := by
          by_contra hne
          have : 2 * d * m ≤ 2 * d * (2 ^ 24 - 2) := Nat.mul_le_mul_left _ (by omega)
          generalize 2 * d * m = B at *
          omega
        rw [hmm] at ha hm'
        omega
      · intro h
        by_contra h'
        have hmm : m = 2 ^ 24 - 1 := by omega
        rw [hmm] at ha
        omega
    · have hSD := hhigh hs
      have hm2 : 2 ^ 23 ≤ m := by omega
      have h2 : 2 ^ 23 * S ≤ m' * S := Nat.mul_le_mul_right _ (by omega)
      have h4 : b * (2 * (2 * D)) ≤ b * S := Nat.mul_le_mul_left _ hSD
      have e4 : b * (2 * (2 * D)) = 4 * (b * D) := by ring
      have h5 : b * S * 2 ^ 23 ≤ b * S * m := Nat.mul_le_mul_left _ hm2
      rw [e4] at h4
      generalize b * S * m = B at *
      generalize b * S = c at *
      generalize b * D = d at *
      generalize m' * S = A at *
      constructor
      · intro _
        omega
      · intro h
        exact absurd (by omega) h
  by_cases h : m' * 2 ^ s < 2 ^ 277
  · rw [if_pos h]
    exact ⟨fun h' => (by cases h'), fun h' => absurd h' (key.1 h)⟩
  · rw [if_neg h]
    exact ⟨fun _ => Classical.not_not.1 fun h' => h (key.2 h'), fun _ => rfl⟩

/-! ## Small numbers -/

theorem exact_pow {n : ℕ} (h : Exact n) : Exact (n * 2 ^ 149) := by
  obtain ⟨m, s, hm, rfl⟩ := h
  exact ⟨m, s + 149, hm, by rw [pow_add]; ring⟩

theorem lt_277 {n : ℕ} (h : n < 2 ^ 128) : n * 2 ^ 149 < 2 ^ 277 := by
  have e : (2 : ℕ) ^ 277 = 2 ^ 128 * 2 ^ 149 := by rw [← pow_add]
  rw [e]
  exact Nat.mul_lt_mul_of_pos_right h (by positivity)

theorem exact_small {n : ℕ} (h : n < 2 ^ 24) : Exact n := ⟨n, 0, h, by simp⟩

theorem mul_fin (a b : ℕ) : (fin a).mul (fin b) = round (a * b) (2 ^ 149) := by
  cases a <;> cases b <;> simp only [Mag.mul]

theorem mul_exact {a b : ℕ} (h : Exact (a * b)) (hl : a * b < 2 ^ 128) : (fin (a * 2 ^ 149)).mul (fin (b * 2 ^ 149)) = fin (a * b * 2 ^ 149) := by
  have e : (fin (a * 2 ^ 149)).mul (fin (b * 2 ^ 149)) = round (a * 2 ^ 149 * (b * 2 ^ 149)) (2 ^ 149) := mul_fin _ _
  have e2 : a * 2 ^ 149 * (b * 2 ^ 149) = a * b * 2 ^ 149 * 2 ^ 149 := by ring
  rw [e, e2]
  exact round_exact (by positivity) (exact_pow h) (lt_277 hl)

theorem add_exact {a b : ℕ} (h : Exact (a + b)) (hl : a + b < 2 ^ 128) : (fin (a * 2 ^ 149)).add (fin (b * 2 ^ 149)) = fin ((a + b) * 2 ^ 149) := by
  have e : (fin (a * 2 ^ 149)).add (fin (b * 2 ^ 149)) = round ((a + b) * 2 ^ 149 * 1) 1 := by
    rw [Nat.mul_one, Nat.add_mul]
    rfl
  rw [e]
  exact round_exact one_pos (exact_pow h) (lt_277 hl)

theorem le_digitsVal (v : ℕ) (ds : Str) : v ≤ digitsVal 10 v ds := by
  rw [digitsVal_shift]
  have : 1 ≤ 10 ^ ds.length := Nat.one_le_pow _ _ (by norm_num)
  nlinarith

theorem digits_exact {ds : Str} : ∀ {v : ℕ}, digitsVal 10 v ds < 2 ^ 24 → digits32 (fin (v * 2 ^ 149)) ds = fin (digitsVal 10 v ds * 2 ^ 149) := by
  induction ds with
  | nil => intro v _; rfl
  | cons c ds ih =>
    intro v h
    have h' : digitsVal 10 (v * 10 + digitVal c) ds < 2 ^ 24 := h
    have hle := le_digitsVal (v * 10 + digitVal c) ds
    have e1 : (fin (v * 2 ^ 149)).mul (.ofNat 10) = fin (v * 10 * 2 ^ 149) := by
      rw [ofNat_exact (by norm_num)]
      exact mul_exact (exact_small (by omega)) (by omega)
    have e2 : (fin (v * 10 * 2 ^ 149)).add (.ofNat (digitVal c)) = fin ((v * 10 + digitVal c) * 2 ^ 149) := by
      rw [ofNat_exact (by omega)]
      exact add_exact (exact_small (by omega)) (by omega)
    have e3 := ih h'
    show digits32 (((fin (v * 2 ^ 149)).mul (.ofNat 10)).add (.ofNat (digitVal c))) ds = _
    rw [e1, e2]
    exact e3

theorem digits32_exact {ds : Str} (h : decValue ds < 2 ^ 24) : digits32 (.ofNat 0) ds = fin (decValue ds * 2 ^ 149) := by
  rw [ofNat_exact (by norm_num), ← digitsVal_eq]
  exact digits_exact (by rwa [digitsVal_eq])

theorem exact_ten {i : ℕ} (h : i ≤ 10) : Exact (10 ^ i) :=
  ⟨5 ^ i, i, lt_of_le_of_lt (Nat.pow_le_pow_right (by norm_num) h) (by norm_num), by rw [← Nat.mul_pow]⟩

theorem divisor_exact (ds : Str) : ∀ {i : ℕ}, i + ds.length ≤ 10 →
    ds.foldl (fun x _ => x.mul (.ofNat 10)) (fin (10 ^ i * 2 ^ 149)) = fin (10 ^ (i + ds.length) * 2 ^ 149) := by
  induction ds with
  | nil => intro i _; rfl
  | cons c ds ih =>
    intro i h
    rw [List.length_cons] at h
    have e1 : (fin (10 ^ i * 2 ^ 149)).mul (.ofNat 10) = fin (10 ^ (i + 1) * 2 ^ 149) := by
      have hx : 10 ^ i * 10 = 10 ^ (i + 1) := (pow_succ 10 i).symm
      have hl : 10 ^ (i + 1) ≤ 10 ^ 10 := Nat.pow_le_pow_right (by norm_num) (by omega)
      rw [ofNat_exact (by norm_num), ← hx]
      exact mul_exact (hx ▸ exact_ten (by omega)) (by rw [hx]; exact lt_of_le_of_lt hl (by norm_num))
    rw [List.foldl_cons, e1, ih (by omega), List.length_cons]
    rw [show i + 1 + ds.length = i + (ds.length + 1) by omega]

theorem divisor32_exact {ds : Str} (h : ds.length ≤ 10) : divisor32 ds = fin (10 ^ ds.length * 2 ^ 149) := by
  unfold divisor32
  have := divisor_exact ds (i := 0) (by omega)
  rw [Nat.zero_add] at this
  rw [ofNat_exact (by norm_num)]
  exact this

theorem is_exact (n : ℕ) : Is (fin (n * 2 ^ 149)) 0 n := by
  refine ⟨n * 2 ^ 149, rfl, ?_⟩
  have e : ((n * 2 ^ 149 : ℕ) : ℚ) / unit = n := by
    have hp := unit_pos
    have : ((n * 2 ^ 149 : ℕ) : ℚ) = n * unit := by unfold unit; push_cast; ring
    rw [this]
    field_simp
  rw [e]
  exact near_refl _

theorem floating_whole {ip : Str} (h : decValue ip < 2 ^ 24) :
    floating32 ip none = fin (decValue ip * 2 ^ 149) ∧ floating32 ip (some []) = fin (decValue ip * 2 ^ 149) := by
  refine ⟨digits32_exact h, ?_⟩
  show (digits32 (.ofNat 0) ip).add ((digits32 (.ofNat 0) []).div (divisor32 [])) = _
  have e : (digits32 (.ofNat 0) []).div (divisor32 []) = fin (0 * 2 ^ 149) := by decide +kernel
  rw [e, digits32_exact h]
  exact add_exact (a := decValue ip) (b := 0) (exact_small (by omega)) (by omega)

theorem floating_short {ip fp : Str} (hi : decValue ip < 2 ^ 24) (hf : decValue fp < 2 ^ 24) (hd : ∀ c ∈ fp, isDigit c = true) (hl : fp.length ≤ 10) :
    Is (floating32 ip (some fp)) 2 (decimalValue ip fp) := by
  have a := is_exact (decValue ip)
  have b := is_exact (decValue fp)
  have c := is_exact (10 ^ fp.length)
  rw [← digits32_exact hi] at a
  rw [← digits32_exact hf] at b
  rw [← divisor32_exact hl] at c
  push_cast at c
  have hb := (digits32_is hd (by omega)).2
  have q := is_div (by omega) (by positivity) (by positivity) b c (fair_frac hb (by omega))
  rw [decimalValue_eq]
  refine is_add (j := 1) (by omega) (a.mono (by omega) (by positivity)) q ?_
  exact fair_sum (j := 8) (by omega) (by omega) hb (by omega)

/-! ## Conversion to the displayed unit -/

/-- The factor of a unit in the exact model. -/
def factor : Unit_ → ℚ
  | .mu => 1 / 18
  | .pt => 72 / (7227 / 100)
  | .pc => 72 / (7227 / 100)
  | .sp => 1 / 65536 * (72 / (7227 / 100))
  | .dd => 1238 / 1157 * (72 / (7227 / 100))
  | .cc => 12 * (1238 / 1157 * (72 / (7227 / 100)))
  | _ => 1

theorem dimShown_value (n d : ℕ) (u : Unit_) : numValue (Mathml.dimShown ⟨⟨n, d⟩, u⟩).1 = n / d * factor u := by
  cases u <;> simp only [Mathml.dimShown, Mathml.Num.scale, numValue, factor] <;> push_cast <;> ring

theorem fair_num {x : ℚ} (h : 1 / 2 ^ 125 ≤ x) (h' : x ≤ 2 ^ 126) : x = 0 ∨ Fair x := .inr ⟨h, h'⟩

theorem is_quot {a b : ℕ} {q : ℚ} (ha : a < 2 ^ 24) (hb : b < 2 ^ 24) (h0 : 0 < b) (e : (a : ℚ) / b = q) (h : Fair q) : Is ((Mag.ofNat a).div (.ofNat b)) 1 q := by
  have h1 : (0 : ℚ) ≤ a := Nat.cast_nonneg a
  have h2 : (0 : ℚ) < b := Nat.cast_pos.2 h0
  rw [← e] at h ⊢
  exact is_div (i := 0) (j := 0) (by omega) h1 h2 (is_ofNat ha) (is_ofNat hb) (.inr h)

theorem is_nat {n : ℕ} {q : ℚ} (hn : n < 2 ^ 24) (e : (n : ℚ) = q) : Is (.ofNat n) 0 q := by
  rw [← e]
  exact is_ofNat hn

theorem is_pt : Is bpPerPt 2 (72 / (7227 / 100)) := by
  have h : Is (.round (7227 * 2 ^ 149) 100) 1 (7227 / 100) := by
    refine round_is (j := 0) (by omega) (by omega) ?_ (fair_num (by norm_num) (by norm_num))
    have e : ((7227 * 2 ^ 149 : ℕ) : ℚ) / (100 : ℕ) / unit = 7227 / 100 := by unfold unit; norm_num
    rw [e]
    exact near_refl _
  have h72 : Is (.ofNat 72) 0 72 := is_nat (by norm_num) (by norm_num)
  unfold bpPerPt
  exact is_div (i := 0) (j := 1) (by omega) (by norm_num) (by norm_num) h72 h (fair_num (by norm_num) (by norm_num))

theorem is_sp : Is bpPerSp 4 (1 / 65536 * (72 / (7227 / 100))) := by
  have h : Is ((Mag.ofNat 1).div (.ofNat 65536)) 1 (1 / 65536) := is_quot (by norm_num) (by norm_num) (by norm_num) (by norm_num) ⟨by norm_num, by norm_num⟩
  unfold bpPerSp
  exact is_mul (i := 1) (j := 2) (by omega) (by norm_num) (by norm_num) h is_pt (fair_num (by norm_num) (by norm_num))

theorem is_dd : Is bpPerDd 4 (1238 / 1157 * (72 / (7227 / 100))) := by
  have h : Is ((Mag.ofNat 1238).div (.ofNat 1157)) 1 (1238 / 1157) := is_quot (by norm_num) (by norm_num) (by norm_num) (by norm_num) ⟨by norm_num, by norm_num⟩
  unfold bpPerDd
  exact is_mul (i := 1) (j := 2) (by omega) (by norm_num) (by norm_num) h is_pt (fair_num (by norm_num) (by norm_num))

theorem is_cc : Is bpPerCc 5 (12 * (1238 / 1157 * (72 / (7227 / 100)))) := by
  have h : Is (Mag.ofNat 12) 0 12 := is_nat (by norm_num) (by norm_num)
  unfold bpPerCc
  exact is_mul (i := 0) (j := 4) (by omega) (by norm_num) (by norm_num) h is_dd (fair_num (by norm_num) (by norm_num))

theorem is_mu : Is emPerMu 1 (1 / 18) := by
  unfold emPerMu
  exact is_quot (by norm_num) (by norm_num) (by norm_num) (by norm_num) ⟨by norm_num, by norm_num⟩

theorem shown_is {m : Mag} {j : ℕ} {x : ℚ} (u : Unit_) (hj : j ≤ 240) (h : Is m j x) (hx : x = 0 ∨ 1 / 2 ^ 108 ≤ x ∧ x ≤ 2 ^ 122) :
    Is (shown32 m u) (j + 6) (x * factor u) := by
  have hx0 : 0 ≤ x := by
    rcases hx with rfl | ⟨h, -⟩
    · exact le_refl _
    · exact le_trans (by norm_num) h
  have key : ∀ {f : Mag} {i : ℕ} {y : ℚ}, Is f i y → i ≤ 5 → 1 / 2 ^ 17 ≤ y → y ≤ 2 ^ 4 → Is (m.mul f) (j + 6) (x * y) := by
    intro f i y hf hi h1 h2
    have hy0 : 0 ≤ y := le_trans (by norm_num) h1
    refine (is_mul (by omega) hx0 hy0 h hf ?_).mono (by omega) (mul_nonneg hx0 hy0)
    rcases hx with rfl | ⟨h3, h4⟩
    · exact .inl (by simp)
    · refine .inr ⟨?_, ?_⟩
      · refine le_trans (by norm_num) (mul_le_mul h3 h1 (by positivity) hx0)
      · refine (mul_le_mul h4 h2 hy0 (by positivity)).trans (by norm_num)
  have same : Is m (j + 6) (x * 1) := by rw [mul_one]; exact h.mono (by omega) hx0
  cases u
  case mu => unfold factor; exact key is_mu (by omega) (by norm_num) (by norm_num)
  case pt => unfold factor; exact key is_pt (by omega) (by norm_num) (by norm_num)
  case pc => unfold factor; exact key is_pt (by omega) (by norm_num) (by norm_num)
  case sp => unfold factor; exact key is_sp (by omega) (by norm_num) (by norm_num)
  case dd => unfold factor; exact key is_dd (by omega) (by norm_num) (by norm_num)
  case cc => unfold factor; exact key is_cc (by omega) (by norm_num) (by norm_num)
  all_goals exact same

theorem decimal_range {ip fp : Str} (hi : ∀ c ∈ ip, isDigit c = true) (hf : ∀ c ∈ fp, isDigit c = true) (li : ip.length ≤ 36) (lf : fp.length ≤ 32) :
    decimalValue ip fp = 0 ∨ 1 / 2 ^ 108 ≤ decimalValue ip fp ∧ decimalValue ip fp ≤ 2 ^ 122 := by
  have h1 := (digits32_is hi (by omega)).2
  have h2 := (digits32_is hf (by omega)).2
  by_cases h0 : decValue (ip ++ fp) = 0
  · left; unfold decimalValue; rw [h0]; simp
  · right
    constructor
    · unfold decimalValue
      have h3 : (1 : ℚ) ≤ decValue (ip ++ fp) := by exact_mod_cast Nat.one_le_iff_ne_zero.2 h0
      have h4 : (10 : ℚ) ^ fp.length ≤ 10 ^ 32 := pow_le_pow_right₀ (by norm_num) lf
      rw [div_le_div_iff₀ (by positivity) (by positivity), one_mul]
      exact h4.trans (le_trans (by norm_num) (mul_le_mul_of_nonneg_right h3 (by positivity)))
    · rw [decimalValue_eq]
      have h3 : (decValue fp : ℚ) / 10 ^ fp.length ≤ 1 := by
        rw [div_le_one (by positivity)]
        exact_mod_cast h2.le
      have h4 : (decValue ip : ℚ) ≤ 10 ^ 36 := by
        have : decValue ip ≤ 10 ^ 36 := h1.le.trans (Nat.pow_le_pow_right (by norm_num) li)
        exact_mod_cast this
      exact (add_le_add h4 h3).trans (by norm_num)

/-! ## Too many digits -/

theorem mul_inf_ten : Mag.mul inf (.ofNat 10) = inf := by decide +kernel

theorem add_inf (x : Mag) (h : x ≠ nan) : Mag.add inf x = inf := by cases x <;> first | rfl | exact absurd rfl h

theorem digits_inf (ds : Str) (hd : ∀ c ∈ ds, isDigit c = true) : digits32 inf ds = inf := by
  induction ds with
  | nil => rfl
  | cons c ds ih =>
    have hc := hd c List.mem_cons_self
    have hd9 : c.toNat - 48 < 2 ^ 24 := by
      simp only [isDigit, Bool.and_eq_true, decide_eq_true_eq] at hc
      omega
    show digits32 ((Mag.mul inf (.ofNat 10)).add (.ofNat (c.toNat - 48))) ds = inf
    rw [mul_inf_ten, ofNat_exact hd9, add_inf _ (by intro h; cases h)]
    exact ih fun c h => hd c (List.mem_cons_of_mem _ h)

theorem divisor_inf (ds : Str) : ds.foldl (fun x _ => x.mul (.ofNat 10)) inf = inf := by
  induction ds with
  | nil => rfl
  | cons c ds ih => rw [List.foldl_cons, mul_inf_ten]; exact ih

theorem floating_inf {ip x y : Str} (hx : digits32 (.ofNat 0) x = inf) (e : ip = x ++ y) (hy : ∀ c ∈ y, isDigit c = true) : floating32 ip none = inf := by
  show digits32 (.ofNat 0) ip = inf
  rw [e]
  unfold digits32 at *
  rw [List.foldl_append, hx]
  exact digits_inf y hy

theorem floating_nan {ip fp x y : Str} (hx : digits32 (.ofNat 0) x = inf) (hx' : divisor32 x = inf) (e : fp = x ++ y) (hy : ∀ c ∈ y, isDigit c = true) :
    floating32 ip (some fp) = nan := by
  have e1 : digits32 (.ofNat 0) fp = inf := floating_inf hx e hy
  have e2 : divisor32 fp = inf := by
    rw [e]
    unfold divisor32 at *
    rw [List.foldl_append, hx']
    exact divisor_inf y
  show (digits32 (.ofNat 0) ip).add ((digits32 (.ofNat 0) fp).div (divisor32 fp)) = nan
  rw [e1, e2]
  show (digits32 (.ofNat 0) ip).add nan = nan
  cases digits32 (.ofNat 0) ip <;> rfl

end PL.F32
