import Verif.Model.F32
import Verif.Lemmas.Value
import Verif.Spec.Rounding
import Mathlib.Tactic.Linarith
import Mathlib.Tactic.Ring
import Mathlib.Tactic.Positivity
import Mathlib.Tactic.FieldSimp
import Mathlib.Tactic.GCongr
import Mathlib.Tactic.NormNum
import Mathlib.Algebra.Order.Field.Rat
set_option autoImplicit false
/-!
# Rounding to single precision
-/
namespace PL.F32
open PL PL.Mag PL.Lex Spec

theorem one_le_ρ : 1 ≤ ρ := by unfold ρ; norm_num

theorem _root_.PL.Spec.Near.mono {i j : ℕ} {x y : ℚ} (h : Near i x y) (hij : i ≤ j) (hx : 0 ≤ x) (hy : 0 ≤ y) : Near j x y := by
  have := pow_le_pow_right₀ one_le_ρ hij
  exact ⟨h.1.trans (mul_le_mul_of_nonneg_left this hy), h.2.trans (mul_le_mul_of_nonneg_left this hx)⟩

theorem near_refl (x : ℚ) : Near 0 x x := by simp [Near]

theorem ρ_pow_pos (j : ℕ) : 0 < ρ ^ j := pow_pos (lt_of_lt_of_le one_pos one_le_ρ) j

theorem _root_.PL.Spec.Near.trans {i j : ℕ} {x y z : ℚ} (h : Near i x y) (h' : Near j y z) : Near (i + j) x z := by
  have a := ρ_pow_pos i
  have b := ρ_pow_pos j
  constructor
  · calc x ≤ y * ρ ^ i := h.1
      _ ≤ z * ρ ^ j * ρ ^ i := mul_le_mul_of_nonneg_right h'.1 a.le
      _ = z * ρ ^ (i + j) := by rw [pow_add]; ring
  · calc z ≤ y * ρ ^ j := h'.2
      _ ≤ x * ρ ^ i * ρ ^ j := mul_le_mul_of_nonneg_right h.2 b.le
      _ = x * ρ ^ (i + j) := by rw [pow_add]; ring

theorem _root_.PL.Spec.Near.add {j : ℕ} {x y u v : ℚ} (h : Near j x y) (h' : Near j u v) : Near j (x + u) (y + v) := by
  constructor
  · rw [add_mul]; exact add_le_add h.1 h'.1
  · rw [add_mul]; exact add_le_add h.2 h'.2

theorem _root_.PL.Spec.Near.mul {i j : ℕ} {x y u v : ℚ} (hx : 0 ≤ x) (hy : 0 ≤ y) (hu : 0 ≤ u) (hv : 0 ≤ v) (h : Near i x y) (h' : Near j u v) : Near (i + j) (x * u) (y * v) := by
  have a := ρ_pow_pos i
  have b := ρ_pow_pos j
  constructor
  · calc x * u ≤ (y * ρ ^ i) * (v * ρ ^ j) := mul_le_mul h.1 h'.1 hu (by positivity)
      _ = _ := by rw [pow_add]; ring
  · calc y * v ≤ (x * ρ ^ i) * (u * ρ ^ j) := mul_le_mul h.2 h'.2 hv (by positivity)
      _ = _ := by rw [pow_add]; ring

theorem _root_.PL.Spec.Near.inv {j : ℕ} {x y : ℚ} (hx : 0 < x) (hy : 0 < y) (h : Near j x y) : Near j x⁻¹ y⁻¹ := by
  have a := ρ_pow_pos j
  constructor
  · rw [inv_mul_eq_div, inv_eq_one_div, div_le_div_iff₀ hx hy]
    linarith [h.2]
  · rw [inv_mul_eq_div, inv_eq_one_div, div_le_div_iff₀ hy hx]
    linarith [h.1]

/-- One rounding, of a number that is not too small or too large. -/
theorem round_near {a b : ℕ} (hb : 0 < b) (h : 2 ^ 23 * b ≤ a) (hlt : a < b * 2 ^ 276) : ∃ k, round a b = fin k ∧ Near 1 (k : ℚ) ((a : ℚ) / b) := by
  have hq : 2 ^ 23 ≤ a / b := by rw [Nat.le_div_iff_mul_le hb]; exact h
  have hq0 : a / b ≠ 0 := by intro h0; rw [h0] at hq; norm_num at hq
  obtain ⟨s, hs⟩ : ∃ s, s = Nat.log2 (a / b) - 23 := ⟨_, rfl⟩
  have hc : b * 2 ^ s * 2 ^ 23 ≤ a := by
    have h1 : 2 ^ (s + 23) ≤ a / b := by
      rw [hs]
      have h2 : 23 ≤ Nat.log2 (a / b) := (Nat.le_log2 hq0).2 hq
      rw [Nat.sub_add_cancel h2]
      exact Nat.log2_self_le hq0
    calc b * 2 ^ s * 2 ^ 23 = 2 ^ (s + 23) * b := by rw [pow_add]; ring
      _ ≤ a / b * b := Nat.mul_le_mul_right _ h1
      _ ≤ a := Nat.div_mul_le_self a b
  obtain ⟨c, hcd⟩ : ∃ c, c = b * 2 ^ s := ⟨_, rfl⟩
  have hc0 : 0 < c := by rw [hcd]; positivity
  obtain ⟨m', hm'⟩ : ∃ m', m' = if c < 2 * (a % c) ∨ 2 * (a % c) = c ∧ (a / c) % 2 = 1 then a / c + 1 else a / c := ⟨_, rfl⟩
  have hd := Nat.div_add_mod a c
  have hr := Nat.mod_lt a hc0
  have hlo : 2 * (c * m') ≤ 2 * a + c ∧ 2 * a ≤ 2 * (c * m') + c := by
    rw [hm']
    split
    · rw [Nat.mul_add]
      rename_i h
      constructor <;> rcases h with h | h <;> omega
    · rename_i h
      push Not at h
      constructor <;> omega
  rw [← hcd] at hc
  have e : (round a b : Mag) = if m' * 2 ^ s < 2 ^ 277 then fin (m' * 2 ^ s) else inf := by
    unfold round
    dsimp only
    rw [← hs, ← hcd, ← hm']
  have hk : m' * 2 ^ s * b = c * m' := by rw [hcd]; ring
  have hbound : m' * 2 ^ s < 2 ^ 277 := by
    have h1 : m' * 2 ^ s * b < 2 ^ 277 * b := by
      rw [hk]
      have : 2 * (c * m') ≤ 2 * a + a := le_trans hlo.1 (by omega)
      have e2 : (2 : ℕ) ^ 277 = 2 ^ 276 * 2 := pow_succ 2 276
      rw [e2]
      generalize (2 : ℕ) ^ 276 = X at hlt
      have : X * 2 * b = 2 * (b * X) := by ring
      omega
    exact lt_of_mul_lt_mul_right h1 (Nat.zero_le _)
  refine ⟨m' * 2 ^ s, by rw [e, if_pos hbound], ?_⟩
  obtain ⟨k, hkd⟩ : ∃ k, k = m' * 2 ^ s := ⟨_, rfl⟩
  rw [← hkd] at hk ⊢
  have q1 : (2 : ℚ) * (k * b) ≤ 2 * a + c := by rw_mod_cast [hk]; exact_mod_cast hlo.1
  have q2 : (2 : ℚ) * a ≤ 2 * (k * b) + c := by rw_mod_cast [hk]; exact_mod_cast hlo.2
  have q3 : (c : ℚ) * 2 ^ 23 ≤ a := by exact_mod_cast hc
  have hb' : (0 : ℚ) < b := by exact_mod_cast hb
  constructor
  · rw [pow_one, div_mul_eq_mul_div, le_div_iff₀ hb']
    unfold ρ
    linarith
  · rw [pow_one, div_le_iff₀ hb', mul_assoc, mul_comm ρ, ← mul_assoc]
    unfold ρ
    linarith

theorem unit_pos : 0 < unit := by unfold unit; positivity

/-- The number has the value `x` up to `j` roundings. -/
def Is (m : Mag) (j : ℕ) (x : ℚ) : Prop := ∃ k : ℕ, m = fin k ∧ Near j (k / unit) x

/-- A product of factors that stays below one and a half. -/
theorem ρ_small {j : ℕ} (h : j ≤ 250) : ρ ^ j ≤ 3 / 2 := by
  refine (pow_le_pow_right₀ one_le_ρ h).trans ?_
  unfold ρ
  norm_num

/-- Neither too small nor too large to be rounded well. -/
def Fair (x : ℚ) : Prop := 1 / 2 ^ 125 ≤ x ∧ x ≤ 2 ^ 126

theorem round_is {a b : ℕ} {j : ℕ} {x : ℚ} (hj : j ≤ 250) (hb : 0 < b) (h : Near j ((a : ℚ) / b / unit) x) (hx : x = 0 ∨ Fair x) : Is (round a b) (j + 1) x := by
  have hb' : (0 : ℚ) < b := by exact_mod_cast hb
  have hu := unit_pos
  have hρ := ρ_small hj
  have hρ0 := ρ_pow_pos j
  have ha : (0 : ℚ) ≤ a := by positivity
  rcases hx with rfl | hx
  · have : (a : ℚ) / b / unit ≤ 0 := by simpa using h.1
    have h0 : a = 0 := by
      rw [div_div, div_le_iff₀ (by positivity), zero_mul] at this
      exact_mod_cast le_antisymm this ha
    subst h0
    refine ⟨0, ?_, by simp [Near]⟩
    unfold round
    simp
  · have hx0 : 0 < x := lt_of_lt_of_le (by norm_num) hx.1
    have h1 : (a : ℚ) / b / unit ≤ 2 ^ 126 * (3 / 2) :=
      h.1.trans (mul_le_mul hx.2 hρ hρ0.le (by positivity))
    have h2 : 1 / 2 ^ 125 ≤ (a : ℚ) / b / unit * (3 / 2) :=
      hx.1.trans (h.2.trans (mul_le_mul_of_nonneg_left hρ (by positivity)))
    have h3 : 2 ^ 23 * b ≤ a := by
      have : (2 : ℚ) ^ 23 * b ≤ a := by
        rw [div_div] at h2
        have h4 : 1 / 2 ^ 125 * (b * unit) ≤ a * (3 / 2) := by
          rw [div_mul_eq_mul_div, le_div_iff₀ (by positivity)] at h2
          exact h2
        unfold unit at h4
        norm_num at h4 ⊢
        linarith
      exact_mod_cast this
    have h5 : a < b * 2 ^ 276 := by
      have : (a : ℚ) < b * 2 ^ 276 := by
        rw [div_div, div_le_iff₀ (by positivity)] at h1
        refine lt_of_le_of_lt h1 ?_
        unfold unit
        have e : (2 : ℚ) ^ 276 = 2 ^ 126 * 2 ^ 150 := by rw [← pow_add]
        rw [e]
        have : (0 : ℚ) < b * 2 ^ 126 := by positivity
        have e2 : (2 : ℚ) ^ 150 = 2 ^ 149 * 2 := pow_succ 2 149
        rw [e2]
        nlinarith
      exact_mod_cast this
    obtain ⟨k, hk, hn⟩ := round_near hb h3 h5
    refine ⟨k, hk, ?_⟩
    have hn' : Near 1 ((k : ℚ) / unit) ((a : ℚ) / b / unit) := by
      constructor
      · rw [div_mul_eq_mul_div]; exact div_le_div_of_nonneg_right hn.1 hu.le
      · rw [div_mul_eq_mul_div]; exact div_le_div_of_nonneg_right hn.2 hu.le
    rw [Nat.add_comm]
    exact hn'.trans h

theorem Is.mono {m : Mag} {i j : ℕ} {x : ℚ} (h : Is m i x) (hij : i ≤ j) (hx : 0 ≤ x) : Is m j x := by
  obtain ⟨k, hk, hn⟩ := h
  exact ⟨k, hk, hn.mono hij (div_nonneg (by positivity) unit_pos.le) hx⟩

theorem is_add {x y : Mag} {j : ℕ} {u v : ℚ} (hj : j ≤ 250) (hx : Is x j u) (hy : Is y j v) (h : u + v = 0 ∨ Fair (u + v)) : Is (x.add y) (j + 1) (u + v) := by
  obtain ⟨a, rfl, ha⟩ := hx
  obtain ⟨b, rfl, hb⟩ := hy
  show Is (round (a + b) 1) _ _
  refine round_is hj one_pos ?_ h
  have := ha.add hb
  rw [← add_div] at this
  simpa using this

theorem is_mul {x y : Mag} {i j : ℕ} {u v : ℚ} (hj : i + j ≤ 250) (hu : 0 ≤ u) (hv : 0 ≤ v) (hx : Is x i u) (hy : Is y j v) (h : u * v = 0 ∨ Fair (u * v)) :
    Is (x.mul y) (i + j + 1) (u * v) := by
  obtain ⟨a, rfl, ha⟩ := hx
  obtain ⟨b, rfl, hb⟩ := hy
  have e : (fin a).mul (fin b) = round (a * b) (2 ^ 149) := by cases a <;> cases b <;> simp only [Mag.mul]
  rw [e]
  refine round_is hj (by positivity) ?_ h
  have hp := unit_pos
  have := ha.mul (by positivity) hu (by positivity) hv hb
  have e : ((a * b : ℕ) : ℚ) / ((2 ^ 149 : ℕ) : ℚ) / unit = a / unit * (b / unit) := by
    have : ((2 ^ 149 : ℕ) : ℚ) = unit := by unfold unit; push_cast; ring
    rw [this]
    push_cast
    field_simp
  rw [e]
  exact this

theorem div_fin {a b : ℕ} (h : b ≠ 0) : (fin a).div (fin b) = round (a * 2 ^ 149) b := by
  unfold Mag.div
  split
  all_goals first | (exfalso; simp_all; done) | skip
  rename_i h1 h2 h3 h4
  cases h3
  cases h4
  rfl

theorem is_div {x y : Mag} {i j : ℕ} {u v : ℚ} (hj : i + j ≤ 250) (hu : 0 ≤ u) (hv : 0 < v) (hx : Is x i u) (hy : Is y j v) (h : u / v = 0 ∨ Fair (u / v)) :
    Is (x.div y) (i + j + 1) (u / v) := by
  obtain ⟨a, rfl, ha⟩ := hx
  obtain ⟨b, rfl, hb⟩ := hy
  have hp := unit_pos
  have hb0 : b ≠ 0 := by
    rintro rfl
    have := hb.2
    simp at this
    linarith
  have hb1 : (0 : ℚ) < b := by exact_mod_cast Nat.pos_of_ne_zero hb0
  have e : (fin a).div (fin b) = round (a * 2 ^ 149) b := div_fin hb0
  rw [e]
  refine round_is hj (Nat.pos_of_ne_zero hb0) ?_ h
  have := ha.mul (by positivity) hu (by positivity) (by positivity) (hb.inv (by positivity) hv)
  have e : ((a * 2 ^ 149 : ℕ) : ℚ) / b / unit = a / unit * (b / unit)⁻¹ := by
    have : ((a * 2 ^ 149 : ℕ) : ℚ) = a * unit := by unfold unit; push_cast; ring
    rw [this]
    field_simp
  rw [e, div_eq_mul_inv u v]
  exact this

/-! ## Numbers that are represented exactly -/

theorem round_exact {k b : ℕ} (hb : 0 < b) (h : Exact k) (hk : k < 2 ^ 277) : round (k * b) b = fin k := by
  obtain ⟨m, t, hm, e⟩ := h
  unfold round
  rw [Nat.mul_div_cancel _ hb]
  have hd : 2 ^ (Nat.log2 k - 23) ∣ k := by
    by_cases h0 : k = 0
    · rw [h0]; exact dvd_zero _
    · have h1 : Nat.log2 k < 24 + t := by
        rw [Nat.log2_lt h0, e, pow_add]
        exact Nat.mul_lt_mul_of_pos_right hm (by positivity)
      have h2 : Nat.log2 k - 23 ≤ t := by omega
      conv_rhs => rw [e]
      exact Dvd.dvd.mul_left (pow_dvd_pow 2 h2) m
  obtain ⟨q, hq⟩ := hd
  generalize Nat.log2 k - 23 = s at hq
  have hc : 0 < b * 2 ^ s := by positivity
  have e1 : k * b = b * 2 ^ s * q := by rw [hq]; ring
  have e2 : k * b / (b * 2 ^ s) = q := by rw [e1]; exact Nat.mul_div_cancel_left q hc
  have e3 : k * b % (b * 2 ^ s) = 0 := by rw [e1]; exact Nat.mul_mod_right _ _
  have e4 : q * 2 ^ s = k := by rw [hq]; ring
  simp only [e2, e3]
  have e5 : ¬ (b * 2 ^ s < 2 * 0 ∨ 2 * 0 = b * 2 ^ s ∧ q % 2 = 1) := by omega
  simp only [if_neg e5, e4, if_pos hk]

theorem ofNat_exact {n : ℕ} (h : n < 2 ^ 24) : Mag.ofNat n = fin (n * 2 ^ 149) := by
  unfold Mag.ofNat
  have := @round_exact (n * 2 ^ 149) 1 one_pos ⟨n, 149, h, rfl⟩ (by
    have e : (2 : ℕ) ^ 277 = 2 ^ 128 * 2 ^ 149 := by rw [← pow_add]
    rw [e]
    exact Nat.mul_lt_mul_of_pos_right (h.trans (by norm_num)) (by positivity))
  rwa [Nat.mul_one] at this

theorem is_ofNat {n : ℕ} (h : n < 2 ^ 24) : Is (.ofNat n) 0 n := by
  refine ⟨n * 2 ^ 149, ofNat_exact h, ?_⟩
  have e : ((n * 2 ^ 149 : ℕ) : ℚ) / unit = n := by
    have hp := unit_pos
    have : ((n * 2 ^ 149 : ℕ) : ℚ) = n * unit := by unfold unit; push_cast; ring
    rw [this]
    field_simp
  rw [e]
  exact near_refl _

/-! ## The digits -/

theorem fair_nat {n : ℕ} (h : n ≤ 2 ^ 126) : (n : ℚ) = 0 ∨ Fair n := by
  by_cases h0 : n = 0
  · exact .inl (by exact_mod_cast h0)
  · refine .inr ⟨?_, by exact_mod_cast h⟩
    have : (1 : ℚ) ≤ n := by exact_mod_cast Nat.one_le_iff_ne_zero.2 h0
    exact le_trans (by norm_num) this

theorem pow_le_126 {i : ℕ} (h : i ≤ 37) : 10 ^ i ≤ 2 ^ 126 := (Nat.pow_le_pow_right (by norm_num) h).trans (by norm_num)

theorem digits_is {ds : Str} (hd : ∀ c ∈ ds, isDigit c = true) : ∀ {x : Mag} {j v i : ℕ}, Is x j v → v < 10 ^ i → i + ds.length ≤ 37 → j + 2 * ds.length ≤ 250 →
    Is (digits32 x ds) (j + 2 * ds.length) (digitsVal 10 v ds : ℕ) ∧ digitsVal 10 v ds < 10 ^ (i + ds.length) := by
  induction ds with
  | nil => intro x j v i hx hv _ _; exact ⟨hx, hv⟩
  | cons c ds ih =>
    intro x j v i hx hv hi hj
    simp only [List.length_cons] at hi hj ⊢
    have hc := hd c List.mem_cons_self
    have hd9 : c.toNat - 48 < 10 := by
      simp only [isDigit, Bool.and_eq_true, decide_eq_true_eq] at hc
      omega
    have hv' : v * 10 + (c.toNat - 48) < 10 ^ (i + 1) := by rw [pow_succ]; omega
    have hle : v * 10 + (c.toNat - 48) ≤ 2 ^ 126 := hv'.le.trans (pow_le_126 (by omega))
    have h1 : Is (x.mul (.ofNat 10)) (j + 1) ((v * 10 : ℕ) : ℚ) := by
      have := is_mul (j := 0) (by omega) (by positivity) (by positivity) hx (is_ofNat (n := 10) (by norm_num)) (by
        have := fair_nat (n := v * 10) (by omega)
        push_cast at this ⊢
        exact this)
      push_cast at this ⊢
      exact this
    have h2 : Is ((x.mul (.ofNat 10)).add (.ofNat (c.toNat - 48))) (j + 1 + 1) ((v * 10 + (c.toNat - 48) : ℕ) : ℚ) := by
      rw [Nat.cast_add]
      refine is_add (by omega) h1 ((is_ofNat (by omega)).mono (Nat.zero_le _) (by positivity)) ?_
      rw [← Nat.cast_add]
      exact fair_nat hle
    have := ih (fun c h => hd c (List.mem_cons_of_mem _ h)) h2 hv' (by omega) (by omega)
    rw [show j + 1 + 1 + 2 * ds.length = j + 2 * (ds.length + 1) by omega, show i + 1 + ds.length = i + (ds.length + 1) by omega] at this
    exact this

theorem divisor_is (ds : Str) : ∀ {x : Mag} {j i : ℕ}, Is x j ((10 : ℚ) ^ i) → i + ds.length ≤ 37 → j + ds.length ≤ 250 →
    Is (ds.foldl (fun x _ => x.mul (.ofNat 10)) x) (j + ds.length) ((10 : ℚ) ^ (i + ds.length)) := by
  induction ds with
  | nil => intro x j i hx _ _; exact hx
  | cons c ds ih =>
    intro x j i hx hi hj
    simp only [List.length_cons, List.foldl_cons] at hi hj ⊢
    have h1 : Is (x.mul (.ofNat 10)) (j + 1) ((10 : ℚ) ^ (i + 1)) := by
      rw [pow_succ]
      refine is_mul (j := 0) (by omega) (by positivity) (by positivity) hx (is_ofNat (n := 10) (by norm_num)) ?_
      have := fair_nat (n := 10 ^ (i + 1)) (pow_le_126 (by omega))
      push_cast at this ⊢
      rwa [← pow_succ]
    have := ih h1 (by omega) (by omega)
    rw [show j + 1 + ds.length = j + (ds.length + 1) by omega, show i + 1 + ds.length = i + (ds.length + 1) by omega] at this
    exact this

theorem digitsVal_shift (v : ℕ) (ds : Str) : digitsVal 10 v ds = v * 10 ^ ds.length + digitsVal 10 0 ds := by
  induction ds generalizing v with
  | nil => simp [digitsVal]
  | cons c ds ih =>
    show digitsVal 10 (v * 10 + digitVal c) ds = _ + digitsVal 10 (0 * 10 + digitVal c) ds
    rw [ih, ih (0 * 10 + digitVal c), List.length_cons, pow_succ]
    ring

theorem decValue_append (x y : Str) : decValue (x ++ y) = decValue x * 10 ^ y.length + decValue y := by
  rw [← digitsVal_eq, ← digitsVal_eq, ← digitsVal_eq, digitsVal_append, digitsVal_shift]

/-- The digits of a numeral. -/
theorem digits32_is {ds : Str} (hd : ∀ c ∈ ds, isDigit c = true) (hl : ds.length ≤ 37) :
    Is (digits32 (.ofNat 0) ds) (2 * ds.length) (decValue ds) ∧ decValue ds < 10 ^ ds.length := by
  have := digits_is hd (x := .ofNat 0) (j := 0) (v := 0) (i := 0) (by simpa using is_ofNat (n := 0) (by norm_num)) (by norm_num) (by omega) (by omega)
  rw [digitsVal_eq, Nat.zero_add, Nat.zero_add] at this
  exact this

theorem divisor32_is {ds : Str} (hl : ds.length ≤ 37) : Is (divisor32 ds) ds.length ((10 : ℚ) ^ ds.length) := by
  have := divisor_is ds (x := .ofNat 1) (j := 0) (i := 0) (by simpa using is_ofNat (n := 1) (by norm_num)) (by omega) (by omega)
  rw [Nat.zero_add] at this
  exact this

theorem decimalValue_eq (ip fp : Str) : decimalValue ip fp = decValue ip + (decValue fp : ℚ) / 10 ^ fp.length := by
  unfold decimalValue
  rw [decValue_append]
  push_cast
  field_simp

theorem fair_frac {n i : ℕ} (h : n < 10 ^ i) (hi : i ≤ 37) : (n : ℚ) / 10 ^ i = 0 ∨ Fair ((n : ℚ) / 10 ^ i) := by
  by_cases h0 : n = 0
  · exact .inl (by rw [h0]; simp)
  · refine .inr ⟨?_, ?_⟩
    · have h1 : (1 : ℚ) ≤ n := by exact_mod_cast Nat.one_le_iff_ne_zero.2 h0
      have h2 : (10 : ℚ) ^ i ≤ 10 ^ 37 := pow_le_pow_right₀ (by norm_num) hi
      rw [div_le_div_iff₀ (by positivity) (by positivity), one_mul]
      refine h2.trans (le_trans (by norm_num) (mul_le_mul_of_nonneg_right h1 (by positivity)))
    · rw [div_le_iff₀ (by positivity)]
      have h1 : (n : ℚ) ≤ 10 ^ i := by exact_mod_cast h.le
      have : (0 : ℚ) < 10 ^ i := by positivity
      nlinarith

theorem fair_sum {n m i j : ℕ} (hn : n < 10 ^ j) (hj : j ≤ 37) (h : m < 10 ^ i) (hi : i ≤ 37) : (n : ℚ) + (m : ℚ) / 10 ^ i = 0 ∨ Fair ((n : ℚ) + (m : ℚ) / 10 ^ i) := by
  by_cases h0 : n = 0
  · rw [h0]
    simpa using fair_frac h hi
  · have h1 : (1 : ℚ) ≤ n := by exact_mod_cast Nat.one_le_iff_ne_zero.2 h0
    have h2 : (0 : ℚ) ≤ (m : ℚ) / 10 ^ i := by positivity
    have h3 : (m : ℚ) / 10 ^ i ≤ 1 := by
      rw [div_le_one (by positivity)]
      exact_mod_cast h.le
    have h4 : (n : ℚ) ≤ 10 ^ 37 := by
      have : n ≤ 10 ^ 37 := hn.le.trans (Nat.pow_le_pow_right (by norm_num) hj)
      exact_mod_cast this
    refine .inr ⟨le_trans (by norm_num) (h1.trans (le_add_of_nonneg_right h2)), ?_⟩
    refine (add_le_add h4 h3).trans (by norm_num)

theorem floating_is {ip fp : Str} (hi : ∀ c ∈ ip, isDigit c = true) (hf : ∀ c ∈ fp, isDigit c = true) (li : ip.length ≤ 37) (lf : fp.length ≤ 37) :
    Is (floating32 ip (some fp)) (max (2 * ip.length) (3 * fp.length + 1) + 1) (decimalValue ip fp) := by
  obtain ⟨a, ha⟩ := digits32_is hi li
  obtain ⟨b, hb⟩ := digits32_is hf lf
  have c := divisor32_is (ds := fp) lf
  have q := is_div (by omega) (by positivity) (by positivity) b c (fair_frac hb lf)
  rw [decimalValue_eq]
  refine is_add (by omega) (a.mono (le_max_left _ _) (by positivity)) (q.mono ?_ (by positivity)) (fair_sum ha li hb lf)
  refine le_trans ?_ (le_max_right _ _)
  omega

theorem floating_none_is {ip : Str} (hi : ∀ c ∈ ip, isDigit c = true) (li : ip.length ≤ 37) : Is (floating32 ip none) (2 * ip.length) (decimalValue ip []) := by
  have := (digits32_is hi li).1
  rw [decimalValue_eq]
  simpa [floating32, decValue, valueRev] using this

/-! ## Reading -/

theorem floatingPoint32_eq (s : Str) : floatingPoint32 s =
    (let sg := signOf (s.takeWhile signChar)
     let t := s.dropWhile signChar
     let ip := t.takeWhile isDigit
     match t.dropWhile isDigit with
     | c :: r =>
       if c = '.' ∨ c = ',' then
         .ok (sg, floating32 ip (some (r.takeWhile isDigit))) (r.dropWhile isDigit)
       else .ok (sg, floating32 ip none) (c :: r)
     | [] => .ok (sg, floating32 ip none) []) := by
  unfold floatingPoint32
  rw [M.bind_ok (signs_eq s), M.get_bind]
  dsimp only
  generalize s.dropWhile signChar = t
  generalize t.dropWhile isDigit = t'
  cases t' with
  | nil => rfl
  | cons c r =>
    by_cases h : c = '.' ∨ c = ','
    · simp [h]
    · simp [h]

theorem floatingPoint32_of {s t : Str} {neg : Bool} {ip fp : Str} {u : Unit_} (h : DimText s neg ip fp u t) :
    ∃ w m, Spaces w ∧ (m = floating32 ip (some fp) ∨ fp = [] ∧ m = floating32 ip none) ∧ floatingPoint32 s =
      .ok ((if neg then -1 else 1), m) (w ++ unitName u ++ t) := by
  have hneg : ∀ sg : Str, signOf sg = if decide (sg.count '-' % 2 = 1) then -1 else 1 := by
    intro sg
    unfold signOf
    by_cases h : sg.count '-' % 2 = 0
    · simp [h]
    · have : sg.count '-' % 2 = 1 := by omega
      simp [this]
  obtain ⟨a, b, hab, ha, hb, _⟩ := unitName_head u
  rw [floatingPoint32_eq]
  cases h with
  | @whole sg ip w u r h1 h2 h3 =>
    rw [hab]
    cases ip with
    | cons d ip =>
      refine ⟨w, _, h3, .inr ⟨rfl, rfl⟩, ?_⟩
      obtain ⟨e1, e2⟩ := takeWhile_append_of (p := signChar) (a := sg) (r := d :: ip ++ w ++ [a, b] ++ t)
        (fun c hc => signChar_iff.2 (h1 c hc)) (fun c r' hc => by
          injection hc with hc _; exact hc ▸ digit_not_sign (h2 d (by simp)))
      have e0 : sg ++ d :: ip ++ w ++ [a, b] ++ t = sg ++ (d :: ip ++ w ++ [a, b] ++ t) := by simp
      rw [e0, e1, e2]
      have hhead : ∀ c r', w ++ [a, b] ++ t = c :: r' → isDigit c = false ∧ ¬ (c = '.' ∨ c = ',') := by
        intro c r' hc
        cases w with
        | nil => injection hc with hc _; subst hc; exact ⟨letter_not_digit ha, letter_not_sep ha⟩
        | cons x w =>
          injection hc with hc _; subst hc
          exact ⟨ws_not_digit (h3 x (by simp)), ws_not_sep (h3 x (by simp))⟩
      obtain ⟨f1, f2⟩ := takeWhile_append_of (p := isDigit) (a := d :: ip) (r := w ++ [a, b] ++ t) h2
        (fun c r' hc => (hhead c r' hc).1)
      have e3 : d :: ip ++ w ++ [a, b] ++ t = d :: ip ++ (w ++ [a, b] ++ t) := by simp
      dsimp only
      rw [e3, f1, f2]
      generalize w ++ [a, b] ++ t = x at hhead
      cases x with
      | nil => simp [hneg]
      | cons c r' => simp [(hhead c r' rfl).2, hneg]
    | nil =>
      refine ⟨[], _, (by intro c hc; cases hc), .inr ⟨rfl, rfl⟩, ?_⟩
      obtain ⟨e1, e2⟩ := takeWhile_append_of (p := signChar) (a := sg ++ w) (r := [a, b] ++ t)
        (fun c hc => by
          rcases List.mem_append.1 hc with hc | hc
          · exact signChar_iff.2 (h1 c hc)
          · exact signChar_iff.2 (.inr (.inr (h3 c hc)))) (fun c r' hc => by
          injection hc with hc _; exact hc ▸ letter_not_sign ha)
      have e0 : sg ++ [] ++ w ++ [a, b] ++ t = sg ++ w ++ ([a, b] ++ t) := by simp
      rw [e0, e1, e2]
      have hcount : (sg ++ w).count '-' = sg.count '-' := by
        rw [List.count_append, List.count_eq_zero_of_not_mem (a := '-') (l := w)]
        · rfl
        · intro hm; exact absurd (h3 _ hm) (by decide)
      simp [letter_not_digit ha, letter_not_sep ha, hneg, hcount]
  | @frac sg ip sep fp w u r h1 h2 hs h3 h4 =>
    rw [hab]
    refine ⟨w, _, h4, .inl rfl, ?_⟩
    obtain ⟨e1, e2⟩ := takeWhile_append_of (p := signChar) (a := sg) (r := ip ++ sep :: fp ++ w ++ [a, b] ++ t)
        (fun c hc => signChar_iff.2 (h1 c hc)) (fun c r' hc => by
          cases ip with
          | nil => injection hc with hc _; exact hc ▸ sep_not_sign hs
          | cons d ip => injection hc with hc _; exact hc ▸ digit_not_sign (h2 d (by simp)))
    have e0 : sg ++ ip ++ sep :: fp ++ w ++ [a, b] ++ t = sg ++ (ip ++ sep :: fp ++ w ++ [a, b] ++ t) := by simp
    rw [e0, e1, e2]
    obtain ⟨f1, f2⟩ := takeWhile_append_of (p := isDigit) (a := ip) (r := sep :: fp ++ w ++ [a, b] ++ t) h2
        (fun c r' hc => by injection hc with hc _; exact hc ▸ sep_not_digit hs)
    have e3 : ip ++ sep :: fp ++ w ++ [a, b] ++ t = ip ++ (sep :: fp ++ w ++ [a, b] ++ t) := by simp
    obtain ⟨g1, g2⟩ := takeWhile_append_of (p := isDigit) (a := fp) (r := w ++ [a, b] ++ t) h3
        (fun c r' hc => by
          cases w with
          | nil => injection hc with hc _; exact hc ▸ letter_not_digit ha
          | cons x w => injection hc with hc _; exact hc ▸ ws_not_digit (h4 x (by simp)))
    have e4 : sep :: fp ++ w ++ [a, b] ++ t = sep :: (fp ++ (w ++ [a, b] ++ t)) := by simp
    dsimp only
    rw [e3, f1, f2, e4]
    dsimp only
    rw [if_pos hs, g1, g2, hneg]


theorem dimension32_of {s t r : Str} {neg : Bool} {ip fp : Str} {u : Unit_} (h : DimText s neg ip fp u t)
    (ht : OptSpace t r) (hs : ∀ c t', t = c :: t' → isWs c = true → c.utf8Size = 1) :
    ∃ m, (m = floating32 ip (some fp) ∨ fp = [] ∧ m = floating32 ip none) ∧ dimension32 s = .ok ((if neg then -1 else 1), m, u) r := by
  obtain ⟨w, m, hw, hm, hf⟩ := floatingPoint32_of h
  refine ⟨m, hm, ?_⟩
  unfold dimension32
  rw [M.bind_ok hf]
  obtain ⟨b, hb⟩ := oneOptionalSpace_of ht hs
  dsimp only
  rw [M.bind_ok (a := u) (s' := r) (by rw [dimensionUnit_of u hw, hb])]
  rfl

theorem dimText_digits {s t : Str} {neg : Bool} {ip fp : Str} {u : Unit_} (h : DimText s neg ip fp u t) :
    (∀ c ∈ ip, isDigit c = true) ∧ ∀ c ∈ fp, isDigit c = true := by
  cases h with
  | whole _ h _ => exact ⟨h, fun c hc => by cases hc⟩
  | frac _ h _ h' _ => exact ⟨h, h'⟩

/-- A dimension is read with its value up to rounding. -/
theorem dimension32_is {s t r : Str} {neg : Bool} {ip fp : Str} {u : Unit_} (h : DimText s neg ip fp u t)
    (ht : OptSpace t r) (hs : ∀ c t', t = c :: t' → isWs c = true → c.utf8Size = 1) (li : ip.length ≤ 37) (lf : fp.length ≤ 37) :
    ∃ m, Is m (max (2 * ip.length) (3 * fp.length + 1) + 1) (decimalValue ip fp) ∧ dimension32 s = .ok ((if neg then -1 else 1), m, u) r := by
  obtain ⟨m, hm, e⟩ := dimension32_of h ht hs
  obtain ⟨hi, hf⟩ := dimText_digits h
  refine ⟨m, ?_, e⟩
  rcases hm with rfl | ⟨rfl, rfl⟩
  · exact floating_is hi hf li lf
  · refine (floating_none_is hi li).mono ?_ (by unfold decimalValue; positivity)
    exact (le_max_left _ _).trans (Nat.le_succ _)

end PL.F32
