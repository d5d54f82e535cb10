import Verif.Lemmas.Value
import Verif.Spec.Css
set_option autoImplicit false
/-! # Lemmas on colours -/
namespace PL
open Lex Spec

theorem lookup_iff_mem {α β : Type} [BEq α] [LawfulBEq α] {l : List (α × β)} (h : (l.map Prod.fst).Nodup) {a : α} {b : β} :
    l.lookup a = some b ↔ (a, b) ∈ l := by
  induction l with
  | nil => simp
  | cons p l ih =>
    obtain ⟨x, y⟩ := p
    rw [List.map_cons, List.nodup_cons] at h
    rw [List.lookup_cons]
    by_cases hx : a = x
    · subst hx
      simp only [beq_self_eq_true, List.mem_cons, Prod.mk.injEq, true_and]
      constructor
      · intro h'; cases h'; exact .inl rfl
      · rintro (rfl | h')
        · rfl
        · exact absurd (List.mem_map.2 ⟨(a, b), h', rfl⟩) h.1
    · have : (a == x) = false := by simpa using hx
      rw [this]
      simp only [List.mem_cons, Prod.mk.injEq, hx, false_and, false_or]
      exact ih h.2

theorem dvips_nodup : (dvipsnames.map Prod.fst).Nodup := by decide +kernel
theorem css_nodup : (cssNames.map Prod.fst).Nodup := by decide +kernel

/-- The table of the code is the CSS one. -/
theorem cssNames_iff : ∀ n v, (n, v) ∈ cssNames ↔ ∃ h, (n, h) ∈ cssSpec ∧ v = (h / 65536, h / 256 % 256, h % 256) := by
  have h1 : ∀ p ∈ cssNames, (p.1, p.2.1 * 65536 + p.2.2.1 * 256 + p.2.2.2) ∈ cssSpec ∧
      p.2.1 < 256 ∧ p.2.2.1 < 256 ∧ p.2.2.2 < 256 := by decide +kernel
  have h2 : ∀ p ∈ cssSpec, (p.1, p.2 / 65536, p.2 / 256 % 256, p.2 % 256) ∈ cssNames := by decide +kernel
  intro n v
  constructor
  · intro h
    obtain ⟨k1, k2, k3, k4⟩ := h1 _ h
    refine ⟨_, k1, ?_⟩
    obtain ⟨r, g, b⟩ := v
    simp only at *
    refine Prod.ext ?_ (Prod.ext ?_ ?_) <;> simp <;> omega
  · rintro ⟨h, h3, rfl⟩
    exact h2 _ h3

theorem css_letters : ∀ p ∈ cssNames, ∀ c ∈ p.1, 97 ≤ c.toNat ∧ c.toNat ≤ 122 := by decide +kernel

/-- Bytes needed at most for a variant of a name in another case (the Kelvin sign has three). -/
def foldBytes (s : Str) : Nat := (s.map fun c => if c = 'k' then 3 else 1).sum

theorem css_short : ∀ p ∈ cssNames, foldBytes p.1 ≤ 20 := by decide +kernel

theorem ofNat_toNat_small {n : Nat} (h : n < 0xD800) : (Char.ofNat n).toNat = n := by
  have : n.isValidChar := .inl h
  simp [Char.ofNat, this, Char.ofNatAux, Char.toNat]

theorem char_eq_of_toNat {c d : Char} (h : c.toNat = d.toNat) : c = d := by
  apply Char.ext
  apply UInt32.toNat_inj.1
  exact h

theorem lowerForCss_iff {c d : Char} (hd : 97 ≤ d.toNat ∧ d.toNat ≤ 122) : lowerForCss c = d ↔ FoldChar c d := by
  unfold lowerForCss FoldChar
  constructor
  · intro h
    split at h
    · rename_i hc
      simp only [Bool.and_eq_true, decide_eq_true_eq] at hc
      refine .inr (.inl ⟨hc.1, hc.2, ?_⟩)
      rw [← h, ofNat_toNat_small (by omega)]
    · split at h
      · rename_i hk
        exact .inr (.inr ⟨char_eq_of_toNat (hk.trans (by decide)), h.symm⟩)
      · exact .inl h
  · rintro (rfl | ⟨h1, h2, h3⟩ | ⟨rfl, rfl⟩)
    · rw [if_neg (by simp; omega), if_neg (by omega)]
    · rw [if_pos (by simp; omega)]
      apply char_eq_of_toNat
      rw [ofNat_toNat_small (by omega), h3]
    · rfl

theorem map_lower_iff {s n : Str} (hn : ∀ c ∈ n, 97 ≤ c.toNat ∧ c.toNat ≤ 122) :
    s.map lowerForCss = n ↔ CaseFold s n := by
  induction s generalizing n with
  | nil =>
    constructor
    · rintro rfl; exact .nil
    · intro h; cases h; rfl
  | cons c s ih =>
    cases n with
    | nil => exact ⟨fun h => (by cases h), fun h => (by cases h)⟩
    | cons d n =>
      rw [List.map_cons, List.cons.injEq, lowerForCss_iff (hn d (by simp)), ih fun x hx => hn x (by simp [hx])]
      constructor
      · rintro ⟨h1, h2⟩; exact .cons h1 h2
      · intro h; cases h with | cons h1 h2 => exact ⟨h1, h2⟩

theorem foldChar_size {c d : Char} (hd : 97 ≤ d.toNat ∧ d.toNat ≤ 122) (h : FoldChar c d) :
    c.utf8Size ≤ if d = 'k' then 3 else 1 := by
  rcases h with rfl | ⟨h1, h2, _⟩ | ⟨rfl, rfl⟩
  · rw [ascii_size (by omega)]; split <;> omega
  · rw [ascii_size (by omega)]; split <;> omega
  · decide

theorem fold_blen {s n : Str} (hn : ∀ c ∈ n, 97 ≤ c.toNat ∧ c.toNat ≤ 122) (h : CaseFold s n) :
    blen s ≤ foldBytes n := by
  induction h with
  | nil => simp [foldBytes]
  | @cons c d s n h1 h2 ih =>
    have := ih fun x hx => hn x (by simp [hx])
    have h3 := foldChar_size (hn d (by simp)) h1
    simp only [foldBytes, List.map_cons, List.sum_cons, blen_cons] at *
    omega

theorem primitiveColor_iff {s : Str} {v : Nat × Nat × Nat} :
    primitiveColor s = some v ↔ ∃ n, CaseFold s n ∧ (n, v) ∈ cssNames := by
  unfold primitiveColor
  constructor
  · intro h
    split at h
    · cases h
    · rw [lookup_iff_mem css_nodup] at h
      exact ⟨_, (map_lower_iff (css_letters _ h)).1 rfl, h⟩
  · rintro ⟨n, h1, h2⟩
    have h3 := fold_blen (css_letters _ h2) h1
    have h4 := css_short _ h2
    rw [if_neg (by omega), (map_lower_iff (css_letters _ h2)).2 h1, lookup_iff_mem css_nodup]
    exact h2

theorem hexDigit?_iff {c : Char} {v : Nat} : hexDigit? c = some v ↔ HexDigit c v := by
  unfold hexDigit? HexDigit
  simp only [Bool.and_eq_true, decide_eq_true_eq]
  split
  · simp only [Option.some.injEq]; omega
  · split
    · simp only [Option.some.injEq]; omega
    · split
      · simp only [Option.some.injEq]; omega
      · simp only [reduceCtorEq, false_iff]; omega

theorem hexDigit_size {c : Char} {v : Nat} (h : HexDigit c v) : c.utf8Size = 1 := by
  apply ascii_size
  rcases h with h | h | h <;> omega

theorem u8Hex_iff {s : Str} {v : Nat} (hs : '+' ∉ s) : u8Hex s = some v ↔
    ∃ a b x y, s = [a, b] ∧ HexDigit a x ∧ HexDigit b y ∧ v = x * 16 + y := by
  unfold u8Hex
  constructor
  · intro h
    split at h
    · rename_i a b
      have ha : a ≠ '+' := fun e => hs (by simp [e])
      rw [if_neg ha] at h
      split at h
      · rename_i x y hx hy
        cases h
        exact ⟨a, b, x, y, rfl, hexDigit?_iff.1 hx, hexDigit?_iff.1 hy, rfl⟩
      · cases h
    · cases h
  · rintro ⟨a, b, x, y, rfl, ha, hb, rfl⟩
    have ha' : a ≠ '+' := fun e => hs (by simp [e])
    simp [ha', hexDigit?_iff.2 ha, hexDigit?_iff.2 hb]

end PL
