import Verif.Model.Lex
set_option autoImplicit false
/-!
# Lemmas on strings
-/
namespace PL

theorem utf8Size_pos (c : Char) : 0 < c.utf8Size := Char.utf8Size_pos c

@[simp] theorem blen_nil : blen [] = 0 := rfl
@[simp] theorem blen_cons (c : Char) (s : Str) : blen (c :: s) = c.utf8Size + blen s := rfl

@[simp] theorem blen_append (a b : Str) : blen (a ++ b) = blen a + blen b := by
  induction a with
  | nil => simp
  | cons c a ih => simp [ih]; omega

theorem length_le_blen (s : Str) : s.length ≤ blen s := by
  induction s with
  | nil => simp
  | cons c s ih => have := utf8Size_pos c; simp; omega

theorem blen_eq_zero {s : Str} : blen s = 0 ↔ s = [] := by
  cases s with
  | nil => simp
  | cons c s => have := utf8Size_pos c; simp; omega

theorem isPrefix_iff {p s : Str} : p.isPrefixOf s = true ↔ ∃ r, s = p ++ r := by
  rw [List.isPrefixOf_iff_prefix]
  constructor
  · rintro ⟨r, h⟩; exact ⟨r, h.symm⟩
  · rintro ⟨r, h⟩; exact ⟨r, h.symm⟩

theorem startsWith_iff {p s : Str} : startsWith p s = true ↔ ∃ r, s = p ++ r := isPrefix_iff

theorem stripPrefix_some {p s r : Str} : stripPrefix p s = some r ↔ s = p ++ r := by
  unfold stripPrefix
  split
  · rename_i h
    obtain ⟨r', rfl⟩ := isPrefix_iff.1 h
    simp
  · rename_i h
    constructor
    · intro h'; cases h'
    · intro h'; exact absurd (isPrefix_iff.2 ⟨r, h'⟩) h

theorem stripPrefix_none {p s : Str} : stripPrefix p s = none ↔ ∀ r, s ≠ p ++ r := by
  rw [← Option.not_isSome_iff_eq_none, Option.isSome_iff_exists]
  simp [stripPrefix_some]

/-! ### trimStart -/

/-- All characters are whitespace. -/
def AllWs (s : Str) : Prop := ∀ c ∈ s, isWs c = true

theorem AllWs.append {a b : Str} (ha : AllWs a) (hb : AllWs b) : AllWs (a ++ b) := by
  intro c hc
  rcases List.mem_append.1 hc with h | h
  · exact ha c h
  · exact hb c h

theorem trimStart_spec (s : Str) : ∃ w, AllWs w ∧ s = w ++ trimStart s := by
  refine ⟨s.takeWhile isWs, ?_, ?_⟩
  · intro c hc
    have := List.all_takeWhile (p := isWs) (l := s)
    exact List.all_eq_true.1 this c hc
  · simp [trimStart]

theorem trimStart_head {s r : Str} {c : Char} (h : trimStart s = c :: r) : isWs c = false := by
  induction s with
  | nil => simp [trimStart] at h
  | cons d s ih =>
    unfold trimStart at h ih
    rw [List.dropWhile_cons] at h
    split at h
    · exact ih h
    · rename_i hd
      cases h
      simpa using hd

theorem trimStart_eq_self {s : Str} (h : ∀ c r, s = c :: r → isWs c = false) : trimStart s = s := by
  cases s with
  | nil => rfl
  | cons c r => simp [trimStart, h c r rfl]

theorem trimStart_idem (s : Str) : trimStart (trimStart s) = trimStart s :=
  trimStart_eq_self fun _ _ h => trimStart_head h

theorem trimStart_ws_append {w : Str} (hw : AllWs w) (s : Str) : trimStart (w ++ s) = trimStart s := by
  induction w with
  | nil => rfl
  | cons c w ih =>
    have hc : isWs c = true := hw c (by simp)
    have : trimStart (c :: w ++ s) = trimStart (w ++ s) := by
      show List.dropWhile isWs (c :: (w ++ s)) = _
      rw [List.dropWhile_cons, if_pos hc]; rfl
    rw [this]
    exact ih fun d hd => hw d (by simp [hd])

theorem trimStart_nil_iff {s : Str} : trimStart s = [] ↔ AllWs s := by
  constructor
  · intro h
    obtain ⟨w, hw, e⟩ := trimStart_spec s
    rw [h, List.append_nil] at e
    exact e ▸ hw
  · intro h
    have := trimStart_ws_append h []
    simpa [trimStart] using this

theorem trimStart_length_le (s : Str) : (trimStart s).length ≤ s.length := by
  unfold trimStart
  exact (List.dropWhile_suffix isWs).length_le

theorem trimStart_suffix (s : Str) : trimStart s <:+ s := List.dropWhile_suffix isWs

/-! ### splitOnce -/

theorem splitOnce_some {p : Str} : ∀ {s a b : Str}, splitOnce p s = some (a, b) → s = a ++ p ++ b
  | [], a, b, h => by
    unfold splitOnce at h
    split at h
    · rename_i hp
      cases p with
      | nil => cases h; rfl
      | cons c p => simp at hp
    · cases h
  | c :: s, a, b, h => by
    unfold splitOnce at h
    split at h
    · rename_i hp
      cases h
      obtain ⟨r, hr⟩ := isPrefix_iff.1 hp
      rw [hr]; simp
    · cases hs : splitOnce p s with
      | none => rw [hs] at h; cases h
      | some ab =>
        obtain ⟨a', b'⟩ := ab
        rw [hs] at h
        cases h
        rw [splitOnce_some hs]
        simp

theorem splitOnce_none {p : Str} (hp : p ≠ []) : ∀ {s : Str}, splitOnce p s = none ↔ ¬ p <:+: s
  | [] => by
    unfold splitOnce
    cases p with
    | nil => exact absurd rfl hp
    | cons c p => simp
  | c :: s => by
    unfold splitOnce
    split
    · rename_i h
      simp
      exact (List.isPrefixOf_iff_prefix.1 h).isInfix
    · rename_i h
      simp only [Option.map_eq_none_iff]
      rw [splitOnce_none hp, List.infix_cons_iff]
      rw [List.isPrefixOf_iff_prefix] at h
      simp [h]

/-- The first occurrence: before it the pattern does not start anywhere. -/
theorem splitOnce_first {p : Str} : ∀ {s a b : Str}, splitOnce p s = some (a, b) →
    ∀ u v, s = u ++ p ++ v → a.length ≤ u.length
  | [], a, b, h, u, v, e => by
    have := splitOnce_some h
    cases a with
    | nil => simp
    | cons => simp at this
  | c :: s, a, b, h, u, v, e => by
    unfold splitOnce at h
    split at h
    · cases h; simp
    · rename_i hp
      cases hs : splitOnce p s with
      | none => rw [hs] at h; cases h
      | some ab =>
        obtain ⟨a', b'⟩ := ab
        rw [hs] at h
        cases h
        cases u with
        | nil => exact absurd (isPrefix_iff.2 ⟨v, by simpa using e⟩) hp
        | cons d u =>
          simp only [List.cons_append, List.cons.injEq] at e
          have := splitOnce_first hs u v (by simpa using e.2)
          simp; exact this

theorem splitOnce_isSome {p : Str} {u v : Str} : ∃ a b, splitOnce p (u ++ p ++ v) = some (a, b) := by
  cases h : splitOnce p (u ++ p ++ v) with
  | some ab => exact ⟨ab.1, ab.2, rfl⟩
  | none =>
    cases p with
    | nil => cases u <;> cases v <;> simp [splitOnce] at h
    | cons c p =>
      rw [splitOnce_none (by simp)] at h
      exact absurd ⟨u, v, rfl⟩ h

/-- For a single character the text before it does not contain it. -/
theorem splitOnce_char {c : Char} {s a b : Str} (h : splitOnce [c] s = some (a, b)) :
    s = a ++ c :: b ∧ c ∉ a := by
  refine ⟨by simpa using splitOnce_some h, ?_⟩
  intro hc
  obtain ⟨u, v, rfl⟩ := List.append_of_mem hc
  have h2 := splitOnce_first h u (v ++ c :: b) (by rw [splitOnce_some h]; simp)
  simp at h2
  omega

theorem splitOnce_char_eq {c : Char} {a b : Str} (h : c ∉ a) : splitOnce [c] (a ++ c :: b) = some (a, b) := by
  induction a with
  | nil => simp [splitOnce]
  | cons d a ih =>
    have hd : ¬ c = d := fun e => h (by simp [e])
    have ha : c ∉ a := fun e => h (by simp [e])
    simp [splitOnce, hd, ih ha]

/-! ### splitBytes -/

theorem splitBytes_spec : ∀ {s : Str} {n : Nat} {a b : Str}, splitBytes s n = some (a, b) → s = a ++ b ∧ blen a = n
  | s, 0, a, b, h => by cases s <;> (unfold splitBytes at h; cases h; simp)
  | [], n + 1, a, b, h => by simp [splitBytes] at h
  | c :: s, n + 1, a, b, h => by
    unfold splitBytes at h
    split at h
    · rename_i hc
      cases hs : splitBytes s (n + 1 - c.utf8Size) with
      | none => rw [hs] at h; cases h
      | some ab =>
        obtain ⟨a', b'⟩ := ab
        rw [hs] at h
        cases h
        obtain ⟨h1, h2⟩ := splitBytes_spec hs
        refine ⟨by rw [h1]; simp, ?_⟩
        simp [h2]; omega
    · cases h

theorem splitBytes_append (a b : Str) : splitBytes (a ++ b) (blen a) = some (a, b) := by
  induction a with
  | nil => cases b <;> simp [splitBytes]
  | cons c a ih =>
    have hc := utf8Size_pos c
    have : blen (c :: a) = (c.utf8Size + blen a - 1) + 1 := by simp; omega
    rw [this]
    show splitBytes (c :: (a ++ b)) _ = _
    unfold splitBytes
    rw [if_pos (by omega)]
    have e : c.utf8Size + blen a - 1 + 1 - c.utf8Size = blen a := by omega
    rw [e, ih]; rfl

theorem splitBytes_eq_some {s : Str} {n : Nat} {a b : Str} :
    splitBytes s n = some (a, b) ↔ s = a ++ b ∧ blen a = n := by
  constructor
  · exact splitBytes_spec
  · rintro ⟨rfl, rfl⟩; exact splitBytes_append a b

end PL
