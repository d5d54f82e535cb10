import Verif.Lemmas.Lex
import Verif.Spec.Define
set_option autoImplicit false
/-! # Brackets that are never closed -/
namespace PL.Lex
open PL.Spec

theorem starts_one {e c : Char} {s : Str} : startsWith [e] (c :: s) = (e == c) := by
  simp [startsWith, List.isPrefixOf]

theorem one_le_size (c : Char) : 1 ≤ c.utf8Size := Char.utf8Size_pos c

theorem not_lt_blen {c : Char} {s : Str} : ¬ blen (c :: s) < blen [']'] := by
  have := one_le_size c
  have h : (']' : Char).utf8Size = 1 := by decide
  simp [blen, h]
  omega

theorem loop_nil {n d : Nat} {acc : Str} : groupLoop ['['] [']'] (n + 1) false d acc [] = .eof := by
  rw [groupLoop, if_pos (by simp [startsWith, List.isPrefixOf]), if_pos (by decide)]

theorem loop_opener {n d : Nat} {acc s : Str} : groupLoop ['['] [']'] (n + 1) false d acc ('[' :: s) = groupLoop ['['] [']'] n false (d + 1) ('[' :: acc) s := by
  rw [groupLoop, if_pos (by simp [starts_one]), if_neg not_lt_blen, if_pos (by simp [starts_one])]
  rfl

theorem loop_closer {n d : Nat} {acc s : Str} : groupLoop ['['] [']'] (n + 1) false (d + 1) acc (']' :: s) = groupLoop ['['] [']'] n false d (']' :: acc) s := by
  rw [groupLoop, if_pos (by simp), if_neg not_lt_blen, if_neg (by simp [starts_one]), if_pos (by simp [starts_one]), if_neg (by simp)]
  rfl

theorem loop_escaped {n d : Nat} {acc s : Str} {c : Char} :
    groupLoop ['['] [']'] (n + 2) false d acc ('\\' :: c :: s) = groupLoop ['['] [']'] n false d (c :: '\\' :: acc) s := by
  rw [groupLoop]
  rw [if_pos (by simp [starts_one]), if_neg not_lt_blen, if_neg (by simp [starts_one]), if_neg (by simp [starts_one])]
  simp only [if_true, Bool.not_false]
  rw [groupLoop_escaped, if_neg not_lt_blen]

theorem loop_backslash {n d : Nat} {acc : Str} : groupLoop ['['] [']'] (n + 2) false d acc ['\\'] = .eof := by
  rw [groupLoop]
  rw [if_pos (by simp [starts_one]), if_neg not_lt_blen, if_neg (by simp [starts_one]), if_neg (by simp [starts_one])]
  simp only [if_true, Bool.not_false]
  exact groupLoop_escaped_nil (by simp)

theorem loop_comment {n d : Nat} {acc line s : Str} (hl : '\n' ∉ line) : groupLoop ['['] [']'] (n + 1) false d acc ('%' :: (line ++ '\n' :: s)) =
    groupLoop ['['] [']'] n false d ('\n' :: ('%' :: line).reverse ++ acc) s := by
  rw [groupLoop]
  rw [if_pos (by simp [starts_one]), if_neg not_lt_blen, if_neg (by simp [starts_one]), if_neg (by simp [starts_one])]
  have : splitOnce ['\n'] ('%' :: (line ++ '\n' :: s)) = some ('%' :: line, s) := by
    have := splitOnce_char_eq (c := '\n') (a := '%' :: line) (b := s) (by simp [hl])
    simpa using this
  simp [this]

theorem loop_unfinished {n d : Nat} {acc line : Str} (hl : '\n' ∉ line) : groupLoop ['['] [']'] (n + 1) false d acc ('%' :: line) = .comment := by
  rw [groupLoop]
  rw [if_pos (by simp [starts_one]), if_neg not_lt_blen, if_neg (by simp [starts_one]), if_neg (by simp [starts_one])]
  have : splitOnce ['\n'] ('%' :: line) = none := by
    rw [splitOnce_none (by simp)]
    intro h
    have := h.subset (List.mem_cons_self)
    simp at this
    exact hl this
  simp [this]

theorem loop_char {n d : Nat} {acc s : Str} {c : Char} (h1 : c ≠ '[') (h2 : c ≠ ']') (h3 : c ≠ '\\') (h4 : c ≠ '%') :
    groupLoop ['['] [']'] (n + 1) false d acc (c :: s) = groupLoop ['['] [']'] n false d (c :: acc) s := by
  rw [groupLoop]
  rw [if_pos (by simp [starts_one, Ne.symm h2]), if_neg not_lt_blen, if_neg (by simp [starts_one, Ne.symm h1]), if_neg (by simp [starts_one, Ne.symm h2])]
  simp [h3, h4]

theorem loop_dangles {d : Nat} {u : Bool} {s : Str} (h : Dangles d u s) : ∀ {n : Nat} {acc : Str}, s.length < n →
    groupLoop ['['] [']'] n false d acc s = if u then .comment else .eof := by
  induction h with
  | nil =>
    intro n acc hn
    obtain ⟨n, rfl⟩ : ∃ m, n = m + 1 := ⟨n - 1, by omega⟩
    exact loop_nil
  | backslash =>
    intro n acc hn
    simp at hn
    obtain ⟨n, rfl⟩ : ∃ m, n = m + 2 := ⟨n - 2, by omega⟩
    exact loop_backslash
  | opener _ ih =>
    intro n acc hn
    simp at hn
    obtain ⟨n, rfl⟩ : ∃ m, n = m + 1 := ⟨n - 1, by omega⟩
    rw [loop_opener, ih (by omega)]
  | closer _ ih =>
    intro n acc hn
    simp at hn
    obtain ⟨n, rfl⟩ : ∃ m, n = m + 1 := ⟨n - 1, by omega⟩
    rw [loop_closer, ih (by omega)]
  | comment hl _ ih =>
    intro n acc hn
    simp at hn
    obtain ⟨n, rfl⟩ : ∃ m, n = m + 1 := ⟨n - 1, by omega⟩
    rw [loop_comment hl, ih (by omega)]
  | unfinished hl =>
    intro n acc hn
    obtain ⟨n, rfl⟩ : ∃ m, n = m + 1 := ⟨n - 1, by omega⟩
    rw [loop_unfinished hl]
    rfl
  | escaped _ ih =>
    intro n acc hn
    simp at hn
    obtain ⟨n, rfl⟩ : ∃ m, n = m + 2 := ⟨n - 2, by omega⟩
    rw [loop_escaped, ih (by omega)]
  | char h1 h2 h3 h4 _ ih =>
    intro n acc hn
    simp at hn
    obtain ⟨n, rfl⟩ : ∃ m, n = m + 1 := ⟨n - 1, by omega⟩
    rw [loop_char h1 h2 h3 h4, ih (by omega)]

/-- A bracket is closed, or it is not. -/
theorem split_or_dangles : ∀ (n : Nat) (s : Str) (d : Nat), s.length ≤ n → (∃ g r, Split ['['] [']'] d s g r) ∨ ∃ u, Dangles d u s := by
  intro n
  induction n using Nat.strongRecOn with
  | ind n ih =>
    intro s d hn
    have pre : ∀ {c e : Char} {t : Str}, c ≠ e → ¬ [e] <+: c :: t := by
      intro c e t hc h
      rw [List.cons_prefix_cons] at h
      exact hc h.1.symm
    cases s with
    | nil => exact .inr ⟨_, .nil⟩
    | cons c t =>
      simp at hn
      by_cases h1 : c = '['
      · subst h1
        rcases ih t.length (by omega) t (d + 1) (Nat.le_refl _) with ⟨g, r, h⟩ | ⟨u, h⟩
        · exact .inl ⟨_, _, .opener (op := ['[']) (fun _ => pre (by decide)) h⟩
        · exact .inr ⟨u, .opener h⟩
      by_cases h2 : c = ']'
      · subst h2
        cases d with
        | zero => exact .inl ⟨_, _, .done (cl := [']'])⟩
        | succ d =>
          rcases ih t.length (by omega) t d (Nat.le_refl _) with ⟨g, r, h⟩ | ⟨u, h⟩
          · exact .inl ⟨_, _, .closer (cl := [']']) (pre (by decide)) h⟩
          · exact .inr ⟨u, .closer h⟩
      by_cases h3 : c = '\\'
      · subst h3
        cases t with
        | nil => exact .inr ⟨_, .backslash⟩
        | cons e t =>
          simp at hn
          rcases ih t.length (by omega) t d (Nat.le_refl _) with ⟨g, r, h⟩ | ⟨u, h⟩
          · exact .inl ⟨_, _, .escaped (pre h1) (pre h2) h⟩
          · exact .inr ⟨u, .escaped h⟩
      by_cases h4 : c = '%'
      · subst h4
        cases hs : splitOnce ['\n'] t with
        | none =>
          rw [splitOnce_none (by simp)] at hs
          exact .inr ⟨_, .unfinished fun hm => hs (by
            obtain ⟨a, b, rfl⟩ := List.append_of_mem hm
            exact ⟨a, b, by simp⟩)⟩
        | some x =>
          obtain ⟨line, s⟩ := x
          obtain ⟨rfl, hl⟩ := splitOnce_char hs
          simp at hn
          rcases ih s.length (by omega) s d (Nat.le_refl _) with ⟨g, r, h⟩ | ⟨u, h⟩
          · have h1 : ¬ ['['] <+: '%' :: (line ++ '\n' :: s) := pre h1
            exact .inl ⟨_, _, by simpa using Split.comment h1 (pre h2) hl h⟩
          · exact .inr ⟨u, by simpa using Dangles.comment hl h⟩
      · rcases ih t.length (by omega) t d (Nat.le_refl _) with ⟨g, r, h⟩ | ⟨u, h⟩
        · exact .inl ⟨_, _, .char (pre h1) (pre h2) h3 h4 h⟩
        · exact .inr ⟨u, .char h1 h2 h3 h4 h⟩

theorem groupContent_dangles {u : Bool} {s : Str} (h : Dangles 0 u s) :
    groupContent .optionalArgument s = .err (.unbalancedGroup (some .optionalArgument)) (if u then s else []) := by
  unfold groupContent
  rw [show GroupingKind.openingStr .optionalArgument = ['['] from rfl, show GroupingKind.closingStr .optionalArgument = [']'] from rfl,
    loop_dangles h (by omega)]
  cases u <;> rfl

/-- There is no optional argument. -/
theorem noOptional_iff {s r : Str} : optionalArgument s = .ok none r ↔ NoOptional s r := by
  have br : ∀ {w t : Str}, Spaces w → stripPrefix ['['] (trimStart (w ++ '[' :: t)) = some t := by
    intro w t hw
    rw [trimStart_ws_append hw, trimStart_eq_self (by intro c r e; cases e; decide)]
    exact stripPrefix_some.2 rfl
  constructor
  · intro h
    unfold optionalArgument at h
    obtain ⟨w, hw, e⟩ := trimStart_spec s
    split at h
    · rename_i t ht
      rw [stripPrefix_some] at ht
      have hs : s = w ++ '[' :: t := by rw [e, ht]; rfl
      rcases split_or_dangles t.length t 0 (Nat.le_refl _) with ⟨g, r', hg⟩ | ⟨u, hu⟩
      · have hg : groupContent .optionalArgument t = .ok g r' := groupContent_ok.2 hg
        rw [hg] at h
        cases h
      · rw [groupContent_dangles hu] at h
        cases h
        subst hs
        cases u
        · exact .lost hw hu
        · exact .dropped hw hu
    · rename_i hs
      rw [stripPrefix_none] at hs
      cases h
      refine .absent ?_
      rintro w' t' hw' rfl
      rw [trimStart_ws_append hw', trimStart_eq_self (by intro c r e; cases e; decide)] at hs
      exact hs t' rfl
  · intro h
    cases h with
    | absent h =>
      unfold optionalArgument
      obtain ⟨w, hw, e⟩ := trimStart_spec s
      split
      · rename_i t ht
        rw [stripPrefix_some] at ht
        exact absurd (by rw [e, ht]; rfl) (h w t hw)
      · rfl
    | lost hw h =>
      unfold optionalArgument
      rw [br hw]
      dsimp only
      rw [groupContent_dangles h]
      rfl
    | dropped hw h =>
      unfold optionalArgument
      rw [br hw]
      dsimp only
      rw [groupContent_dangles h]
      rfl

theorem noOptional_length {s r : Str} (h : NoOptional s r) : r.length ≤ s.length := by
  cases h <;> simp <;> omega

/-- What is left is a part of the text. -/
theorem noOptional_suffix {s r : Str} (h : NoOptional s r) : r <:+ s := by
  cases h with
  | absent => exact List.suffix_refl _
  | lost => exact List.nil_suffix
  | @dropped w t _ _ => exact ⟨w ++ ['['], by simp⟩

end PL.Lex
