import Verif.Spec.Number
import Verif.Props.Def
set_option autoImplicit false
/-!
# Integer constants (C51)
-/
namespace PL.Props
open PL PL.Lex Spec PL.Macros

theorem valueIn_append (b : Nat) (s t : Str) : valueIn b (s ++ t) = valueIn b s + b ^ s.length * valueIn b t := by
  induction s with
  | nil => simp [valueIn]
  | cons c s ih =>
    simp only [List.cons_append, valueIn, List.length_cons, ih, Nat.mul_add, Nat.pow_succ, Nat.mul_assoc, Nat.add_assoc]
    rw [Nat.mul_left_comm b]

theorem usizeDigits_iff (cf : Cfg) (b : Nat) (val : Char → Nat) (ds : Str) (hv : ∀ c ∈ ds, val c = digitOf c) (hb : 0 < b) (n m : Nat)
    (hn : n < 2 ^ 64) : usizeDigits cf b val n ds = .ok m ↔
    (n * b ^ ds.length + valueIn b ds.reverse < 2 ^ 64 ∨ cf.overflowChecks = false) ∧
      m = (n * b ^ ds.length + valueIn b ds.reverse) % 2 ^ 64 := by
  induction ds generalizing n with
  | nil =>
    simp only [usizeDigits, List.length_nil, Nat.pow_zero, Nat.mul_one, List.reverse_nil, valueIn, Nat.add_zero, Nat.mod_eq_of_lt hn]
    constructor
    · intro h; cases h; exact ⟨.inl hn, rfl⟩
    · rintro ⟨_, rfl⟩; rfl
  | cons c ds ih =>
    have hc : val c = digitOf c := hv c (List.mem_cons_self)
    have hd : ∀ c ∈ ds, val c = digitOf c := fun x hx => hv x (List.mem_cons_of_mem _ hx)
    have e : n * b ^ (c :: ds).length + valueIn b (c :: ds).reverse =
        (n * b + digitOf c) * b ^ ds.length + valueIn b ds.reverse := by
      rw [List.reverse_cons, valueIn_append]
      simp only [valueIn, List.length_reverse, List.length_cons, Nat.pow_succ, Nat.add_mul, Nat.mul_zero, Nat.add_zero]
      rw [Nat.mul_comm (b ^ ds.length) (digitOf c), Nat.mul_assoc, Nat.mul_comm (b ^ ds.length) b]
      omega
    have hpos : 0 < b ^ ds.length := Nat.pow_pos hb
    unfold usizeDigits
    dsimp only
    rw [hc, e]
    generalize n * b + digitOf c = q
    split
    · rename_i hq
      exact ih hd q hq
    · rename_i hq
      have big : ¬ q * b ^ ds.length + valueIn b ds.reverse < 2 ^ 64 := by
        have : q * 1 ≤ q * b ^ ds.length := Nat.mul_le_mul_left _ hpos
        omega
      split
      · rename_i ho
        simp only [big, ho, false_or]
        simp
      · rename_i ho
        rw [ih hd _ (Nat.mod_lt _ (by decide))]
        have ho' : cf.overflowChecks = false := by simpa using ho
        have : (q % 2 ^ 64 * b ^ ds.length + valueIn b ds.reverse) % 2 ^ 64 = (q * b ^ ds.length + valueIn b ds.reverse) % 2 ^ 64 := by
          rw [Nat.add_mod, Nat.mul_mod, Nat.mod_mod, ← Nat.mul_mod, ← Nat.add_mod]
        rw [this]
        simp only [ho', or_true, true_and]

theorem takeWhile_append_of {p : Char → Bool} {ds u : Str} (h : ∀ c ∈ ds, p c = true) (hu : ∀ c v, u = c :: v → p c = false) :
    (ds ++ u).takeWhile p = ds ∧ (ds ++ u).dropWhile p = u := by
  induction ds with
  | nil =>
    cases u with
    | nil => exact ⟨rfl, rfl⟩
    | cons c v => simp [hu c v rfl]
  | cons c ds ih =>
    have := ih fun x hx => h x (List.mem_cons_of_mem _ hx)
    simp only [List.cons_append, List.takeWhile, List.dropWhile, h c List.mem_cons_self, this]
    exact ⟨trivial, trivial⟩

theorem optSpace_iff {u r : Str} : (∃ b, oneOptionalSpace u = .ok b r) ↔
    OptSpace u r ∧ ∀ c v, u = c :: v → isWs c = true → c.toNat < 128 := by
  have hsz : ∀ c : Char, c.utf8Size = 1 ↔ c.toNat < 128 := by
    intro c
    rw [Char.utf8Size_eq_one_iff]
    exact ⟨fun h => by have : c.val.toNat ≤ 127 := h; show c.val.toNat < 128; omega,
      fun h => by show c.val.toNat ≤ 127; have : c.val.toNat < 128 := h; omega⟩
  unfold oneOptionalSpace
  cases u with
  | nil =>
    constructor
    · rintro ⟨b, h⟩; cases h; exact ⟨.none (by intro c v e; cases e), by intro c v e; cases e⟩
    · rintro ⟨h, -⟩; cases h; exact ⟨_, rfl⟩
  | cons c v =>
    dsimp only
    constructor
    · rintro ⟨b, h⟩
      split at h
      · rename_i hw
        split at h
        · rename_i h1
          cases h
          exact ⟨.one hw, by rintro _ _ ⟨⟩ -; exact (hsz _).1 h1⟩
        · cases h
      · rename_i hw
        cases h
        have hw' : isWs c = false := by simpa using hw
        exact ⟨.none (by rintro _ _ ⟨⟩; exact hw'), by rintro _ _ ⟨⟩ h2; rw [hw'] at h2; cases h2⟩
    · rintro ⟨h, h2⟩
      cases h with
      | none h => rw [if_neg (by rw [h _ _ rfl]; decide)]; exact ⟨_, rfl⟩
      | one h => rw [if_pos h, if_pos ((hsz c).2 (h2 _ _ rfl h))]; exact ⟨_, rfl⟩

theorem radix_iff {cf : Cfg} {b : Nat} {p : Char → Bool} {P : Char → Prop} {val : Char → Nat} (hp : ∀ c, p c = true ↔ P c)
    (hv : ∀ c, p c = true → val c = digitOf c) (hb : 0 < b) {s r : Str} {n : Nat} : radix cf b p val s = .ok n r ↔
    ∃ ds, Digits P s ds r ∧ (valueIn b ds.reverse < 2 ^ 64 ∨ cf.overflowChecks = false) ∧ n = valueIn b ds.reverse % 2 ^ 64 := by
  have htw : ∀ ds u, s = ds ++ u → (∀ c ∈ ds, P c) → (∀ c v, u = c :: v → ¬ P c) → s.takeWhile p = ds ∧ s.dropWhile p = u := by
    rintro ds u rfl h1 h2
    exact takeWhile_append_of (fun c hc => (hp c).2 (h1 c hc)) fun c v e => by
      have := h2 c v e
      rw [← hp] at this
      simpa using this
  have hall : ∀ c ∈ s.takeWhile p, p c = true := fun c hc => by
    have := List.all_takeWhile (p := p) (l := s)
    exact List.all_eq_true.1 this c hc
  have hdr : ∀ c v, s.dropWhile p = c :: v → ¬ P c := by
    intro c v e hc
    have := List.head?_dropWhile_not p s
    rw [e] at this
    simp [(hp c).2 hc] at this
  have hu := usizeDigits_iff cf b val (s.takeWhile p) (fun c hc => hv c (hall c hc)) hb 0
  unfold radix
  constructor
  · intro h
    split at h
    · cases h
    · rename_i m hm
      rw [hu _ (by decide)] at hm
      rw [Nat.zero_mul, Nat.zero_add] at hm
      cases ho : oneOptionalSpace (s.dropWhile p) with
      | ok a r' =>
        simp only [bind, M.bind, ho] at h
        cases h
        obtain ⟨h3, h4⟩ := optSpace_iff.1 ⟨a, ho⟩
        exact ⟨s.takeWhile p, ⟨s.dropWhile p, List.takeWhile_append_dropWhile.symm, fun c hc => (hp c).1 (hall c hc), hdr, h3, h4⟩, hm.1, hm.2⟩
      | err e r' => simp only [bind, M.bind, ho] at h; cases h
      | panic e => simp only [bind, M.bind, ho] at h; cases h
  · rintro ⟨ds, ⟨u, e, h1, h2, h3, h4⟩, h5, rfl⟩
    obtain ⟨e1, e2⟩ := htw ds u e h1 h2
    obtain ⟨a, ho⟩ := optSpace_iff.2 ⟨h3, h4⟩
    rw [e1] at hu
    rw [e1, e2, (hu _ (by decide)).2 ⟨by rw [Nat.zero_mul, Nat.zero_add]; exact h5, rfl⟩, Nat.zero_mul, Nat.zero_add]
    dsimp only
    simp only [bind, M.bind, ho]
    rfl

theorem isDigit_iff (c : Char) : isDigit c = true ↔ DecDigit c := by
  simp [isDigit, DecDigit]

theorem digitVal_eq (c : Char) (h : isDigit c = true) : digitVal c = digitOf c := by
  have := (isDigit_iff c).1 h
  unfold digitVal digitOf
  rw [if_pos this.2]

theorem isHex_iff (c : Char) : isHexUpper c = true ↔ UpperHex c := by
  simp [isHexUpper, UpperHex, isDigit_iff]

theorem hexVal_eq (c : Char) (h : isHexUpper c = true) : hexVal c = digitOf c := by
  have h := (isHex_iff c).1 h
  unfold hexVal digitOf
  rcases h with h | h
  · rw [if_pos ((isDigit_iff c).2 h), if_pos h.2]
  · rw [if_neg (by rw [isDigit_iff]; rintro ⟨_, h2⟩; omega), if_neg (by omega)]

/-- An integer constant is read exactly as written, whatever its notation: its value, if a `usize` can hold it, and the text after it. A greater
value panics, or wraps when overflow is not checked. -/
theorem C51_integer (cf : Cfg) (s r : Str) (n : Nat) : unsignedInteger cf s = .ok n r ↔
    ∃ m, IntConst s m r ∧ (m < 2 ^ 64 ∨ cf.overflowChecks = false) ∧ n = m % 2 ^ 64 := by
  have small : ∀ c : Char, c.toNat < 128 → c.toNat = c.toNat % 2 ^ 64 := fun c h => (Nat.mod_eq_of_lt (by omega)).symm
  constructor
  · intro h
    unfold unsignedInteger at h
    split at h
    · cases h
    rename_i c t
    split at h
    · rename_i hd
      obtain ⟨ds, h1, h2, h3⟩ := (radix_iff isDigit_iff digitVal_eq (by decide)).1 h
      refine ⟨_, .dec ?_ h1, h2, h3⟩
      rintro rfl
      obtain ⟨u, e, -, h4, -⟩ := h1
      cases e
      exact h4 c t rfl ((isDigit_iff c).1 hd)
    split at h
    · cases h
    split at h
    · rename_i hc
      subst hc
      unfold charCode at h
      split at h
      · cases h
      · rename_i t
        split at h
        · cases h
        · rename_i c t
          split at h
          · rename_i h1
            cases h
            exact ⟨_, .escaped h1, .inl (by omega), small _ h1⟩
          · cases h
      · rename_i c t hne
        split at h
        · rename_i h1
          cases h
          exact ⟨_, .char (fun e => hne e) h1, .inl (by omega), small _ h1⟩
        · cases h
    split at h
    · rename_i hc
      subst hc
      obtain ⟨ds, h1, h2, h3⟩ := (radix_iff isDigit_iff digitVal_eq (by decide)).1 h
      exact ⟨_, .oct h1, h2, h3⟩
    split at h
    · rename_i hc
      subst hc
      obtain ⟨ds, h1, h2, h3⟩ := (radix_iff isHex_iff hexVal_eq (by decide)).1 h
      exact ⟨_, .hex h1, h2, h3⟩
    · cases h
  · rintro ⟨m, h, h2, rfl⟩
    cases h with
    | @dec _ ds _ h0 h1 =>
      have : decimal cf s = .ok _ r := (radix_iff isDigit_iff digitVal_eq (by decide)).2 ⟨ds, h1, h2, rfl⟩
      obtain ⟨u, e, h3, -⟩ := h1
      cases ds with
      | nil => exact absurd rfl h0
      | cons c ds =>
        subst e
        show (if isDigit c = true then decimal cf _ else _) = _
        rw [if_pos ((isDigit_iff c).2 (h3 c List.mem_cons_self))]
        exact this
    | @oct _ ds _ h1 => exact (radix_iff isDigit_iff digitVal_eq (by decide)).2 ⟨ds, h1, h2, rfl⟩
    | @hex _ ds _ h1 => exact (radix_iff isHex_iff hexVal_eq (by decide)).2 ⟨ds, h1, h2, rfl⟩
    | @char c _ h0 h1 =>
      rw [← small _ h1]
      show charCode (c :: r) = _
      unfold charCode
      split
      · cases ‹c :: r = []›
      · rename_i e; cases e; exact absurd rfl h0
      · rename_i e; cases e; rw [if_pos h1]
    | @escaped c _ h1 =>
      rw [← small _ h1]
      show (if c.toNat < 128 then _ else _) = _
      rw [if_pos h1]

/-- A constant denotes one number, and ends at one place. -/
theorem C51_unique (s r r' : Str) (n n' : Nat) (h : IntConst s n r) (h' : IntConst s n' r') (hn : n < 2 ^ 64) (hn' : n' < 2 ^ 64) :
    n = n' ∧ r = r' := by
  have a := (C51_integer ⟨true, fun _ => 0⟩ s r n).2 ⟨n, h, .inl hn, (Nat.mod_eq_of_lt hn).symm⟩
  have b := (C51_integer ⟨true, fun _ => 0⟩ s r' n').2 ⟨n', h', .inl hn', (Nat.mod_eq_of_lt hn').symm⟩
  rw [a] at b
  cases b
  exact ⟨rfl, rfl⟩

theorem primOf_char : primOf c!"char" = .char := by decide +kernel

/-- `\char` emits the character whose code is the constant after it, up to 255, and consumes the constant. -/
theorem C51_char (cf : Cfg) (k : Nat) (s s' : HSt) : handleToken cf (k + 1) (.cs c!"char") s = .ok ⟨⟩ s' ↔
    ∃ m r, IntConst s.content.cs m r ∧ (m < 2 ^ 64 ∨ cf.overflowChecks = false) ∧ m % 2 ^ 64 ≤ 255 ∧
      s' = { s with content := { s.content with cs := r }, buf := s.buf ++ [.ev (.content (.ordinary (Char.ofNat (m % 2 ^ 64)) false))] } := by
  rw [show handleToken cf (k + 1) (.cs c!"char") = execPrim cf (handleToken cf k) (primOf c!"char") from rfl, primOf_char]
  simp only [execPrim, bind, M.bind, H.lex]
  constructor
  · intro h
    cases hl : unsignedInteger cf s.content.cs with
    | ok n r =>
      rw [hl] at h
      dsimp only at h
      obtain ⟨m, h1, h2, rfl⟩ := (C51_integer _ _ _ _).1 hl
      split at h
      · cases h
      · rename_i hb
        cases h
        exact ⟨m, r, h1, h2, by omega, rfl⟩
    | err e r => rw [hl] at h; cases h
    | panic e => rw [hl] at h; cases h
  · rintro ⟨m, r, h1, h2, h3, rfl⟩
    rw [(C51_integer _ _ _ _).2 ⟨m, h1, h2, rfl⟩]
    dsimp only
    rw [if_neg (by omega)]
    rfl

/-- Cases: the four notations of 65, and a constant that ends in the middle of letters. -/
example : IntConst c!"\"41 x" 65 c!"x" :=
  .hex (ds := c!"41") ⟨c!" x", rfl, by simp [UpperHex, DecDigit], by rintro c v ⟨⟩; simp [UpperHex, DecDigit], .one (by decide), by rintro c v ⟨⟩ _; decide⟩
example : (run ⟨true, fun k => 1000000 * k⟩ 30 (State.init c!"\\char65\\char'101\\char\"41\\char`A\\char`\\A")).1 =
    List.replicate 5 (.ok (ordinary 'A')) := by decide +kernel

end PL.Props
