import Verif.Spec.Effect
import Verif.Lemmas.Formula.Inverse
import Verif.Lemmas.Formula.Absent
set_option autoImplicit false
/-!
# Readers of arguments, exactly

For every kind of argument: the reader succeeds on the texts that start with it, fails on the texts that lack it, and every text on which it does not panic is
one of the two.
-/
namespace PL.Formula
open PL PL.Lex PL.H Spec PL.Props

variable {cf : Cfg} {s r : Str} {k : ErrorKind}

/-- `h'` goes on with `r`, and otherwise differs from `h` in nothing that the text could have decided. -/
structure Like (h h' : HSt) (r : Str) : Prop where
  cs : h'.content.cs = r
  mods : h'.allowMods = h.allowMods
  skip : h'.skip = h.skip
  macros : h'.macros = h.macros

theorem Like.past {h : HSt} {r : Str} : Like h (past h r) r := ⟨rfl, rfl, rfl, rfl⟩
theorem Like.trans {h h1 h2 : HSt} {r t : Str} (a : Like h h1 t) (b : Like h1 h2 r) : Like h h2 r :=
  ⟨b.cs, b.mods.trans a.mods, b.skip.trans a.skip, b.macros.trans a.macros⟩

/-- `m` reads what is needed for `n`. -/
structure Reader {α : Type} (cf : Cfg) (m : H α) (n : Need) : Prop where
  ok : ∀ h r, Takes n h.content.cs r → ∃ a h', m h = .ok a h' ∧ Like h h' r
  err : ∀ h k, Lacks n h.content.cs k → Errs m h k
  total : cf.overflowChecks = true → ∀ h, (∀ p, m h ≠ .panic p) → (∃ r, Takes n h.content.cs r) ∨ ∃ k, Lacks n h.content.cs k

/-! ### What is there or not -/

theorem tok_total (s : Str) : (∃ x t, NextTok s x t) ∨ ∃ k, NoTok s k := by
  cases h : token s with
  | ok t r =>
    obtain ⟨x, -, hx⟩ := token_inv h
    exact .inl ⟨x, r, hx⟩
  | err e r =>
    rcases C13_fail _ _ _ h with ⟨-, h⟩ | ⟨-, b, hb, rfl⟩
    · exact .inr ⟨_, .nothing h⟩
    · exact .inr ⟨_, .backslash hb⟩
  | panic p => exact absurd h (C13_no_panic s p)

theorem noTok_err (h : NoTok s k) : ∃ r, token s = .err k r := by
  cases h with
  | nothing hb => exact ⟨_, token_blankEnd hb⟩
  | backslash hb => exact ⟨_, backslash_token hb⟩

theorem argument_total (s : Str) : (∃ g r, Braced s g r) ∨ (∃ x t, TokArg s x t) ∨ ∃ k, NoArgument s k := by
  by_cases hb : ∃ w t, Spaces w ∧ s = w ++ '{' :: t
  · obtain ⟨w, t, hw, rfl⟩ := hb
    by_cases hs : ∃ g r, Split ['{'] ['}'] 0 t g r
    · obtain ⟨g, r, hs⟩ := hs
      exact .inl ⟨g, r, w, t, hw, rfl, hs⟩
    · exact .inr (.inr ⟨_, .unclosed hw hs⟩)
  · have hn : ∀ w u, Spaces w → s ≠ w ++ '{' :: u := fun w u hw e => hb ⟨w, u, hw, e⟩
    rcases tok_total s with ⟨x, t, hx⟩ | ⟨k, hk⟩
    · exact .inr (.inl ⟨x, t, hx, hn⟩)
    · cases hk with
      | nothing h => exact .inr (.inr ⟨_, .nothing h⟩)
      | backslash h => exact .inr (.inr ⟨_, .backslash h⟩)

theorem group_total (e : ErrorKind) (s : Str) : (∃ g r, Braced s g r) ∨ ∃ k, NoGroup e s k := by
  rcases argument_total s with h | ⟨x, t, h⟩ | ⟨k, h⟩
  · exact .inl h
  · exact .inr ⟨_, .token h⟩
  · exact .inr ⟨_, .nothing h⟩

theorem braces_total (s : Str) : (∃ g r, Braced s g r) ∨ ∃ k, NoBraces s k := by
  by_cases hb : ∃ w t, Spaces w ∧ s = w ++ '{' :: t
  · obtain ⟨w, t, hw, rfl⟩ := hb
    by_cases hs : ∃ g r, Split ['{'] ['}'] 0 t g r
    · obtain ⟨g, r, hs⟩ := hs
      exact .inl ⟨g, r, w, t, hw, rfl, hs⟩
    · exact .inr ⟨_, .unclosed hw hs⟩
  · exact .inr ⟨_, .other fun w u hw e => hb ⟨w, u, hw, e⟩⟩

theorem noBraces_err (h : NoBraces s k) : ∃ r, Lex.braceArgument s = .err k r := by
  unfold Lex.braceArgument
  cases h with
  | other h =>
    cases ht : stripPrefix c!"{" (trimStart s) with
    | none => exact ⟨_, rfl⟩
    | some u =>
      rw [stripPrefix_some] at ht
      obtain ⟨w, hw, e⟩ := trimStart_spec s
      exact absurd (e.trans (by rw [ht]; rfl)) (h w u hw)
  | @unclosed w t hw hu =>
    rw [trimStart_ws_append hw, trimStart_eq_self (by intro c r e; cases e; decide)]
    rw [show stripPrefix c!"{" ('{' :: t) = some t by rw [stripPrefix_some]; rfl]
    exact unclosed_group (K := .normal) hu

theorem optional_total (s : Str) : ∃ g r, MaybeOptional s g r := by
  cases h : Lex.optionalArgument s with
  | ok g r =>
    cases g with
    | none => exact ⟨_, r, .absent (noOptional_iff.1 h)⟩
    | some g => exact ⟨_, r, .given (bracketed_iff.1 h)⟩
  | err e r =>
    exfalso
    unfold Lex.optionalArgument at h
    split at h
    · split at h <;> cases h
    · cases h
  | panic p =>
    exfalso
    unfold Lex.optionalArgument at h
    split at h
    · split at h
      · cases h
      · cases h
      · rename_i h'
        exact C12_no_panic _ _ _ h'
    · cases h

theorem maybeOptional_of {h : HSt} {g : Option Str} (hg : MaybeOptional h.content.cs g r) : ∃ x, H.optionalArgument h = .ok x (past h r) ∧ x.map (·.cs) = g := by
  cases hg with
  | given hb => exact ⟨_, optionalArgument_some hb, rfl⟩
  | absent hb => exact ⟨_, optionalArgument_none hb, rfl⟩

theorem delim_total (s : Str) : (∃ d ty r, Delim s d ty r) ∨ ∃ k, NoDelim s k := by
  rcases tok_total s with ⟨x, t, hx⟩ | ⟨k, hk⟩
  · cases x with
    | chr c =>
      cases hd : charDelimiterMap c with
      | none => exact .inr ⟨_, .chr hx hd⟩
      | some d => exact .inl ⟨_, _, _, .chr hx hd⟩
    | cs n =>
      cases hd : controlSequenceDelimiterMap n with
      | none => exact .inr ⟨_, .cs hx hd⟩
      | some d => exact .inl ⟨_, _, _, .cs hx hd⟩
  · cases hk with
    | nothing h => exact .inr ⟨_, .nothing h⟩
    | backslash h => exact .inr ⟨_, .backslash h⟩

theorem np_bind {σ α β : Type} {m : M σ α} {f : α → M σ β} {s : σ} (h : ∀ p, (m >>= f) s ≠ .panic p) : ∀ p, m s ≠ .panic p := by
  intro p e
  exact h p (by rw [M.run_bind, e])

theorem np_after {σ α β : Type} {m : M σ α} {f : α → M σ β} {s s' : σ} {a : α} (e : m s = .ok a s') (h : ∀ p, (m >>= f) s ≠ .panic p) : ∀ p, f a s' ≠ .panic p := by
  intro p e'
  exact h p (by rw [M.bind_ok e]; exact e')

theorem np_lex {α : Type} {m : L α} {h : HSt} (hp : ∀ p, H.lex m h ≠ .panic p) : ∀ p, m h.content.cs ≠ .panic p := by
  intro p e
  exact hp p (by unfold H.lex; rw [e])

theorem np_onStr {α : Type} {m : L α} {g : Str} {h : HSt} (hp : ∀ p, H.onStr m g h ≠ .panic p) : ∀ p, m g ≠ .panic p := by
  intro p e
  exact hp p (by unfold H.onStr; rw [e])

/-! ### Lengths -/

theorem length_total (hp : ∀ p, dimension s ≠ .panic p) : (∃ d r, Length s d r) ∨ NoLength s := by
  cases h : dimension s with
  | ok d r => exact .inl ⟨d, r, dimension_inv h⟩
  | panic p => exact absurd h (hp p)
  | err e r =>
    refine .inr ?_
    intro neg ip fp u t ht
    obtain ⟨w, hw, hf⟩ := floatingPoint_of ht
    unfold dimension at h
    rw [M.bind_ok hf, M.run_bind, dimensionUnit_of u hw] at h
    have : ∀ e r, oneOptionalSpace t ≠ .err e r := by
      intro e r
      unfold oneOptionalSpace
      split
      · split
        · split <;> simp
        · simp
      · simp
    cases ho : oneOptionalSpace t with
    | ok a b => rw [ho] at h; cases h
    | err e r => exact this _ _ ho
    | panic p => rw [ho] at h; cases h

theorem tail_total {kw : Str} (hk : ∀ c u, kw = c :: u → isWs c = false) (hk0 : kw ≠ []) (hp : ∀ p, glueTail kw s ≠ .panic p) :
    (∃ d r, Stretch kw s d r) ∨ ∃ w u, Spaces w ∧ s = w ++ kw ++ u ∧ NoLength u := by
  by_cases h : ∃ w u, Spaces w ∧ s = w ++ kw ++ u
  · obtain ⟨w, u, hw, rfl⟩ := h
    have e : stripPrefix kw (trimStart (w ++ kw ++ u)) = some u := by
      rw [List.append_assoc, trimStart_ws_append hw, trimStart_eq_self, stripPrefix_some]
      intro c v e
      cases kw with
      | nil => exact absurd rfl hk0
      | cons d y => cases e; exact hk _ _ rfl
    unfold glueTail at hp
    rw [M.get_bind, e] at hp
    dsimp only at hp
    rw [M.set_bind] at hp
    rcases length_total (np_bind hp) with ⟨d, r, h⟩ | h
    · exact .inl ⟨_, r, .some hw h⟩
    · exact .inr ⟨w, u, hw, rfl, h⟩
  · exact .inl ⟨none, s, .none fun w u hw e => h ⟨w, u, hw, e⟩⟩

theorem tail_err {kw w u : Str} (hk : ∀ c u, kw = c :: u → isWs c = false) (hk0 : kw ≠ []) (hw : Spaces w) (h : NoLength u) :
    ∃ r, glueTail kw (w ++ kw ++ u) = .err .dimensionUnit r := by
  have e : stripPrefix kw (trimStart (w ++ kw ++ u)) = some u := by
    rw [List.append_assoc, trimStart_ws_append hw, trimStart_eq_self, stripPrefix_some]
    intro c v e
    cases kw with
    | nil => exact absurd rfl hk0
    | cons d y => cases e; exact hk _ _ rfl
  obtain ⟨r, h⟩ := noLength_err h
  refine ⟨r, ?_⟩
  unfold glueTail
  rw [M.get_bind, e]
  dsimp only
  rw [M.set_bind, M.run_bind, h]

theorem plus_ws : ∀ c u, c!"plus" = c :: u → isWs c = false := by intro c u e; cases e; decide
theorem minus_ws : ∀ c u, c!"minus" = c :: u → isWs c = false := by intro c u e; cases e; decide

theorem glue_total (hp : ∀ p, glue s ≠ .panic p) : (∃ x r, Glue s x r) ∨ NoGlue s := by
  unfold glue at hp
  rcases length_total (np_bind hp) with ⟨d, t, h1⟩ | h
  · have hp1 := np_after (length_dimension h1) hp
    rcases tail_total plus_ws (by decide) (np_bind hp1) with ⟨p, u, h2⟩ | ⟨w, u, hw, rfl, h⟩
    · have hp2 := np_after (stretch_tail plus_ws (by decide) h2) hp1
      rcases tail_total minus_ws (by decide) (np_bind hp2) with ⟨m, r, h3⟩ | ⟨w, u, hw, rfl, h⟩
      · exact .inl ⟨_, r, .mk h1 h2 h3⟩
      · exact .inr (.minus h1 h2 hw h)
    · exact .inr (.plus h1 hw h)
  · exact .inr (.length h)

theorem noGlue_err (h : NoGlue s) : ∃ r, glue s = .err .dimensionUnit r := by
  cases h with
  | length h => exact noLength_glue h
  | plus h1 hw h =>
    obtain ⟨r, e⟩ := tail_err plus_ws (by decide) hw h
    exact ⟨r, by unfold glue; rw [M.bind_ok (length_dimension h1), M.run_bind, e]⟩
  | minus h1 h2 hw h =>
    obtain ⟨r, e⟩ := tail_err minus_ws (by decide) hw h
    exact ⟨r, by unfold glue; rw [M.bind_ok (length_dimension h1), M.bind_ok (stretch_tail plus_ws (by decide) h2), M.run_bind, e]⟩

section braced
variable {α : Type} {What : Str → α → Str → Prop} {No : Str → Prop} {m : L α}

theorem notBraced_err (hm : ∀ s a r, What s a r → m s = .ok a r) (hn : ∀ s, No s → ∃ r, m s = .err .dimensionUnit r) (h : NotBraced What No s k) :
    ∃ r, orBraced m s = .err k r := by
  cases h with
  | bare h1 h2 =>
    unfold orBraced
    rw [M.get_bind]
    obtain ⟨w, hw, e⟩ := trimStart_spec s
    rw [if_neg]
    · exact hn _ h2
    · intro hc
      obtain ⟨u, hu⟩ : ∃ u, trimStart s = '{' :: u := by
        unfold startsWith at hc
        cases ht : trimStart s with
        | nil => rw [ht] at hc; simp at hc
        | cons x y => rw [ht] at hc; simp at hc; exact ⟨y, by rw [hc]⟩
      exact h1 w u hw (by rw [← hu]; exact e)
  | @unclosed w t hw hu =>
    unfold orBraced
    obtain ⟨r, e⟩ := noBraces_err (.unclosed hw hu)
    refine ⟨r, ?_⟩
    rw [M.get_bind, trimStart_ws_append hw, trimStart_eq_self (by intro c r e; cases e; decide),
      if_pos (show startsWith ['{'] ('{' :: t) = true by simp [startsWith]), M.run_bind, e]
  | braced hb h =>
    rename_i g r
    obtain ⟨q, e⟩ := hn _ h
    obtain ⟨w, t, hw, rfl, hs⟩ := hb
    refine ⟨r, ?_⟩
    unfold orBraced
    rw [M.get_bind, trimStart_ws_append hw, trimStart_eq_self (by intro c r e; cases e; decide),
      if_pos (show startsWith ['{'] ('{' :: t) = true by simp [startsWith]), M.bind_ok (braceArgument_iff.2 ⟨w, t, hw, rfl, hs⟩), M.run_bind]
    unfold onInner
    rw [e]
  | more hb h hu => exact orBraced_more hb (hm _ _ _ h) hu

theorem braced_total (ht : ∀ s, (∀ p, m s ≠ .panic p) → (∃ a r, What s a r) ∨ No s)
    (hp : ∀ p, orBraced m s ≠ .panic p) : (∃ a r, MaybeBraced What s a r) ∨ ∃ k, NotBraced What No s k := by
  rcases braces_total s with ⟨g, r, hb⟩ | ⟨k, hk⟩
  · have hg : ∀ p, m g ≠ .panic p := by
      intro p e
      obtain ⟨w, t, hw, rfl, hs⟩ := hb
      refine hp p ?_
      unfold orBraced
      rw [M.get_bind, trimStart_ws_append hw, trimStart_eq_self (by intro c r e; cases e; decide),
        if_pos (show startsWith ['{'] ('{' :: t) = true by simp [startsWith]), M.bind_ok (braceArgument_iff.2 ⟨w, t, hw, rfl, hs⟩), M.run_bind]
      unfold onInner
      rw [e]
    rcases ht g hg with ⟨a, u, h⟩ | h
    · by_cases hu : Spaces u
      · exact .inl ⟨a, r, .braced hb h hu⟩
      · exact .inr ⟨_, .more hb h hu⟩
    · exact .inr ⟨_, .braced hb h⟩
  · cases hk with
    | other h =>
      have hg : ∀ p, m s ≠ .panic p := by
        intro p e
        refine hp p ?_
        unfold orBraced
        rw [M.get_bind]
        obtain ⟨w, hw, e'⟩ := trimStart_spec s
        rw [if_neg]
        · exact e
        · intro hc
          obtain ⟨u, hu⟩ : ∃ u, trimStart s = '{' :: u := by
            unfold startsWith at hc
            cases ht : trimStart s with
            | nil => rw [ht] at hc; simp at hc
            | cons x y => rw [ht] at hc; simp at hc; exact ⟨y, by rw [hc]⟩
          exact h w u hw (by rw [← hu]; exact e')
      rcases ht s hg with ⟨a, u, h'⟩ | h'
      · exact .inl ⟨a, u, .bare h h'⟩
      · exact .inr ⟨_, .bare h h'⟩
    | unclosed hw hu => exact .inr ⟨_, .unclosed hw hu⟩
end braced

/-! ### Colours -/

theorem color_named {v : Nat × Nat × Nat} (hne : s.head? ≠ some '#') : color s = .some v ↔ Colour s v := by
  have hp : stripPrefix c!"#" s = none := by
    rw [stripPrefix_none]
    rintro u rfl
    exact hne rfl
  have key : color s = .some v ↔ (dvipsnamesColor s = .some v ∨ (dvipsnamesColor s = .none ∧ primitiveColor s = .some v)) := by
    unfold color
    rw [hp]
    dsimp only
    cases dvipsnamesColor s <;> cases primitiveColor s <;> simp
  rw [key]
  have hd : ∀ v, dvipsnamesColor s = .some v ↔ (s, v) ∈ dvipsnames := fun v => lookup_iff_mem dvips_nodup
  constructor
  · rintro (h | ⟨h, h'⟩)
    · exact .dvips ((hd v).1 h)
    · obtain ⟨n, h1, h2⟩ := primitiveColor_iff.1 h'
      obtain ⟨x, h3, rfl⟩ := (cssNames_iff n v).1 h2
      refine .css (fun v hv => ?_) h1 h3
      rw [(hd v).2 hv] at h; cases h
  · intro h
    cases h with
    | hex => exact absurd rfl hne
    | dvips h => exact .inl ((hd v).2 h)
    | @css _ n x h1 h2 h3 =>
      refine .inr ⟨?_, primitiveColor_iff.2 ⟨n, h2, (cssNames_iff n _).2 ⟨x, h3, rfl⟩⟩⟩
      cases hx : dvipsnamesColor s with
      | none => rfl
      | some v => exact absurd ((hd v).1 hx) (h1 v)

theorem color_named_panic (hne : s.head? ≠ some '#') : color s ≠ .panic := by
  have hp : stripPrefix c!"#" s = none := by
    rw [stripPrefix_none]
    rintro u rfl
    exact hne rfl
  unfold color
  rw [hp]
  dsimp only
  cases dvipsnamesColor s <;> cases primitiveColor s <;> simp

theorem u8Hex_pair {a b : Char} : (∃ n, u8Hex [a, b] = some n) ↔ HexPair a b := by
  unfold u8Hex HexPair
  simp only [← hexDigit?_iff]
  by_cases ha : a = '+'
  · simp [ha]
  · simp only [ha, if_false, false_or]
    cases hexDigit? a <;> cases hexDigit? b <;> simp

theorem u8Hex_some {p : Str} {n : Nat} (h : u8Hex p = some n) : ∃ a b, p = [a, b] ∧ HexPair a b := by
  match p, u8Hex_two h with
  | [a, b], _ => exact ⟨a, b, rfl, u8Hex_pair.1 ⟨n, h⟩⟩

theorem u8Hex_none {p : Str} (h : ∀ a b, p = [a, b] → ¬ HexPair a b) : u8Hex p = none := by
  cases e : u8Hex p with
  | none => rfl
  | some n =>
    obtain ⟨a, b, h1, h2⟩ := u8Hex_some e
    exact absurd h2 (h a b h1)

theorem hexPair_size {a b : Char} (h : HexPair a b) : blen [a, b] = 2 := by
  obtain ⟨h1, y, h2⟩ := h
  have hb := hexDigit_size h2
  have ha : a.utf8Size = 1 := by
    rcases h1 with rfl | ⟨x, h1⟩
    · decide
    · exact hexDigit_size h1
  simp [ha, hb]

/-- `color` on the hexadecimal notation. -/
theorem color_hex (x : Str) : color ('#' :: x) = if blen x = 6 then
    match splitBytes x 2 with
    | .none => .panic
    | .some (rs, rest) =>
      match u8Hex rs with
      | .none => .none
      | .some r =>
        match splitBytes rest 2 with
        | .none => .panic
        | .some (gs, bs) =>
          match u8Hex gs with
          | .none => .none
          | .some g =>
            match u8Hex bs with
            | .none => .none
            | .some b => .some (r, g, b)
    else .none := by
  unfold color
  rw [show stripPrefix c!"#" ('#' :: x) = some x from rfl]
  rfl

theorem color_ok (h : ColourText s) : ∃ c, color s = .some c := by
  cases h with
  | @hex a b c d e f h1 h2 h3 =>
    rw [color_hex]
    have l1 := hexPair_size h1
    have l2 := hexPair_size h2
    have l3 := hexPair_size h3
    obtain ⟨n1, h1⟩ := u8Hex_pair.2 h1
    obtain ⟨n2, h2⟩ := u8Hex_pair.2 h2
    obtain ⟨n3, h3⟩ := u8Hex_pair.2 h3
    rw [if_pos (by simp at l1 l2 l3 ⊢; omega)]
    rw [show splitBytes [a, b, c, d, e, f] 2 = some ([a, b], [c, d, e, f]) from splitBytes_eq_some.2 ⟨rfl, l1⟩]
    simp only [h1]
    rw [show splitBytes [c, d, e, f] 2 = some ([c, d], [e, f]) from splitBytes_eq_some.2 ⟨rfl, l2⟩]
    simp only [h2, h3]
    exact ⟨_, rfl⟩
  | named h1 h2 => exact ⟨_, (color_named h1).2 h2⟩

theorem color_no (h : NotColour s) : color s = .none := by
  cases h with
  | named h1 h2 =>
    cases e : color s with
    | none => rfl
    | some v => exact absurd ((color_named h1).1 e) (h2 v)
    | panic => exact absurd e (color_named_panic h1)
  | size h => rw [color_hex, if_neg h]
  | @red p q h1 h2 h3 =>
    rw [color_hex, if_pos (by simp [h1, h2]), splitBytes_eq_some.2 ⟨rfl, h1⟩]
    simp only [u8Hex_none h3]
  | @green a b p q h0 h1 h2 h3 =>
    have l := hexPair_size h0
    obtain ⟨n, e⟩ := u8Hex_pair.2 h0
    rw [color_hex, if_pos (by simp [h1, h2] at l ⊢; omega),
      show splitBytes (a :: b :: (p ++ q)) 2 = some ([a, b], p ++ q) from splitBytes_eq_some.2 ⟨rfl, l⟩]
    simp only [e]
    rw [splitBytes_eq_some.2 ⟨rfl, h1⟩]
    simp only [u8Hex_none h3]
  | @blue a b c d p h0 h0' h1 h3 =>
    have l := hexPair_size h0
    have l' := hexPair_size h0'
    obtain ⟨n, e⟩ := u8Hex_pair.2 h0
    obtain ⟨n', e'⟩ := u8Hex_pair.2 h0'
    rw [color_hex, if_pos (by simp [h1] at l l' ⊢; omega),
      show splitBytes (a :: b :: c :: d :: p) 2 = some ([a, b], c :: d :: p) from splitBytes_eq_some.2 ⟨rfl, l⟩]
    simp only [e]
    rw [show splitBytes (c :: d :: p) 2 = some ([c, d], p) from splitBytes_eq_some.2 ⟨rfl, l'⟩]
    simp only [e', u8Hex_none h3]

theorem color_total (hp : color s ≠ .panic) : ColourText s ∨ NotColour s := by
  by_cases hne : s.head? = some '#'
  · cases s with
    | nil => cases hne
    | cons c x =>
      cases hne
      by_cases hl : blen x = 6
      · rw [color_hex, if_pos hl] at hp
        cases h1 : splitBytes x 2 with
        | none => rw [h1] at hp; exact absurd rfl hp
        | some q =>
          obtain ⟨p, x⟩ := q
          rw [h1] at hp
          dsimp only at hp
          obtain ⟨rfl, b1⟩ := splitBytes_spec h1
          have b1' : blen x = 4 := by simp at hl; omega
          cases h2 : u8Hex p with
          | none => exact .inr (.red b1 b1' fun a b e hh => by subst e; obtain ⟨n, e⟩ := u8Hex_pair.2 hh; rw [e] at h2; cases h2)
          | some r =>
            obtain ⟨a, b, rfl, hab⟩ := u8Hex_some h2
            rw [h2] at hp
            dsimp only at hp
            cases h3 : splitBytes x 2 with
            | none => rw [h3] at hp; exact absurd rfl hp
            | some q =>
              obtain ⟨p, x⟩ := q
              obtain ⟨rfl, b2⟩ := splitBytes_spec h3
              have b2' : blen x = 2 := by simp at b1'; omega
              cases h4 : u8Hex p with
              | none => exact .inr (.green (p := p) (q := x) hab b2 b2' fun a b e hh => by subst e; obtain ⟨n, e⟩ := u8Hex_pair.2 hh; rw [e] at h4; cases h4)
              | some r =>
                obtain ⟨c, d, rfl, hcd⟩ := u8Hex_some h4
                cases h5 : u8Hex x with
                | none => exact .inr (.blue hab hcd b2' fun a b e hh => by subst e; obtain ⟨n, e⟩ := u8Hex_pair.2 hh; rw [e] at h5; cases h5)
                | some r =>
                  obtain ⟨e, f, rfl, hef⟩ := u8Hex_some h5
                  exact .inl (.hex hab hcd hef)
      · exact .inr (.size hl)
  · cases h : color s with
    | some v => exact .inl (.named hne ((color_named hne).1 h))
    | none => exact .inr (.named hne fun v hv => by rw [(color_named hne).2 hv] at h; cases h)
    | panic => exact absurd h hp

/-! ### Integer constants -/

theorem const_ok {n : Nat} (h : IntConst s n r) (hn : n < 2 ^ 64) : unsignedInteger cf s = .ok n r :=
  (C51_integer cf s r n).2 ⟨n, h, .inl hn, (Nat.mod_eq_of_lt hn).symm⟩

theorem noConst_err (h : NoConst s k) : ∃ r, unsignedInteger cf s = .err k r := by
  cases h with
  | nothing h => exact noNumber_err h
  | backquote => exact ⟨_, rfl⟩
  | backslash => exact ⟨_, rfl⟩
  | @wide c r h1 h2 =>
    refine ⟨c :: r, ?_⟩
    show charCode (c :: r) = _
    unfold charCode
    split
    · cases ‹c :: r = []›
    · rename_i e; cases e; exact absurd rfl h1
    · rename_i e; cases e; rw [if_neg (by omega)]
  | @wideEscaped c r h =>
    refine ⟨c :: r, ?_⟩
    show (if c.toNat < 128 then _ else _) = _
    rw [if_neg (by omega)]

theorem of_size_one {c : Char} (h : c.utf8Size = 1) : c.toNat < 128 := by
  rw [Char.utf8Size_eq_one_iff] at h
  have : c.val.toNat ≤ 127 := h
  show c.val.toNat < 128
  omega

theorem const_total (ho : cf.overflowChecks = true) (hp : ∀ p, unsignedInteger cf s ≠ .panic p) : (∃ n r, IntConst s n r ∧ n < 2 ^ 64) ∨ ∃ k, NoConst s k := by
  cases h : unsignedInteger cf s with
  | ok n r =>
    obtain ⟨m, h1, h2, -⟩ := (C51_integer cf s r n).1 h
    rcases h2 with h2 | h2
    · exact .inl ⟨m, r, h1, h2⟩
    · rw [ho] at h2; cases h2
  | panic p => exact absurd h (hp p)
  | err e r =>
    refine .inr ?_
    unfold unsignedInteger at h
    split at h
    · exact ⟨_, .nothing (by intro c r e; cases e)⟩
    · rename_i c t
      have hrad : ∀ b p v (s : Str) e r, radix cf b p v s ≠ .err e r := by
        intro b p v s e r he
        unfold radix at he
        split at he
        · cases he
        · rw [M.run_bind] at he
          have : ∀ (s : Str) e r, oneOptionalSpace s ≠ .err e r := by
            intro s e r
            unfold oneOptionalSpace
            split
            · split
              · split <;> simp
              · simp
            · simp
          split at he
          · cases he
          · rename_i hq; exact this _ _ _ hq
          · cases he
      split at h
      · exact absurd h (hrad _ _ _ _ _ _)
      · rename_i h1
        split at h
        · cases h
        · rename_i h2
          have hasc : c.toNat < 128 := by
            by_cases hc : c.toNat < 128
            · exact hc
            · exact absurd (of_size_one (by simpa using h2)) hc
          split at h
          · rename_i hc
            subst hc
            unfold charCode at h
            split at h
            · exact ⟨_, .backquote⟩
            · split at h
              · exact ⟨_, .backslash⟩
              · split at h
                · cases h
                · exact ⟨_, .wideEscaped (by omega)⟩
            · rename_i hne
              split at h
              · cases h
              · exact ⟨_, .wide (fun e => hne e) (by omega)⟩
          · split at h
            · exact absurd h (hrad _ _ _ _ _ _)
            · split at h
              · exact absurd h (hrad _ _ _ _ _ _)
              · refine ⟨_, .nothing ?_⟩
                intro d u e
                cases e
                exact ⟨hasc, by simpa using h1, ‹_›, ‹_›, ‹_›⟩

end PL.Formula
