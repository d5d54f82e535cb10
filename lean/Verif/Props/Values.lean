import Verif.Lemmas.Color
import Verif.Lemmas.Words
import Verif.Spec.Colour
import Verif.Lemmas.Utf8
import Verif.Model.Mathml
import Mathlib.Tactic.Ring
import Mathlib.Tactic.Tauto
set_option autoImplicit false
/-!
# Numbers, dimensions, colours and small syntax (C15, C21, C22, C42, C43, C44, C45)
-/
namespace PL.Props
open PL PL.Lex Spec

/-! ## C15: number literals -/

/-- Outside argument position, a digit gives one `Number` event holding the literal at that place, and the
input continues right after the literal. -/
theorem C15_number (cf : Cfg) (n : Nat) (c : Char) (rest : Str) (src stop : Nat) (st : HSt) (hc : isDigit c = true)
    (hst : st.harg = false) : ∃ lit r, NumberLit (c :: rest) lit r ∧
      handleToken cf (n + 1) (.chr c ⟨src, stop, c :: rest⟩) st =
        .ok ⟨⟩ { st with content := ⟨src, stop, r⟩, buf := st.buf ++ [.ev (.content (.number lit))] } := by
  refine ⟨_, _, numberLit_of hc, ?_⟩
  have hne : ∀ d : Char, isDigit d = false → c ≠ d := by
    rintro d hd rfl; rw [hd] at hc; cases hc
  unfold handleToken handleChar
  rw [M.get_bind]
  have h1 : ¬ ((decide (c = '\\') || decide (c = '%')) = true) := by simp [hne '\\' rfl, hne '%' rfl]
  have h2 : ¬ ((decide (c = '_') || decide (c = '^')) = true) := by simp [hne '_' rfl, hne '^' rfl]
  rw [if_neg h1, if_neg h2, if_neg (hne '$' rfl), if_neg (hne '#' rfl), if_neg (hne '&' rfl), if_neg (hne '{' rfl),
    if_neg (hne '}' rfl), if_neg (hne '~' rfl), if_pos hc]
  obtain ⟨_, _, _, _, _, harg, _, _⟩ := st
  dsimp only at hst
  subst hst
  rfl

/-- The literal is determined by the text. -/
theorem C15_unique (s a b r t : Str) (h : NumberLit s a r) (h' : NumberLit s b t) : a = b ∧ r = t := h.unique h'

/-- In argument position the event holds the digit only. -/
theorem C15_argument (cf : Cfg) (n : Nat) (c : Char) (rest : Str) (src stop : Nat) (st : HSt) (hc : isDigit c = true)
    (hst : st.harg = true) : handleToken cf (n + 1) (.chr c ⟨src, stop, c :: rest⟩) st =
        .ok ⟨⟩ { st with content := ⟨src, stop, rest⟩, buf := st.buf ++ [.ev (.content (.number [c]))] } := by
  have hne : ∀ d : Char, isDigit d = false → c ≠ d := by
    rintro d hd rfl; rw [hd] at hc; cases hc
  unfold handleToken handleChar
  rw [M.get_bind]
  have h1 : ¬ ((decide (c = '\\') || decide (c = '%')) = true) := by simp [hne '\\' rfl, hne '%' rfl]
  have h2 : ¬ ((decide (c = '_') || decide (c = '^')) = true) := by simp [hne '_' rfl, hne '^' rfl]
  rw [if_neg h1, if_neg h2, if_neg (hne '$' rfl), if_neg (hne '#' rfl), if_neg (hne '&' rfl), if_neg (hne '{' rfl),
    if_neg (hne '}' rfl), if_neg (hne '~' rfl), if_pos hc]
  obtain ⟨_, _, _, _, _, harg, _, _⟩ := st
  dsimp only at hst
  subst hst
  rfl

/-- The shorter reading "a literal never ends in a separator" is false: only one separator is left out. -/
theorem C15_may_end_in_separator :
    NumberLit c!"1..x" c!"1." c!".x" ∧
    (run ⟨true, fun k => 1000000 * k⟩ 20 (State.init c!"1..x")).1.head? = some (.ok (.content (.number c!"1."))) := by
  refine ⟨.sep (lit := c!"1.") (c := '.') (r := c!"x") (by decide) ?_ (.inl rfl) ?_, by decide +kernel⟩
  · intro d hd
    simp only [List.mem_cons, List.not_mem_nil, or_false] at hd
    rcases hd with rfl | rfl
    · exact .inl rfl
    · exact .inr (.inl rfl)
  · intro d r' h
    injection h with h _
    subst h
    rintro (h | h | h) <;> cases h

example : (run ⟨true, fun k => 1000000 * k⟩ 20 (State.init c!"1,234.5, x")).1 =
    [.ok (.content (.number c!"1,234.5")), .ok (.content (.punctuation ',')), .ok (ordinary 'x')] := by decide +kernel

/-! ## C22: dimensions -/

/-- What is accepted is a dimension as specified, its value is the signed decimal written, its unit the one
written, and at most one space after it is consumed. -/
theorem C22_accepts (s r : Str) (d : Dim) (h : dimension s = .ok d r) : ∃ neg ip fp u t,
    DimText s neg ip fp u t ∧ OptSpace t r ∧
      d = ⟨⟨(if neg then -1 else 1) * (decValue (ip ++ fp) : Nat), 10 ^ fp.length⟩, u⟩ := dimension_ok h

/-- Every dimension as specified is read, except if it is followed by a white space character that is longer
than one byte. -/
theorem C22_reads_partial (s t r : Str) (neg : Bool) (ip fp : Str) (u : Unit_) (h : DimText s neg ip fp u t)
    (ht : OptSpace t r) (hs : ∀ c t', t = c :: t' → isWs c = true → c.toNat < 128) :
    dimension s = .ok ⟨⟨(if neg then -1 else 1) * (decValue (ip ++ fp) : Nat), 10 ^ fp.length⟩, u⟩ r :=
  dimension_of h ht fun c t' h1 h2 => ascii_size (by have := hs c t' h1 h2; omega)

/-- Reading panics only in that case. -/
theorem C22_panics_only (s : Str) (p : Panic) (h : dimension s = .panic p) : p = .sliceBoundary ∧
    ∃ neg ip fp u c t, DimText s neg ip fp u (c :: t) ∧ isWs c = true ∧ c.utf8Size ≠ 1 := dimension_panic h

/-- In that case it does panic: the claim fails for `1em` followed by an ideographic space. -/
theorem C22_false : DimText c!"1em　x" false c!"1" [] .em c!"　x" ∧ OptSpace c!"　x" c!"x" ∧
    dimension c!"1em　x" = .panic .sliceBoundary := by
  refine ⟨?_, .one rfl, rfl⟩
  have := DimText.whole (sg := []) (ip := c!"1") (w := []) (u := .em) (r := c!"　x") (by simp)
    (by simp [isDigit]) (by intro c hc; cases hc)
  simpa [unitName] using this

/-- Both digit strings may be empty: a bare unit is read as zero. -/
theorem C22_empty_number : dimension c!"em" = .ok ⟨⟨0, 1⟩, .em⟩ [] ∧ dimension c!"- . pt x" = .ok ⟨⟨0, 1⟩, .pt⟩ c!"x" :=
  ⟨rfl, rfl⟩

example : dimension c!"- +-1.25 em rest" = .ok ⟨⟨125, 100⟩, .em⟩ c!"rest" := rfl

/-! ## C21: colours -/

theorem dvips_no_hash : ∀ p ∈ dvipsnames, p.1.head? ≠ some '#' := by decide +kernel

theorem css_no_hash {s n : Str} (h : CaseFold s n) (hn : ∀ c ∈ n, 97 ≤ c.toNat ∧ c.toNat ≤ 122) : s.head? ≠ some '#' := by
  cases h with
  | nil => simp
  | @cons c d s n h1 h2 =>
    intro e
    cases e
    have := hn d (by simp)
    rcases h1 with rfl | ⟨h, _⟩ | ⟨h, _⟩
    · revert this; decide
    · revert h; decide
    · revert h; decide

/-- Every string without `+` denotes the colour given by the rules, or none. -/
theorem C21_colour_partial (s : Str) (v : Nat × Nat × Nat) (hs : '+' ∉ s) : color s = .some v ↔ Colour s v := by
  have hcss : ∀ n h, (n, h) ∈ cssSpec → ∀ c ∈ n, 97 ≤ c.toNat ∧ c.toNat ≤ 122 := fun n h hm =>
    css_letters _ ((cssNames_iff n _).2 ⟨h, hm, rfl⟩)
  cases hp : stripPrefix c!"#" s with
  | none =>
    have hne : s.head? ≠ some '#' := by
      intro e
      cases s with
      | nil => cases e
      | cons c s => cases e; rw [stripPrefix_none] at hp; exact hp s rfl
    have key : color s = .some v ↔ (dvipsnamesColor s = .some v ∨ (dvipsnamesColor s = .none ∧ primitiveColor s = .some v)) := by
      unfold color
      rw [hp]
      dsimp only
      cases dvipsnamesColor s <;> cases primitiveColor s <;> simp
    rw [key]
    have hd : ∀ v, dvipsnamesColor s = .some v ↔ (s, v) ∈ dvipsnames := fun v => lookup_iff_mem dvips_nodup
    constructor
    · rintro (h | ⟨h, h'⟩)
      · exact .dvips ((hd v).1 h)
      · obtain ⟨n, h1, h2⟩ := primitiveColor_iff.1 h'
        obtain ⟨x, h3, rfl⟩ := (cssNames_iff n v).1 h2
        refine .css (fun v hv => ?_) h1 h3
        rw [(hd v).2 hv] at h; cases h
    · intro h
      cases h with
      | hex => exact absurd rfl hne
      | dvips h => exact .inl ((hd v).2 h)
      | @css _ n x h1 h2 h3 =>
        refine .inr ⟨?_, primitiveColor_iff.2 ⟨n, h2, (cssNames_iff n _).2 ⟨x, h3, rfl⟩⟩⟩
        cases hx : dvipsnamesColor s with
        | none => rfl
        | some v => exact absurd ((hd v).1 hx) (h1 v)
  | some hex =>
    rw [stripPrefix_some] at hp
    subst hp
    have hhex : '+' ∉ hex := fun h => hs (by simp [h])
    have e : stripPrefix c!"#" (c!"#" ++ hex) = some hex := stripPrefix_some.2 rfl
    constructor
    · intro h
      unfold color at h
      rw [e] at h
      dsimp only at h
      split at h
      · rename_i hl
        split at h
        · cases h
        · rename_i rs rest h1
          obtain ⟨rfl, hb1⟩ := splitBytes_spec h1
          split at h
          · cases h
          · rename_i r hr
            split at h
            · cases h
            · rename_i gs bs h2
              obtain ⟨rfl, hb2⟩ := splitBytes_spec h2
              split at h
              · cases h
              · rename_i g hg
                split at h
                · cases h
                · rename_i b hb
                  cases h
                  obtain ⟨a1, a2, x1, x2, rfl, p1, p2, rfl⟩ := (u8Hex_iff (fun h => hhex (by simp [h]))).1 hr
                  obtain ⟨a3, a4, x3, x4, rfl, p3, p4, rfl⟩ := (u8Hex_iff (fun h => hhex (by simp [h]))).1 hg
                  obtain ⟨a5, a6, x5, x6, rfl, p5, p6, rfl⟩ := (u8Hex_iff (fun h => hhex (by simp [h]))).1 hb
                  exact .hex p1 p2 p3 p4 p5 p6
      · cases h
    · intro h
      generalize hw : c!"#" ++ hex = s at h
      cases h with
      | @hex a1 a2 a3 a4 a5 a6 x1 x2 x3 x4 x5 x6 p1 p2 p3 p4 p5 p6 =>
        injection hw with _ hw
        have hw : hex = [a1, a2, a3, a4, a5, a6] := hw
        subst hw
        have s1 := hexDigit_size p1
        have s2 := hexDigit_size p2
        have s3 := hexDigit_size p3
        have s4 := hexDigit_size p4
        have s5 := hexDigit_size p5
        have s6 := hexDigit_size p6
        have q1 : splitBytes [a1, a2, a3, a4, a5, a6] 2 = some ([a1, a2], [a3, a4, a5, a6]) :=
          splitBytes_eq_some.2 ⟨rfl, by simp [s1, s2]⟩
        have q2 : splitBytes [a3, a4, a5, a6] 2 = some ([a3, a4], [a5, a6]) :=
          splitBytes_eq_some.2 ⟨rfl, by simp [s3, s4]⟩
        have u1 : u8Hex [a1, a2] = some (x1 * 16 + x2) :=
          (u8Hex_iff (fun h => hhex (by simp at h ⊢; tauto))).2 ⟨_, _, _, _, rfl, p1, p2, rfl⟩
        have u2 : u8Hex [a3, a4] = some (x3 * 16 + x4) :=
          (u8Hex_iff (fun h => hhex (by simp at h ⊢; tauto))).2 ⟨_, _, _, _, rfl, p3, p4, rfl⟩
        have u3 : u8Hex [a5, a6] = some (x5 * 16 + x6) :=
          (u8Hex_iff (fun h => hhex (by simp at h ⊢; tauto))).2 ⟨_, _, _, _, rfl, p5, p6, rfl⟩
        unfold color
        rw [show '#' :: [a1, a2, a3, a4, a5, a6] = c!"#" ++ [a1, a2, a3, a4, a5, a6] from rfl, e]
        simp [q1, q2, u1, u2, u3, s1, s2, s3, s4, s5, s6]
      | dvips h => exact absurd (by rw [← hw]; rfl) (dvips_no_hash _ h)
      | css h1 h2 h3 => exact absurd (by rw [← hw]; rfl) (css_no_hash h2 (hcss _ _ h3))

/-- With `+` the claim is false: signed bytes are accepted. -/
theorem C21_false : color c!"#+f+f+f" = .some (15, 15, 15) ∧ ¬ Colour c!"#+f+f+f" (15, 15, 15) := by
  refine ⟨by decide +kernel, ?_⟩
  intro h
  generalize hw : c!"#+f+f+f" = s at h
  generalize (15, 15, 15) = v at h
  cases h with
  | hex p1 =>
    injection hw with _ hw
    injection hw with hw _
    subst hw
    revert p1
    unfold HexDigit
    rintro (⟨h, h', _⟩ | ⟨h, _⟩ | ⟨h, _⟩)
    · revert h'; revert h; decide
    · revert h; decide
    · revert h; decide
  | dvips h => exact absurd (by rw [← hw]; rfl) (dvips_no_hash _ h)
  | css h1 h2 h3 =>
    exact absurd (by rw [← hw]; rfl) (css_no_hash h2 (css_letters _ ((cssNames_iff _ _).2 ⟨_, h3, rfl⟩)))

/-- A colour never panics on ASCII text. -/
theorem C21_no_panic_partial (s : Str) (hs : ∀ c ∈ s, c.toNat < 128) : color s ≠ .panic := by
  unfold color
  cases hp : stripPrefix c!"#" s with
  | none =>
    dsimp only
    cases dvipsnamesColor s <;> cases primitiveColor s <;> simp
  | some hex =>
    rw [stripPrefix_some] at hp
    subst hp
    dsimp only
    have hlen : ∀ t : Str, (∀ c ∈ t, c.toNat < 128) → blen t = t.length := by
      intro t ht
      induction t with
      | nil => rfl
      | cons c t ih =>
        rw [blen_cons, ascii_size (by have := ht c (by simp); omega), ih fun d hd => ht d (by simp [hd])]
        simp; omega
    have hh : ∀ c ∈ hex, c.toNat < 128 := fun c hc => hs c (by simp [hc])
    have hsplit : ∀ t : Str, (∀ c ∈ t, c.toNat < 128) → 2 ≤ t.length → splitBytes t 2 = some (t.take 2, t.drop 2) := by
      intro t ht h2
      refine splitBytes_eq_some.2 ⟨by simp, ?_⟩
      rw [hlen _ fun c hc => ht c (List.mem_of_mem_take hc)]
      simp; omega
    split
    · rename_i hl
      rw [hlen _ hh] at hl
      have h1 := hsplit hex hh (by omega)
      have h2 := hsplit (hex.drop 2) (fun c hc => hh c (List.mem_of_mem_drop hc)) (by simp; omega)
      rw [h1]
      dsimp only
      cases u8Hex (hex.take 2) with
      | none => simp
      | some r =>
        dsimp only
        rw [h2]
        dsimp only
        cases u8Hex ((hex.drop 2).take 2) with
        | none => simp
        | some g =>
          dsimp only
          cases u8Hex ((hex.drop 2).drop 2) <;> simp
    · simp

/-- In general it can: the bytes of `é` are split. -/
theorem C21_panics : color c!"#aéaaa" = .panic := by decide +kernel

example : Colour c!"#1aF0e9" (0x1A, 0xF0, 0xE9) ∧ Colour c!"RebeccaPurple" (0x66, 0x33, 0x99) := by
  constructor
  · exact (C21_colour_partial _ _ (by decide)).1 (by decide +kernel)
  · exact (C21_colour_partial _ _ (by decide)).1 (by decide +kernel)

/-! ## C42: relations -/

/-- The buffer of at least 8 bytes always suffices, and what is returned is the UTF-8 encoding (of Lean's
library) of the one or two characters. -/
theorem C42_encode (c : Char) (d : Option Char) (buf : List Nat) (h : 8 ≤ buf.length) :
    encodeToBuf c d buf = some (((c :: d.toList).flatMap String.utf8EncodeChar).map UInt8.toNat) := by
  rw [← utf8_eq]
  have h1 := utf8Size_le c
  unfold encodeToBuf encodeUtf8
  simp only [utf8Char_length]
  rw [if_pos (by omega)]
  have htake : (utf8Char c ++ buf.drop c.utf8Size).take c.utf8Size = utf8Char c := by
    rw [List.take_append_of_le_length (by simp), List.take_of_length_le (by simp)]
  have hdrop : (utf8Char c ++ buf.drop c.utf8Size).drop c.utf8Size = buf.drop c.utf8Size := by
    rw [List.drop_append_of_le_length (by simp), List.drop_of_length_le (by simp)]; rfl
  cases d with
  | none => simp [htake, utf8]
  | some d =>
    have h2 := utf8Size_le d
    dsimp only
    rw [hdrop, htake, if_pos (by simp; omega)]
    dsimp only
    rw [← List.append_assoc, List.take_append_of_le_length (by simp), List.take_of_length_le (by simp)]
    simp [utf8]

example : encodeToBuf '≔' (some '⃒') (List.replicate 8 0) = some [0xE2, 0x89, 0x94, 0xE2, 0x83, 0x92] := by decide
/-- Seven bytes would not suffice. -/
example : encodeToBuf '𝐀' (some '𝐁') (List.replicate 7 0) = none := by decide

/-! ## C43: limits -/

/-- The position after a sequence of modifiers (`true` for `\limits`). -/
def posAfter (vs : List Bool) (p : ScriptPos) : ScriptPos :=
  match vs.getLast? with
  | some true => .aboveBelow
  | some false => .right
  | none => p

/-- The words are `\limits` and `\nolimits`. -/
theorem C43_words : limitWords = [(c!"\\limits", true), (c!"\\nolimits", false)] := rfl

/-- After an operator that allows modifiers, the longest sequence of modifiers is consumed and the last one
decides; without any, the position is kept. -/
theorem C43_limits (st : HSt) (vs : List Bool) (r : Str) (h : WordSeq limitWords st.content.cs vs r)
    (ha : st.allowMods = true) :
    limits st = .ok ⟨⟩ { st with pos := posAfter vs st.pos, content := { st.content with cs := r } } := by
  unfold limits posAfter
  rw [M.get_bind, if_pos ha, limitModifiers_of h]
  generalize vs.getLast? = o
  cases o with
  | none => rfl
  | some b => cases b <;> rfl

/-- Such a sequence always exists (it may be empty) and is unique. -/
theorem C43_exists (s : Str) : ∃ vs r, WordSeq limitWords s vs r ∧ ∀ vs' r', WordSeq limitWords s vs' r' → vs = vs' ∧ r = r' := by
  obtain ⟨vs, h, _⟩ := limitModifiers_spec s
  exact ⟨vs, _, h, fun _ _ h' => WordSeq.det limitStep_some h h'⟩

/-- After anything else nothing is consumed. -/
theorem C43_not_allowed (st : HSt) (ha : st.allowMods = false) : limits st = .ok ⟨⟩ st := by
  unfold limits
  rw [M.get_bind, if_neg (by simp [ha])]
  rfl

/-- The script event carries that position when the script is a group and no second script follows. -/
theorem C43_script_partial (rec : HTok → H PUnit) (st : HSt) (vs : List Bool) (w w' s g t : Str) (c : Char)
    (hs : st.skip = false) (ha : st.allowMods = true) (hw : Spaces w) (hw' : Spaces w')
    (h : WordSeq limitWords st.content.cs vs (w ++ c :: (w' ++ '{' :: s))) (hc : c = '^' ∨ c = '_')
    (hg : Split ['{'] ['}'] 0 s g t) (ht : t.head? ≠ some '^' ∧ t.head? ≠ some '_') :
    ∃ d st', scripts rec st = .ok (some d) st' ∧
      d.event = .script (if c = '_' then .sub else .sup) (posAfter vs st.pos) := by
  unfold scripts
  rw [M.get_bind, if_neg (by simp [hs])]
  rw [M.bind_ok (C43_limits st vs _ h ha), M.modify_bind, M.get_bind]
  have hcw : isWs c = false := by rcases hc with rfl | rfl <;> rfl
  have e1 : trimStart (w ++ c :: (w' ++ '{' :: s)) = c :: (w' ++ '{' :: s) := by
    rw [trimStart_ws_append hw, trimStart_eq_self]
    intro d r' hd; cases hd; exact hcw
  have e2 : Lex.argument (w' ++ '{' :: s) = .ok (.group g) t := by
    unfold Lex.argument
    rw [show trimStart (w' ++ '{' :: s) = '{' :: s by
      rw [trimStart_ws_append hw', trimStart_eq_self]; intro d r' hd; cases hd; rfl]
    rw [show stripPrefix c!"{" ('{' :: s) = some s from stripPrefix_some.2 rfl]
    dsimp only
    rw [M.bind_ok ((groupContent_ok (k := .normal)).2 hg)]
    rfl
  have hne : t.head? ≠ some '^' := ht.1
  have hne' : t.head? ≠ some '_' := ht.2
  dsimp only
  rw [e1]
  dsimp only
  rw [if_pos (by simpa using hc), M.set_bind]
  rw [M.bind_ok (m := H.argument) (a := .group _) (by unfold H.argument; dsimp only; rw [e2]; rfl)]
  rw [M.bind_ok (m := handleArgument rec _) (a := ⟨⟩) (by unfold handleArgument H.push; rfl)]
  rw [M.get_bind]
  dsimp only
  rcases hc with rfl | rfl
  · rw [if_neg (by simp [hne, hne']), if_neg (by simp [hne, hne'])]
    exact ⟨_, _, rfl, by simp⟩
  · rw [if_neg (by simp [hne, hne']), if_neg (by simp [hne, hne'])]
    exact ⟨_, _, rfl, by simp⟩

/-- In general the event's position is overwritten by an operator in the script: `\limits` is lost. -/
theorem C43_false : (run ⟨true, fun k => 1000000 * k⟩ 20 (State.init c!"\\sum\\limits_\\sum")).1 =
    [.ok (.script .sub .movable), .ok (.content (.largeOp '∑' false)), .ok (.content (.largeOp '∑' false))] := by
  decide +kernel

example : (run ⟨true, fun k => 1000000 * k⟩ 20 (State.init c!"\\int \\nolimits\\limits _x")).1 =
    [.ok (.script .sub .aboveBelow), .ok (.content (.largeOp '∫' false)), .ok (ordinary 'x')] := by decide +kernel

/-- Words are recognised as text, so that a longer control word is cut in two. -/
theorem C43_longer_word : (run ⟨true, fun k => 1000000 * k⟩ 20 (State.init c!"\\sum\\limitsx")).1 =
    [.ok (.content (.largeOp '∑' false)), .ok (ordinary 'x')] := by
  decide +kernel

/-! ## C44: horizontal lines -/

theorem C44_words : lineWords = [(c!"\\hline", .solid), (c!"\\hdashline", .dashed)] := rfl

/-- The lines are exactly the longest sequence of the two words, in order, and nothing else is consumed. -/
theorem C44_lines (s r : Str) (ls : List Line) : horizontalLines s = (ls, r) ↔ WordSeq lineWords s ls r :=
  horizontalLines_of

/-- After a line break (without spacing) the event records them. -/
theorem C44_newline (cf : Cfg) (rec : HTok → H PUnit) (st : HSt) (a : AlignCount) (ls : List Line) (r : Str)
    (ha : st.align = some a) (hh : st.harg = false) (hb : ∀ w t, Spaces w → st.content.cs ≠ w ++ '[' :: t)
    (h : WordSeq lineWords st.content.cs ls r) :
    execPrim cf rec .newline st = .ok ⟨⟩ { st with
      content := { st.content with cs := r }
      buf := st.buf ++ [.ev (.flow (.newLine none ls))]
      align := some { a with count := 0 } } := by
  simp only [execPrim]
  rw [M.get_bind]
  obtain ⟨content, buf, am, pos, skip, harg, align, macros⟩ := st
  subst ha hh
  dsimp only at *
  rw [if_neg (by simp), M.set_bind]
  have ho : Lex.optionalArgument content.cs = .ok none content.cs := by
    unfold Lex.optionalArgument
    have : stripPrefix c!"[" (trimStart content.cs) = none := by
      rw [stripPrefix_none]
      intro t ht
      obtain ⟨w, hw, e⟩ := trimStart_spec content.cs
      exact hb w t hw (by rw [e, ht]; rfl)
    rw [this]
  rw [M.bind_ok (a := none) (s' := ⟨content, buf, am, pos, skip, false, some { a with count := 0 }, macros⟩)
    (by rw [M.bind_ok (m := H.optionalArgument) (a := none) (by unfold H.optionalArgument; dsimp only; rw [ho]; rfl)]; rfl)]
  rw [M.bind_ok (m := H.lexPure horizontalLines) (a := ls)
    (s' := ⟨{ content with cs := r }, buf, am, pos, skip, false, some { a with count := 0 }, macros⟩)
    (by unfold H.lexPure H.lex; dsimp only; rw [horizontalLines_of.2 h])]
  rfl

example : WordSeq lineWords c!"\\hline \\hdashline\\hline x" [.solid, .dashed, .solid] c!" x" :=
  horizontalLines_of.1 (by decide +kernel)

example : (run ⟨true, fun k => 1000000 * k⟩ 30
    (State.init c!"\\begin{array}{c}\\hline \\hdashline a\\\\\\hline\\end{array}")).1 =
    [.ok (.begin_ (.array [.column .center])), .ok (.flow (.startLines [.solid, .dashed])), .ok (ordinary 'a'),
     .ok (.flow (.newLine none [.solid])), .ok .end_] := by decide +kernel

/-- Words are recognised as text, so that a longer control word is cut in two. -/
theorem C44_longer_word : horizontalLines c!"\\hlinewd x" = ([.solid], c!"wd x") := by decide +kernel

/-! ## C45: display of dimensions -/

open PL.Mathml (dimShown Num.scale)

/-- The value and unit shown are those documented, for all units but `mu` and `sp`. -/
theorem C45_units_partial (d : Dim) (hu : d.unit ≠ .mu) (hs : d.unit ≠ .sp) (hd : d.value.den ≠ 0) :
    (dimShown d).2 = (documented d.unit).2.2 ∧ (dimShown d).2 ∈ cssUnits ∧ (dimShown d).1.den ≠ 0 ∧
    (dimShown d).1.num * (d.value.den * (documented d.unit).1 : Nat) =
      d.value.num * (documented d.unit).2.1 * (dimShown d).1.den := by
  obtain ⟨⟨n, m⟩, u⟩ := d
  simp only at hd
  cases u <;> simp only [dimShown, documented, Num.scale, cssUnits] <;>
    first
      | exact absurd rfl hu
      | exact absurd rfl hs
      | (refine ⟨trivial, by decide, by omega, ?_⟩
         push_cast
         try ring)

/-- `mu` is shown with a unit CSS does not know. -/
theorem C45_mu_false (v : Num) : (dimShown ⟨v, .mu⟩).2 = c!"mu" ∧ c!"mu" ∉ cssUnits ∧
    (documented .mu).2.2 = c!"em" := ⟨rfl, by decide, rfl⟩

/-- Of `sp` the length shown is 72 times the one documented: the table says that `65536 * 72.27 sp` are `1 pt`. -/
theorem C45_sp_false : (dimShown ⟨⟨65536 * 7227, 100⟩, .sp⟩).1 = ⟨65536 * 7227 * 7200, 100 * (65536 * 7227)⟩ ∧
    (documented .sp).1 = 65536 * 7227 ∧ (documented .sp).2.1 = 100 := ⟨rfl, rfl, rfl⟩

/-- It is the correct length in TeX: `65536 sp` are `1 pt`. -/
theorem C45_sp_consistent (v : Num) : (dimShown ⟨v, .sp⟩).1 = Num.scale v 7200 (65536 * 7227) ∧
    (dimShown ⟨v, .pt⟩).1 = Num.scale v 7200 7227 := ⟨rfl, rfl⟩

example : dimShown ⟨⟨5, 2⟩, .pt⟩ = (⟨5 * 7200, 2 * 7227⟩, c!"pt") := rfl

end PL.Props
