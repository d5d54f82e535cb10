import Verif.Lemmas.Render.Writer
import Verif.Spec.Alphabets
set_option autoImplicit false
/-!
# Fonts and styles of letters (C37, C38)
-/
namespace PL.Props
open PL PL.Mathml Spec

/-! ## C37: mathematical alphabets -/

def allFonts : List Font := [.boldScript, .boldItalic, .bold, .boldSymbol, .fraktur, .script, .monospace, .sansSerif,
  .doubleStruck, .doubleStruckItalic, .italic, .boldFraktur, .sansSerifBoldItalic, .sansSerifItalic, .boldSansSerif,
  .upRight]

theorem mem_allFonts (f : Font) : f ∈ allFonts := by cases f <;> decide

/-- Digits, Latin letters, Greek letters and the two operators that have styled forms. -/
def styled (n : Nat) : Bool :=
  (0x30 ≤ n && n ≤ 0x39) || (0x41 ≤ n && n ≤ 0x7A) || (0x391 ≤ n && n ≤ 0x3F5) || (0x2202 ≤ n && n ≤ 0x2207)

def styledCodes : List Nat := List.range' 0x30 10 ++ List.range' 0x41 58 ++ List.range' 0x391 101 ++ List.range' 0x2202 6

theorem mem_styledCodes {n : Nat} (h : styled n = true) : n ∈ styledCodes := by
  simp only [styled, Bool.or_eq_true, Bool.and_eq_true, decide_eq_true_eq] at h
  simp only [styledCodes, List.mem_append, List.mem_range'_1]
  omega

theorem offset_unstyled (f : Font) (n : Nat) (h : styled n = false) : fontOffset f n fontArms = 0 := by
  have key : ∀ arms : List (Font × Nat × Nat × Nat), (∀ a ∈ arms, ∀ m, a.2.1 ≤ m → m ≤ a.2.2.1 → styled m = true) →
      fontOffset f n arms = 0 := by
    intro arms
    induction arms with
    | nil => intro _; rfl
    | cons a arms ih =>
      obtain ⟨g, lo, hi, off⟩ := a
      intro ha
      rw [fontOffset, ih (fun a h => ha a (by simp [h]))]
      split
      · rename_i hc
        simp only [Bool.and_eq_true, decide_eq_true_eq] at hc
        rw [ha (g, lo, hi, off) (by simp) n hc.2.1 hc.2.2] at h; cases h
      · rfl
  apply key
  have hb : ∀ a ∈ fontArms, (0x30 ≤ a.2.1 ∧ a.2.2.1 ≤ 0x39) ∨ (0x41 ≤ a.2.1 ∧ a.2.2.1 ≤ 0x7A) ∨
      (0x391 ≤ a.2.1 ∧ a.2.2.1 ≤ 0x3F5) ∨ (0x2202 ≤ a.2.1 ∧ a.2.2.1 ≤ 0x2207) := by decide +kernel
  intro a ha m h1 h2
  have := hb a ha
  simp only [styled, Bool.or_eq_true, Bool.and_eq_true, decide_eq_true_eq]
  omega

theorem mathCode_unstyled (f : Font) (n : Nat) (h : styled n = false) : mathCode f n = n := by
  have hl : latinPlace n = none := by
    simp only [styled, Bool.or_eq_false_iff, Bool.and_eq_false_iff, decide_eq_false_iff_not] at h
    unfold latinPlace; rw [if_neg (by omega), if_neg (by omega)]
  have hg : greekPlace n = none := by
    simp only [styled, Bool.or_eq_false_iff, Bool.and_eq_false_iff, decide_eq_false_iff_not] at h
    unfold greekPlace
    repeat rw [if_neg (by omega)]
  have hd : digitPlace n = none := by
    simp only [styled, Bool.or_eq_false_iff, Bool.and_eq_false_iff, decide_eq_false_iff_not] at h
    unfold digitPlace; rw [if_neg (by omega)]
  have hf : (letterlike f).find? (fun x => x.1 = n) = none := by
    rw [List.find?_eq_none]
    have : ∀ f ∈ allFonts, ∀ x ∈ letterlike f, styled x.1 = true := by decide +kernel
    intro x hx hc
    simp only [decide_eq_true_eq] at hc
    have := this f (mem_allFonts f) x hx
    rw [hc, h] at this; cases this
  unfold mathCode
  rw [hf, hl, hg, hd]
  cases latinBase f <;> cases greekBase f <;> cases digitBase f <;> rfl

/-- The code points where the code differs from Unicode. -/
def wrongCode (f : Font) (n : Nat) : Bool :=
  (f = .fraktur && n = 0x49) || (f = .sansSerifItalic && (0x41 ≤ n && n ≤ 0x5A)) || (f = .bold && (n = 0x3DC || n = 0x3DD))

/-- Only the arms of the font matter. -/
theorem fontOffset_filter (f : Font) (n : Nat) (arms : List (Font × Nat × Nat × Nat)) :
    fontOffset f n arms = fontOffset f n (arms.filter fun a => a.1 = f) := by
  induction arms with
  | nil => rfl
  | cons a arms ih =>
    obtain ⟨g, lo, hi, off⟩ := a
    by_cases hg : g = f
    · rw [List.filter_cons_of_pos (by simpa using hg), fontOffset, fontOffset, ih]
    · rw [List.filter_cons_of_neg (by simpa using hg), fontOffset, ih]
      simp [hg]

theorem offset_styled (f : Font) (n : Nat) (h : styled n = true) : (wrongCode f n = true ∨
    n + fontOffset f n fontArms = mathCode f n) ∧
    (n + fontOffset f n fontArms < 0xD800 ∨ 0xDFFF < n + fontOffset f n fontArms ∧ n + fontOffset f n fontArms < 0x110000) := by
  have key : (allFonts.all fun f => styledCodes.all fun n =>
      (wrongCode f n || n + fontOffset f n (fontArms.filter fun a => a.1 = f) == mathCode f n) &&
      (Nat.blt (n + fontOffset f n (fontArms.filter fun a => a.1 = f)) 0xD800 ||
        (Nat.blt 0xDFFF (n + fontOffset f n (fontArms.filter fun a => a.1 = f)) &&
         Nat.blt (n + fontOffset f n (fontArms.filter fun a => a.1 = f)) 0x110000))) = true := by decide +kernel
  have := List.all_eq_true.1 (List.all_eq_true.1 key f (mem_allFonts f)) n (mem_styledCodes h)
  rw [fontOffset_filter f n fontArms]
  simp [Nat.blt] at this
  exact ⟨this.1, by omega⟩

theorem fontCode_valid (f : Font) (c : Char) : (fontCode f c).isValidChar := by
  unfold fontCode
  cases hs : styled c.toNat with
  | false => rw [offset_unstyled f _ hs]; exact c.valid
  | true => exact (offset_styled f _ hs).2

/-- Every character in every font is mapped to the code point Unicode assigns, except for the capital I in Fraktur, the
capitals in italic sans serif, and the bold digamma. Missing: those are mapped wrongly, see `C37_false`. -/
theorem C37_alphabets_partial (f : Font) (c : Char) (h : wrongCode f c.toNat = false) :
    (f.mapChar c).map Char.toNat = some (mathCode f c.toNat) := by
  have hn : fontCode f c = mathCode f c.toNat := by
    unfold fontCode
    cases hs : styled c.toNat with
    | false => rw [offset_unstyled f _ hs, mathCode_unstyled f _ hs]; rfl
    | true => exact (offset_styled f _ hs).1.resolve_left (by rw [h]; decide)
  have hv := fontCode_valid f c
  unfold Font.mapChar
  simp only
  rw [dif_pos hv, ← hn]
  rfl

/-- No character in any font fails to be mapped. -/
theorem C37_total (f : Font) (c : Char) : ∃ d, f.mapChar c = some d := by
  have hv := fontCode_valid f c
  unfold Font.mapChar
  simp only
  rw [dif_pos hv]
  exact ⟨_, rfl⟩

/-- Characters other than letters, Greek letters, digits, nabla and the partial differential are unchanged. -/
theorem C37_unchanged (f : Font) (c : Char) (hl : latinPlace c.toNat = none) (hg : greekPlace c.toNat = none)
    (hd : digitPlace c.toNat = none) (h : c.toNat ≠ 0x3DC ∧ c.toNat ≠ 0x3DD) : f.mapChar c = some c := by
  have hw : wrongCode f c.toNat = false := by
    have : ¬ (0x41 ≤ c.toNat ∧ c.toNat ≤ 0x5A) := by
      intro hh; unfold latinPlace at hl; rw [if_pos hh] at hl; cases hl
    simp only [wrongCode, Bool.or_eq_false_iff, Bool.and_eq_false_iff, decide_eq_false_iff_not]
    omega
  have := C37_alphabets_partial f c hw
  have hm : mathCode f c.toNat = c.toNat := by
    unfold mathCode
    have hf : (letterlike f).find? (fun x => x.1 = c.toNat) = none := by
      rw [List.find?_eq_none]
      have hall : ∀ f ∈ allFonts, ∀ x ∈ letterlike f, latinPlace x.1 ≠ none ∨ x.1 = 0x3DC ∨ x.1 = 0x3DD := by decide +kernel
      intro x hx hc
      simp only [decide_eq_true_eq] at hc
      rcases hall f (mem_allFonts f) x hx with h1 | h1 | h1
      · rw [hc] at h1; exact h1 hl
      · exact h.1 (hc ▸ h1)
      · exact h.2 (hc ▸ h1)
    rw [hf, hl, hg, hd]
    cases latinBase f <;> cases greekBase f <;> cases digitBase f <;> rfl
  rw [hm] at this
  cases hc : f.mapChar c with
  | none => rw [hc] at this; cases this
  | some d =>
    rw [hc] at this
    simp only [Option.map_some, Option.some.injEq] at this
    rw [Char.toNat_inj.1 this]

/-- The Latin and Greek letters. -/
def letterCodes : List Nat := List.range' 0x41 26 ++ List.range' 0x61 26 ++ List.range' 0x391 17 ++ List.range' 0x3A3 7 ++
  List.range' 0x3B1 25

def noDup : List Nat → Bool
  | [] => true
  | a :: l => l.all (· != a) && noDup l

theorem noDup_inj : ∀ (l : List Nat) (g : Nat → Nat), noDup (l.map g) = true → ∀ a ∈ l, ∀ b ∈ l, g a = g b → a = b
  | [], _, _ => by simp
  | x :: l, g, h => by
    simp only [List.map_cons, noDup, Bool.and_eq_true, List.all_eq_true, bne_iff_ne, List.mem_map,
      forall_exists_index, and_imp] at h
    have ih := noDup_inj l g h.2
    intro a ha b hb hab
    rcases List.mem_cons.1 ha with rfl | ha
    · rcases List.mem_cons.1 hb with rfl | hb
      · rfl
      · exact absurd hab.symm (h.1 _ b hb rfl)
    · rcases List.mem_cons.1 hb with rfl | hb
      · exact absurd hab (h.1 _ a (by assumption) rfl)
      · exact ih a ha b hb hab

/-- Different letters stay different in every font but italic sans serif. -/
theorem C37_injective_partial (f : Font) (hf : f ≠ .sansSerifItalic) (c d : Char) (hc : c.toNat ∈ letterCodes)
    (hd : d.toNat ∈ letterCodes) (h : f.mapChar c = f.mapChar d) : c = d := by
  have key : ∀ f ∈ allFonts, f ≠ .sansSerifItalic →
      noDup (letterCodes.map fun n => n + fontOffset f n (fontArms.filter fun a => a.1 = f)) = true := by
    decide +kernel
  have hcode : ∀ c d : Char, f.mapChar c = some d → d.toNat = fontCode f c := by
    intro c d h
    unfold Font.mapChar at h
    simp only at h
    split at h
    · cases h; rfl
    · cases h
  obtain ⟨x, hx⟩ := C37_total f c
  have h1 := hcode c x hx
  have h2 := hcode d x (h ▸ hx)
  have h3 : fontCode f c = fontCode f d := h1.symm.trans h2
  unfold fontCode at h3
  rw [fontOffset_filter f _ fontArms, fontOffset_filter f d.toNat fontArms] at h3
  exact Char.toNat_inj.1 (noDup_inj _ _ (key f (mem_allFonts f) hf) _ hc _ hd h3)

/-- The wrong entries: Fraktur I becomes the double-struck H, the bold digammas leave their block, italic sans serif
capitals are 16 code points too high, so that K and a coincide. -/
theorem C37_false :
    Font.mapChar .fraktur 'I' = some 'ℍ' ∧ mathCode .fraktur 'I'.toNat = 0x2111 ∧
    (Font.mapChar .bold 'Ϝ').map Char.toNat = some 0x1DBA6 ∧ mathCode .bold 'Ϝ'.toNat = 0x1D7CA ∧
    (Font.mapChar .bold 'ϝ').map Char.toNat = some 0x1DBA7 ∧ mathCode .bold 'ϝ'.toNat = 0x1D7CB ∧
    (∀ n ∈ List.range' 0x41 26, n + fontOffset .sansSerifItalic n fontArms = mathCode .sansSerifItalic n + 16) ∧
    Font.mapChar .sansSerifItalic 'K' = Font.mapChar .sansSerifItalic 'a' := by decide +kernel

/-! ## C38: styles of letters -/

/-- The four ranges of the documentation. -/
inductive LetterKind where
  | lowerLatin | upperLatin | lowerGreek | upperGreek
  deriving DecidableEq

def LetterKind.Has : LetterKind → Nat → Prop
  | .lowerLatin, n => 0x61 ≤ n ∧ n ≤ 0x7A
  | .upperLatin, n => 0x41 ≤ n ∧ n ≤ 0x5A
  | .lowerGreek, n => 0x3B1 ≤ n ∧ n ≤ 0x3C9
  | .upperGreek, n => 0x391 ≤ n ∧ n ≤ 0x3A9 ∧ n ≠ 0x3A2

/-- The table of the documentation: upright or italic. -/
def documented : MathStyle → LetterKind → Bool
  | .tex, .upperGreek => true
  | .tex, _ => false
  | .iso, _ => false
  | .french, .lowerLatin => false
  | .french, _ => true
  | .upright, _ => true

/-- `isUpper` tells capitals of the four ranges from small letters, as `char::is_uppercase` does. -/
def TellsCase (isUpper : Char → Bool) : Prop := ∀ c k, LetterKind.Has k c.toNat →
  isUpper c = (match k with | .upperLatin => true | .upperGreek => true | _ => false)

theorem C38_table (isUpper : Char → Bool) (h : TellsCase isUpper) (style : MathStyle) (kind : LetterKind) (c : Char)
    (hc : kind.Has c.toNat) : shouldBeUpright isUpper style c = documented style kind := by
  have hu := h c kind hc
  cases kind <;> cases style <;> simp only [LetterKind.Has] at hc <;> simp only [shouldBeUpright, documented, hu] <;>
    simp <;> omega

/-- The decision shows in the output: an ordinary character without font carries the attribute exactly if it is to be
upright. -/
theorem C38_output (cfg : RCfg) (h : TellsCase cfg.isUpper) (kind : LetterKind) (c : Char) (hc : kind.Has c.toNat) :
    pushMathml { cfg with annotation := none, xml := false, block := false } [.ok (.content (.ordinary c false))] [] =
      .ok (c!"<math display=\"inline\"><mi" ++
        (if documented cfg.style kind then c!" mathvariant=\"normal\"" else []) ++ c!">" ++ [c] ++ c!"</mi></math>") := by
  have := C38_table cfg.isUpper h cfg.style kind c hc
  cases hd : documented cfg.style kind <;> rw [hd] at this <;>
    simp [pushMathml, render, write, mainLoop, writeEvent, writeContent, this, run_bind, W.get, W.out, W.modify, initSt,
      next, openTag, state, openTagStr, colorAttr, inScriptOperand, stroke, setPrev, closeLoop, pure, W.pure]

end PL.Props
