import Verif.Spec.Characters
import Verif.Props.Plain
import Verif.Props.Fonts
set_option autoImplicit false
/-!
# Classes of characters and named symbols (C50, C52)
-/
namespace PL.Props
open PL PL.Lex Spec PL.H

theorem ascii_event {c : Char} (h : c.toNat < 128) (hs : special c = false) : plainCharEvent c = asciiEvent c := by
  have hall : ∀ n : Fin 128, special (Char.ofNat n) = false → plainCharEvent (Char.ofNat n) = asciiEvent (Char.ofNat n) := by decide +kernel
  have := hall ⟨c.toNat, h⟩
  simp only [Char.ofNat_toNat] at this
  exact this hs

theorem plainText_special {inp : Str} {xs : List Char} (h : PlainText inp xs) : ∀ x ∈ xs, special x = false := by
  induction h with
  | stop _ => intro x hx; cases hx
  | char _ h1 _ ih =>
    intro x hx
    rcases List.mem_cons.1 hx with rfl | hx
    · exact h1
    · exact ih x hx

/-- Printable ASCII characters without special meaning yield one event each, of the class the specification lists. -/
theorem C50_ascii (cf : Cfg) (inp : Str) (xs : List Char) (h : PlainText inp xs) (ha : ∀ x ∈ xs, x.toNat < 128) :
    Yields cf inp (xs.map fun x => .ok (asciiEvent x)) := by
  have e : xs.map (fun x => Item.ok (plainCharEvent x)) = xs.map fun x => .ok (asciiEvent x) :=
    List.map_congr_left fun x hx => by rw [ascii_event (ha x hx) (plainText_special h x hx)]
  rw [← e]
  exact C26_plain cf inp xs h

theorem plainChar_shows (c : Char) : ShowsChar (plainCharEvent c) (shownAs c) := by
  unfold plainCharEvent shownAs
  by_cases h1 : c = '.' ∨ c = ',' ∨ c = ';'
  · rcases h1 with rfl | rfl | rfl <;> exact .punctuation
  · rw [if_neg (by simpa [or_assoc] using h1)]
    by_cases h2 : c = '\''
    · rw [if_pos h2, if_pos h2]; exact .ordinary
    rw [if_neg h2, if_neg h2]
    by_cases h3 : c = '-'
    · rw [if_pos h3, if_pos h3]; exact .binary
    rw [if_neg h3, if_neg h3]
    by_cases h4 : c = '*'
    · rw [if_pos h4, if_pos h4]; exact .binary
    rw [if_neg h4, if_neg h4]
    split
    · exact .binary
    split
    · exact .relation
    split
    · rename_i d ty hd
      unfold charDelimiterMap at hd
      obtain ⟨t, _, ht⟩ := Option.map_eq_some_iff.1 hd
      cases ht
      split
      · exact .ordinary
      · exact .delimiter
    · exact .ordinary

/-- Every character without special meaning, ASCII or not, yields one event that shows it: itself, or the prime, the minus sign and the asterisk
operator for three ASCII characters. -/
theorem C50_shows (cf : Cfg) (inp : Str) (xs : List Char) (h : PlainText inp xs) : ∃ es : List Event, Yields cf inp (es.map .ok) ∧
    es.length = xs.length ∧ ∀ (i : Nat) (e : Event) (x : Char), es[i]? = some e → xs[i]? = some x → ShowsChar e (shownAs x) := by
  refine ⟨xs.map plainCharEvent, ?_, by simp, ?_⟩
  · rw [List.map_map]
    exact C26_plain cf inp xs h
  · intro i e x he hx
    rw [List.getElem?_map, hx] at he
    cases he
    exact plainChar_shows x

/-- A character is not both a binary operator and a relation, and those of either kind beyond ASCII lie from U+00B1 to U+2BFF; so all letters and digits of
other scripts, and the mathematical alphabets, are ordinary. -/
theorem C50_ordinary (cf : Cfg) (inp : Str) (xs : List Char) (h : PlainText inp xs) (ha : ∀ x ∈ xs, 0x2C00 ≤ x.toNat ∨ 0xF8 ≤ x.toNat ∧ x.toNat < 0x2000) :
    Yields cf inp (xs.map fun x => .ok (.content (.ordinary x false))) := by
  have e : xs.map (fun x => Item.ok (plainCharEvent x)) = xs.map fun x => .ok (.content (.ordinary x false)) := by
    refine List.map_congr_left fun x hx => ?_
    have hx := ha x hx
    have hr : ∀ l : List (Nat × Nat), (l.all fun (a, b) => (0x2000 ≤ a || b < 0xF8) && b < 0x2C00) = true → inRanges l x.toNat = false := by
      intro l hl
      unfold inRanges
      rw [List.any_eq_false]
      rintro ⟨a, b⟩ hab
      have := List.all_eq_true.1 hl _ hab
      simp at this ⊢
      omega
    have hne : ∀ d : Char, (0x2000 ≤ d.toNat ∨ d.toNat < 0xF8) → d.toNat < 0x2C00 → x ≠ d := by rintro d h1 h2 rfl; omega
    unfold plainCharEvent
    rw [if_neg (by simp [hne '.' (by decide) (by decide), hne ',' (by decide) (by decide), hne ';' (by decide) (by decide)]),
      if_neg (hne _ (by decide) (by decide)), if_neg (hne _ (by decide) (by decide)), if_neg (hne _ (by decide) (by decide))]
    rw [show isBinary x = false from hr _ (by decide +kernel), show isRelation x = false from hr _ (by decide +kernel)]
    have : charDelimiterMap x = none := by
      unfold charDelimiterMap
      rw [Option.map_eq_none_iff]
      cases hl : charDelimiters.lookup x with
      | none => rfl
      | some t =>
        have hm := mem_of_lookup hl
        have ht : (charDelimiters.all fun p => (0x2000 ≤ p.1.toNat || p.1.toNat < 0xF8) && p.1.toNat < 0x2C00) = true := by decide +kernel
        have := List.all_eq_true.1 ht _ hm
        simp at this
        omega
    rw [this]
    rfl
  rw [← e]
  exact C26_plain cf inp xs h

/-- The command emits the event and does nothing else. -/
def Emits (name : Str) (e : Event) : Prop := ∀ (cf : Cfg) (k : Nat) (s : HSt),
  handleToken cf (k + 1) (.cs name) s = .ok ⟨⟩ { s with buf := s.buf ++ [.ev e] }

theorem emits_ord {name : Str} {c : Char} (h : primOf name = .ord c) : Emits name (.content (.ordinary c false)) := by
  intro cf k s
  show execPrim cf (handleToken cf k) (primOf name) s = _
  rw [h]
  rfl

/-- The commands named after the Greek letters emit the letters of the Unicode block, in order. What is missing: `\mu`, see `C52_false`. -/
theorem C52_greek_partial (i : Nat) (name : Str) (hmu : name ≠ c!"mu") :
    (greekNames[i]? = some (some name) → Emits name (.content (.ordinary (Char.ofNat (0x3B1 + i)) false))) ∧
    (upperGreekNames[i]? = some (some name) → Emits name (.content (.ordinary (Char.ofNat (0x391 + i)) false))) := by
  have key : ∀ (l : List (Option Str)) (b : Nat),
      (l.zipIdx.all fun (x, i) => match x with | some n => n == c!"mu" || primOf n == .ord (Char.ofNat (b + i)) | none => true) = true →
      l[i]? = some (some name) → Emits name (.content (.ordinary (Char.ofNat (b + i)) false)) := by
    intro l b h hi
    have hm : (some name, i) ∈ l.zipIdx := by
      rw [List.mem_zipIdx_iff_getElem?]
      exact hi
    have := List.all_eq_true.1 h _ hm
    simp only [Bool.or_eq_true, beq_iff_eq] at this
    exact emits_ord (this.resolve_left hmu)
  exact ⟨key _ _ (by decide +kernel), key _ _ (by decide +kernel)⟩

/-- `\mu` emits the micro sign U+00B5 instead of the letter mu U+03BC. No font has a styled form of the micro sign, so it is always upright, whereas the letter
has one in the bold, italic and bold italic fonts. -/
theorem C52_false : greekNames[11]? = some (some c!"mu") ∧ Emits c!"mu" (.content (.ordinary (Char.ofNat 0xB5) false)) ∧
    Char.ofNat (0x3B1 + 11) = Char.ofNat 0x3BC ∧ (∀ f : Font, f.mapChar (Char.ofNat 0xB5) = some (Char.ofNat 0xB5)) ∧
    [Font.bold, Font.italic, Font.boldItalic].map (fun f => (f.mapChar (Char.ofNat 0x3BC)).map Char.toNat) = [some 0x1D6CD, some 0x1D707, some 0x1D741] :=
  ⟨rfl, emits_ord (by decide +kernel), rfl,
    fun f => C37_unchanged f _ (by decide) (by decide) (by decide) (by decide), by decide +kernel⟩

/-- `\Game` emits the Hebrew letter gimel U+2137 instead of the turned sans-serif capital G U+2141: it cannot be told from `\gimel`. -/
theorem C52_game_false : Emits c!"Game" (.content (.ordinary (Char.ofNat 0x2137) false)) ∧ Emits c!"gimel" (.content (.ordinary (Char.ofNat 0x2137) false)) :=
  ⟨emits_ord (by decide +kernel), emits_ord (by decide +kernel)⟩

/-- The documented synonyms are interchangeable, in every state. -/
theorem C50_synonyms (a b : Str) (h : (a, b) ∈ synonyms) (cf : Cfg) (k : Nat) (s : HSt) : handleToken cf k (.cs a) s = handleToken cf k (.cs b) s := by
  have ht : (synonyms.all fun p => primOf p.1 == primOf p.2 && primOf p.1 != .unknown) = true := by decide +kernel
  have := List.all_eq_true.1 ht _ h
  simp only [Bool.and_eq_true, beq_iff_eq] at this
  cases k with
  | zero => rfl
  | succ k =>
    show execPrim cf (handleToken cf k) (primOf a) s = execPrim cf (handleToken cf k) (primOf b) s
    rw [this.1]

/-- The named operators show their own name; those with limits also let the scripts after them be limits, and the others leave them. -/
theorem C50_operators (cf : Cfg) (k : Nat) (s : HSt) (name : Str) (h : name ∈ operatorNames) :
    handleToken cf (k + 1) (.cs name) s = .ok ⟨⟩ (if name ∈ limitNames then
      { s with buf := s.buf ++ [.ev (.content (.function name))], allowMods := true, pos := .movable }
      else { s with buf := s.buf ++ [.ev (.content (.function name))] }) := by
  have ht : (operatorNames.all fun n => primOf n == if n ∈ limitNames then .funcMov n else .func n) = true := by decide +kernel
  have := List.all_eq_true.1 ht _ h
  show execPrim cf (handleToken cf k) (primOf name) s = _
  rw [beq_iff_eq.1 this]
  split <;> rfl

/-- The named delimiters open and close as their names say. -/
theorem C50_delimiters (a b : Str) (x y : Char) (h : ((a, x), b, y) ∈ delimiterPairs) :
    Emits a (.content (.delimiter x none .open_)) ∧ Emits b (.content (.delimiter y none .close)) := by
  have ht : (delimiterPairs.all fun p => primOf p.1.1 == .delim p.1.2 .open_ && primOf p.2.1 == .delim p.2.2 .close) = true := by decide +kernel
  have := List.all_eq_true.1 ht _ h
  simp only [Bool.and_eq_true, beq_iff_eq] at this
  obtain ⟨h1, h2⟩ := this
  constructor <;> intro cf k s
  · show execPrim cf (handleToken cf k) (primOf a) s = _
    rw [h1]; rfl
  · show execPrim cf (handleToken cf k) (primOf b) s = _
    rw [h2]; rfl

/-- Cases of them. -/
example : PlainText c!"x-y*'" ['x', '-', 'y', '*', '\''] ∧ (run cf0 60 (State.init c!"x-y*'")).1 =
    [.ok (ordinary 'x'), .ok (binary '−'), .ok (ordinary 'y'), .ok (binary '∗'), .ok (ordinary '′')] :=
  ⟨.char (k := []) .nil (by decide) (.char (k := []) .nil (by decide) (.char (k := []) .nil (by decide) (.char (k := []) .nil (by decide)
    (.char (k := []) .nil (by decide) (.stop (.blank .nil)))))), by decide +kernel⟩
example : greekNames[10]? = some (some c!"lambda") ∧ Char.ofNat (0x3B1 + 10) = 'λ' := ⟨rfl, by decide⟩

end PL.Props
