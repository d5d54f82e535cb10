import Verif.Spec.Text
import Verif.Model.Event
set_option autoImplicit false
/-!
# Specifications of numbers, dimensions, colours and small syntax

On source text only.
-/
namespace PL.Spec

/-- The value of a decimal numeral, least significant digit first. -/
def valueRev : Str → Nat
  | [] => 0
  | c :: s => (c.toNat - 48) + 10 * valueRev s

/-- The value of a decimal numeral. -/
def decValue (s : Str) : Nat := valueRev s.reverse

/-- Digits, dots and commas. -/
def NumeralChar (c : Char) : Prop := isDigit c = true ∨ c = '.' ∨ c = ','

/-- `NumberLit s lit r`: the number literal at the start of `s` is `lit`, followed by `r`. The run of digits, dots
and commas is as long as possible; if it ends in a dot or comma, that last one is left out. -/
inductive NumberLit : Str → Str → Str → Prop
  | whole {lit r} {c : Char} : (∀ d ∈ lit ++ [c], NumeralChar d) → isDigit c = true →
      (∀ d r', r = d :: r' → ¬ NumeralChar d) → NumberLit (lit ++ c :: r) (lit ++ [c]) r
  | sep {lit r} {c : Char} : lit ≠ [] → (∀ d ∈ lit, NumeralChar d) → c = '.' ∨ c = ',' →
      (∀ d r', r = d :: r' → ¬ NumeralChar d) → NumberLit (lit ++ c :: r) lit (c :: r)

/-- The name of a unit in the source. -/
def unitName : Unit_ → Str
  | .em => c!"em"
  | .mu => c!"mu"
  | .ex => c!"ex"
  | .pt => c!"pt"
  | .pc => c!"pc"
  | .in_ => c!"in"
  | .bp => c!"bp"
  | .cm => c!"cm"
  | .mm => c!"mm"
  | .dd => c!"dd"
  | .cc => c!"cc"
  | .sp => c!"sp"

/-- `DimText s neg ip fp u r`: `s` is a run of signs and spaces with an odd number of minus signs iff
`neg`, the digits `ip`, perhaps a separator and the digits `fp`, spaces, and the name of the unit `u`;
`r` follows. -/
inductive DimText : Str → Bool → Str → Str → Unit_ → Str → Prop
  | whole {sg ip w u r} : (∀ c ∈ sg, c = '-' ∨ c = '+' ∨ isWs c = true) → (∀ c ∈ ip, isDigit c = true) →
      Spaces w → DimText (sg ++ ip ++ w ++ unitName u ++ r) (sg.count '-' % 2 = 1) ip [] u r
  | frac {sg ip sep fp w u r} : (∀ c ∈ sg, c = '-' ∨ c = '+' ∨ isWs c = true) → (∀ c ∈ ip, isDigit c = true) →
      sep = '.' ∨ sep = ',' → (∀ c ∈ fp, isDigit c = true) → Spaces w →
      DimText (sg ++ ip ++ sep :: fp ++ w ++ unitName u ++ r) (sg.count '-' % 2 = 1) ip fp u r

/-- At most one whitespace character is skipped. -/
inductive OptSpace : Str → Str → Prop
  | none {r} : (∀ c r', r = c :: r' → isWs c = false) → OptSpace r r
  | one {c r} : isWs c = true → OptSpace (c :: r) r

/-- The value of a hexadecimal digit of either case. -/
def HexDigit (c : Char) (v : Nat) : Prop :=
  (48 ≤ c.toNat ∧ c.toNat ≤ 57 ∧ v = c.toNat - 48) ∨
  (65 ≤ c.toNat ∧ c.toNat ≤ 70 ∧ v = c.toNat - 65 + 10) ∨
  (97 ≤ c.toNat ∧ c.toNat ≤ 102 ∧ v = c.toNat - 97 + 10)

/-- `WordSeq words s vs r`: `s` is a sequence of the given words, each possibly preceded by whitespace, as long
as possible, then `r`; the values of the words are `vs`. -/
inductive WordSeq {α : Type} (words : List (Str × α)) : Str → List α → Str → Prop
  | nil {s} : (∀ w v u t, Spaces w → (u, v) ∈ words → s ≠ w ++ u ++ t) → WordSeq words s [] s
  | cons {w u v s vs r} : Spaces w → (u, v) ∈ words → WordSeq words s vs r → WordSeq words (w ++ u ++ s) (v :: vs) r

/-- The documented conversion (event.rs 739-752): `(a, b, css)` means that `a` of the unit are `b css`. -/
def documented : Unit_ → Nat × Nat × Str
  | .em => (1, 1, c!"em")
  | .mu => (18, 1, c!"em")
  | .ex => (1, 1, c!"ex")
  | .mm => (1, 1, c!"mm")
  | .cm => (1, 1, c!"cm")
  | .in_ => (1, 1, c!"in")
  | .bp => (1, 1, c!"pt")
  | .pt => (7227, 7200, c!"pt")
  | .pc => (7227, 7200, c!"pc")
  | .sp => (65536 * 7227, 100, c!"pt")
  | .dd => (1157 * 7227, 1238 * 7200, c!"pt")
  | .cc => (1157 * 7227, 12 * 1238 * 7200, c!"pt")

/-- Units of length in CSS that the converter may use. -/
def cssUnits : List Str := [c!"em", c!"ex", c!"mm", c!"cm", c!"in", c!"pt", c!"pc", c!"px", c!"ch", c!"rem", c!"Q"]

end PL.Spec
