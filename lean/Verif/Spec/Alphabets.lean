import Verif.Model.Event
set_option autoImplicit false
/-!
# The mathematical alphabets of Unicode

From the code charts "Mathematical Alphanumeric Symbols" (1D400-1D7FF) and "Letterlike Symbols"
(2100-214F): an alphabet of Latin letters is a run of 52 code points, one of Greek letters a run of 58,
one of digits a run of 10. Some letters are encoded among the letterlike symbols instead.
-/
namespace PL.Spec

/-- First code point (capital A) of the Latin alphabets. -/
def latinBase : Font → Option Nat
  | .bold => some 0x1D400
  | .italic => some 0x1D434
  | .boldItalic => some 0x1D468
  | .script => some 0x1D49C
  | .boldScript => some 0x1D4D0
  | .fraktur => some 0x1D504
  | .doubleStruck => some 0x1D538
  | .boldFraktur => some 0x1D56C
  | .sansSerif => some 0x1D5A0
  | .boldSansSerif => some 0x1D5D4
  | .sansSerifItalic => some 0x1D608
  | .sansSerifBoldItalic => some 0x1D63C
  | .monospace => some 0x1D670
  | _ => none

/-- First code point (capital alpha) of the Greek alphabets. -/
def greekBase : Font → Option Nat
  | .bold => some 0x1D6A8
  | .italic => some 0x1D6E2
  | .boldItalic => some 0x1D71C
  | .boldSansSerif => some 0x1D756
  | .sansSerifBoldItalic => some 0x1D790
  | _ => none

/-- First code point (zero) of the digits. -/
def digitBase : Font → Option Nat
  | .bold => some 0x1D7CE
  | .doubleStruck => some 0x1D7D8
  | .sansSerif => some 0x1D7E2
  | .boldSansSerif => some 0x1D7EC
  | .monospace => some 0x1D7F6
  | _ => none

/-- Place of a letter in a Latin alphabet: A-Z, a-z. -/
def latinPlace (n : Nat) : Option Nat :=
  if 0x41 ≤ n ∧ n ≤ 0x5A then some (n - 0x41)
  else if 0x61 ≤ n ∧ n ≤ 0x7A then some (n - 0x61 + 26)
  else none

/-- Place in a Greek alphabet: Α-Ρ, ϴ, Σ-Ω, ∇, α-ω, ∂, ϵ, ϑ, ϰ, ϕ, ϱ, ϖ. -/
def greekPlace (n : Nat) : Option Nat :=
  if 0x391 ≤ n ∧ n ≤ 0x3A1 then some (n - 0x391)
  else if n = 0x3F4 then some 17
  else if 0x3A3 ≤ n ∧ n ≤ 0x3A9 then some (n - 0x3A3 + 18)
  else if n = 0x2207 then some 25
  else if 0x3B1 ≤ n ∧ n ≤ 0x3C9 then some (n - 0x3B1 + 26)
  else if n = 0x2202 then some 51
  else if n = 0x3F5 then some 52
  else if n = 0x3D1 then some 53
  else if n = 0x3F0 then some 54
  else if n = 0x3D5 then some 55
  else if n = 0x3F1 then some 56
  else if n = 0x3D6 then some 57
  else none

def digitPlace (n : Nat) : Option Nat := if 0x30 ≤ n ∧ n ≤ 0x39 then some (n - 0x30) else none

/-- Letters encoded elsewhere: letter and code point. -/
def letterlike : Font → List (Nat × Nat)
  | .italic => [(0x68, 0x210E)]
  | .script => [(0x42, 0x212C), (0x45, 0x2130), (0x46, 0x2131), (0x48, 0x210B), (0x49, 0x2110), (0x4C, 0x2112),
      (0x4D, 0x2133), (0x52, 0x211B), (0x65, 0x212F), (0x67, 0x210A), (0x6F, 0x2134)]
  | .fraktur => [(0x43, 0x212D), (0x48, 0x210C), (0x49, 0x2111), (0x52, 0x211C), (0x5A, 0x2128)]
  | .doubleStruck => [(0x43, 0x2102), (0x48, 0x210D), (0x4E, 0x2115), (0x50, 0x2119), (0x51, 0x211A), (0x52, 0x211D),
      (0x5A, 0x2124)]
  | .doubleStruckItalic => [(0x44, 0x2145), (0x64, 0x2146), (0x65, 0x2147), (0x69, 0x2148), (0x6A, 0x2149)]
  | .bold => [(0x3DC, 0x1D7CA), (0x3DD, 0x1D7CB)]
  | _ => []

/-- Code point of the character `n` in the alphabet of the font; `n` itself when there is none. -/
def mathCode (f : Font) (n : Nat) : Nat :=
  match (letterlike f).find? (fun x => x.1 = n) with
  | some x => x.2
  | none =>
    match latinBase f, latinPlace n with
    | some b, some p => b + p
    | _, _ =>
      match greekBase f, greekPlace n with
      | some b, some p => b + p
      | _, _ =>
        match digitBase f, digitPlace n with
        | some b, some p => b + p
        | _, _ => n

end PL.Spec
