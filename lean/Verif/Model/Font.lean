import Verif.Model.Event
set_option autoImplicit false
/-!
# Mathematical alphabets

`Font::map_char`, mathml.rs 1328-1485. Generated by `tools/gen_font.py` from the arms of the Rust match.
Do not edit.
-/
namespace PL

/-- The arms of `map_char`: font, first and last code point of a range, offset. A Rust arm with several
ranges gives several entries, in order. -/
def fontArms : List (Font × Nat × Nat × Nat) := [
  (.boldScript, 0x0041, 0x005A, 0x1D48F),
  (.boldScript, 0x0061, 0x007A, 0x1D489),
  (.boldItalic, 0x0041, 0x005A, 0x1D427),
  (.boldItalic, 0x0061, 0x007A, 0x1D421),
  (.boldItalic, 0x0391, 0x03A1, 0x1D38B),
  (.boldItalic, 0x03A3, 0x03A9, 0x1D38B),
  (.boldItalic, 0x03F4, 0x03F4, 0x1D339),
  (.boldItalic, 0x2207, 0x2207, 0x1B52E),
  (.boldItalic, 0x03B1, 0x03C9, 0x1D385),
  (.boldItalic, 0x2202, 0x2202, 0x1B54D),
  (.boldItalic, 0x03F5, 0x03F5, 0x1D35B),
  (.boldItalic, 0x03D1, 0x03D1, 0x1D380),
  (.boldItalic, 0x03F0, 0x03F0, 0x1D362),
  (.boldItalic, 0x03D5, 0x03D5, 0x1D37E),
  (.boldItalic, 0x03F1, 0x03F1, 0x1D363),
  (.boldItalic, 0x03D6, 0x03D6, 0x1D37F),
  (.bold, 0x0041, 0x005A, 0x1D3BF),
  (.bold, 0x0061, 0x007A, 0x1D3B9),
  (.bold, 0x0391, 0x03A1, 0x1D317),
  (.bold, 0x03A3, 0x03A9, 0x1D317),
  (.bold, 0x03F4, 0x03F4, 0x1D2C5),
  (.bold, 0x2207, 0x2207, 0x1B4BA),
  (.bold, 0x03B1, 0x03C9, 0x1D311),
  (.bold, 0x2202, 0x2202, 0x1B4D9),
  (.bold, 0x03F5, 0x03F5, 0x1D2E7),
  (.bold, 0x03D1, 0x03D1, 0x1D30C),
  (.bold, 0x03F0, 0x03F0, 0x1D2EE),
  (.bold, 0x03D5, 0x03D5, 0x1D30A),
  (.bold, 0x03F1, 0x03F1, 0x1D2EF),
  (.bold, 0x03D6, 0x03D6, 0x1D30B),
  (.bold, 0x03DC, 0x03DC, 0x1D7CA),
  (.bold, 0x03DD, 0x03DD, 0x1D7CA),
  (.bold, 0x0030, 0x0039, 0x1D79E),
  (.fraktur, 0x0041, 0x0041, 0x1D4C3),
  (.fraktur, 0x0042, 0x0042, 0x1D4C3),
  (.fraktur, 0x0044, 0x0047, 0x1D4C3),
  (.fraktur, 0x004A, 0x0051, 0x1D4C3),
  (.fraktur, 0x0053, 0x0059, 0x1D4C3),
  (.fraktur, 0x0043, 0x0043, 0x20EA),
  (.fraktur, 0x0048, 0x0048, 0x20C4),
  (.fraktur, 0x0049, 0x0049, 0x20C4),
  (.fraktur, 0x0052, 0x0052, 0x20CA),
  (.fraktur, 0x005A, 0x005A, 0x20CE),
  (.fraktur, 0x0061, 0x007A, 0x1D4BD),
  (.script, 0x0041, 0x0041, 0x1D45B),
  (.script, 0x0043, 0x0043, 0x1D45B),
  (.script, 0x0044, 0x0044, 0x1D45B),
  (.script, 0x0047, 0x0047, 0x1D45B),
  (.script, 0x004A, 0x004A, 0x1D45B),
  (.script, 0x004B, 0x004B, 0x1D45B),
  (.script, 0x004E, 0x0051, 0x1D45B),
  (.script, 0x0053, 0x005A, 0x1D45B),
  (.script, 0x0042, 0x0042, 0x20EA),
  (.script, 0x0045, 0x0045, 0x20EB),
  (.script, 0x0046, 0x0046, 0x20EB),
  (.script, 0x0048, 0x0048, 0x20C3),
  (.script, 0x0049, 0x0049, 0x20C7),
  (.script, 0x004C, 0x004C, 0x20C6),
  (.script, 0x004D, 0x004D, 0x20E6),
  (.script, 0x0052, 0x0052, 0x20C9),
  (.script, 0x0061, 0x0064, 0x1D455),
  (.script, 0x0066, 0x0066, 0x1D455),
  (.script, 0x0068, 0x006E, 0x1D455),
  (.script, 0x0070, 0x007A, 0x1D455),
  (.script, 0x0065, 0x0065, 0x20CA),
  (.script, 0x0067, 0x0067, 0x20A3),
  (.script, 0x006F, 0x006F, 0x20C5),
  (.monospace, 0x0041, 0x005A, 0x1D62F),
  (.monospace, 0x0061, 0x007A, 0x1D629),
  (.monospace, 0x0030, 0x0039, 0x1D7C6),
  (.sansSerif, 0x0041, 0x005A, 0x1D55F),
  (.sansSerif, 0x0061, 0x007A, 0x1D559),
  (.sansSerif, 0x0030, 0x0039, 0x1D7B2),
  (.doubleStruck, 0x0041, 0x0041, 0x1D4F7),
  (.doubleStruck, 0x0042, 0x0042, 0x1D4F7),
  (.doubleStruck, 0x0044, 0x0047, 0x1D4F7),
  (.doubleStruck, 0x0049, 0x004D, 0x1D4F7),
  (.doubleStruck, 0x004F, 0x004F, 0x1D4F7),
  (.doubleStruck, 0x0053, 0x0059, 0x1D4F7),
  (.doubleStruck, 0x0043, 0x0043, 0x20BF),
  (.doubleStruck, 0x0048, 0x0048, 0x20C5),
  (.doubleStruck, 0x004E, 0x004E, 0x20C7),
  (.doubleStruck, 0x0050, 0x0050, 0x20C9),
  (.doubleStruck, 0x0051, 0x0051, 0x20C9),
  (.doubleStruck, 0x0052, 0x0052, 0x20CB),
  (.doubleStruck, 0x005A, 0x005A, 0x20CA),
  (.doubleStruck, 0x0061, 0x007A, 0x1D4F1),
  (.doubleStruck, 0x0030, 0x0039, 0x1D7A8),
  (.doubleStruckItalic, 0x0044, 0x0044, 0x2101),
  (.doubleStruckItalic, 0x0064, 0x0064, 0x20E2),
  (.doubleStruckItalic, 0x0065, 0x0065, 0x20E2),
  (.doubleStruckItalic, 0x0069, 0x0069, 0x20DF),
  (.doubleStruckItalic, 0x006A, 0x006A, 0x20DF),
  (.italic, 0x0041, 0x005A, 0x1D3F3),
  (.italic, 0x0061, 0x0067, 0x1D3ED),
  (.italic, 0x0069, 0x007A, 0x1D3ED),
  (.italic, 0x0068, 0x0068, 0x20A6),
  (.italic, 0x0391, 0x03A1, 0x1D351),
  (.italic, 0x03A3, 0x03A9, 0x1D351),
  (.italic, 0x03F4, 0x03F4, 0x1D2FF),
  (.italic, 0x2207, 0x2207, 0x1B4F4),
  (.italic, 0x03B1, 0x03C9, 0x1D34B),
  (.italic, 0x2202, 0x2202, 0x1B513),
  (.italic, 0x03F5, 0x03F5, 0x1D321),
  (.italic, 0x03D1, 0x03D1, 0x1D346),
  (.italic, 0x03F0, 0x03F0, 0x1D328),
  (.italic, 0x03D5, 0x03D5, 0x1D344),
  (.italic, 0x03F1, 0x03F1, 0x1D329),
  (.italic, 0x03D6, 0x03D6, 0x1D345),
  (.boldFraktur, 0x0041, 0x005A, 0x1D52B),
  (.boldFraktur, 0x0061, 0x007A, 0x1D525),
  (.sansSerifBoldItalic, 0x0041, 0x005A, 0x1D5FB),
  (.sansSerifBoldItalic, 0x0061, 0x007A, 0x1D5F5),
  (.sansSerifBoldItalic, 0x0391, 0x03A1, 0x1D3FF),
  (.sansSerifBoldItalic, 0x03A3, 0x03A9, 0x1D3FF),
  (.sansSerifBoldItalic, 0x03F4, 0x03F4, 0x1D3AD),
  (.sansSerifBoldItalic, 0x2207, 0x2207, 0x1B5A2),
  (.sansSerifBoldItalic, 0x03B1, 0x03C9, 0x1D3F9),
  (.sansSerifBoldItalic, 0x2202, 0x2202, 0x1B5C1),
  (.sansSerifBoldItalic, 0x03F5, 0x03F5, 0x1D3CF),
  (.sansSerifBoldItalic, 0x03D1, 0x03D1, 0x1D3F4),
  (.sansSerifBoldItalic, 0x03F0, 0x03F0, 0x1D3D6),
  (.sansSerifBoldItalic, 0x03D5, 0x03D5, 0x1D3F2),
  (.sansSerifBoldItalic, 0x03F1, 0x03F1, 0x1D3D7),
  (.sansSerifBoldItalic, 0x03D6, 0x03D6, 0x1D3F3),
  (.sansSerifItalic, 0x0041, 0x005A, 0x1D5D7),
  (.sansSerifItalic, 0x0061, 0x007A, 0x1D5C1),
  (.boldSansSerif, 0x0041, 0x005A, 0x1D593),
  (.boldSansSerif, 0x0061, 0x007A, 0x1D58D),
  (.boldSansSerif, 0x0391, 0x03A1, 0x1D3C5),
  (.boldSansSerif, 0x03A3, 0x03A9, 0x1D3C5),
  (.boldSansSerif, 0x03F4, 0x03F4, 0x1D373),
  (.boldSansSerif, 0x2207, 0x2207, 0x1B568),
  (.boldSansSerif, 0x03B1, 0x03C9, 0x1D3BF),
  (.boldSansSerif, 0x2202, 0x2202, 0x1B587),
  (.boldSansSerif, 0x03F5, 0x03F5, 0x1D395),
  (.boldSansSerif, 0x03D1, 0x03D1, 0x1D3BA),
  (.boldSansSerif, 0x03F0, 0x03F0, 0x1D39C),
  (.boldSansSerif, 0x03D5, 0x03D5, 0x1D3B8),
  (.boldSansSerif, 0x03F1, 0x03F1, 0x1D39D),
  (.boldSansSerif, 0x03D6, 0x03D6, 0x1D3B9),
  (.boldSansSerif, 0x0030, 0x0039, 0x1D7BC)]

/-- First matching arm. -/
def fontOffset (f : Font) (n : Nat) : List (Font × Nat × Nat × Nat) → Nat
  | [] => 0
  | (g, lo, hi, off) :: more => if g = f && (lo ≤ n && n ≤ hi) then off else fontOffset f n more

/-- The `u32` given to `char::from_u32`, mathml.rs 1331-1483 -/
def fontCode (f : Font) (c : Char) : Nat := c.toNat + fontOffset f c.toNat fontArms

/-- `Font::map_char`, mathml.rs 1330-1485; `none` models the failing `expect`. -/
def Font.mapChar (f : Font) (c : Char) : Option Char :=
  let n := fontCode f c
  if h : n.isValidChar then some (Char.ofNatAux n h) else none

end PL
