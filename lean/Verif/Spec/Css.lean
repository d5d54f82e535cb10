import Verif.Model.Str
set_option autoImplicit false
/-!
# The named colours of CSS Color Module Level 4

Written down from the CSS specification, independently of the code.
-/
namespace PL.Spec

/-- Named colour and its hexadecimal value `0xRRGGBB`. -/
def cssSpec : List (Str × Nat) := [
  (c!"aliceblue", 0xF0F8FF),
  (c!"antiquewhite", 0xFAEBD7),
  (c!"aqua", 0x00FFFF),
  (c!"aquamarine", 0x7FFFD4),
  (c!"azure", 0xF0FFFF),
  (c!"beige", 0xF5F5DC),
  (c!"bisque", 0xFFE4C4),
  (c!"black", 0x000000),
  (c!"blanchedalmond", 0xFFEBCD),
  (c!"blue", 0x0000FF),
  (c!"blueviolet", 0x8A2BE2),
  (c!"brown", 0xA52A2A),
  (c!"burlywood", 0xDEB887),
  (c!"cadetblue", 0x5F9EA0),
  (c!"chartreuse", 0x7FFF00),
  (c!"chocolate", 0xD2691E),
  (c!"coral", 0xFF7F50),
  (c!"cornflowerblue", 0x6495ED),
  (c!"cornsilk", 0xFFF8DC),
  (c!"crimson", 0xDC143C),
  (c!"cyan", 0x00FFFF),
  (c!"darkblue", 0x00008B),
  (c!"darkcyan", 0x008B8B),
  (c!"darkgoldenrod", 0xB8860B),
  (c!"darkgray", 0xA9A9A9),
  (c!"darkgreen", 0x006400),
  (c!"darkgrey", 0xA9A9A9),
  (c!"darkkhaki", 0xBDB76B),
  (c!"darkmagenta", 0x8B008B),
  (c!"darkolivegreen", 0x556B2F),
  (c!"darkorange", 0xFF8C00),
  (c!"darkorchid", 0x9932CC),
  (c!"darkred", 0x8B0000),
  (c!"darksalmon", 0xE9967A),
  (c!"darkseagreen", 0x8FBC8F),
  (c!"darkslateblue", 0x483D8B),
  (c!"darkslategray", 0x2F4F4F),
  (c!"darkslategrey", 0x2F4F4F),
  (c!"darkturquoise", 0x00CED1),
  (c!"darkviolet", 0x9400D3),
  (c!"deeppink", 0xFF1493),
  (c!"deepskyblue", 0x00BFFF),
  (c!"dimgray", 0x696969),
  (c!"dimgrey", 0x696969),
  (c!"dodgerblue", 0x1E90FF),
  (c!"firebrick", 0xB22222),
  (c!"floralwhite", 0xFFFAF0),
  (c!"forestgreen", 0x228B22),
  (c!"fuchsia", 0xFF00FF),
  (c!"gainsboro", 0xDCDCDC),
  (c!"ghostwhite", 0xF8F8FF),
  (c!"gold", 0xFFD700),
  (c!"goldenrod", 0xDAA520),
  (c!"gray", 0x808080),
  (c!"green", 0x008000),
  (c!"greenyellow", 0xADFF2F),
  (c!"grey", 0x808080),
  (c!"honeydew", 0xF0FFF0),
  (c!"hotpink", 0xFF69B4),
  (c!"indianred", 0xCD5C5C),
  (c!"indigo", 0x4B0082),
  (c!"ivory", 0xFFFFF0),
  (c!"khaki", 0xF0E68C),
  (c!"lavender", 0xE6E6FA),
  (c!"lavenderblush", 0xFFF0F5),
  (c!"lawngreen", 0x7CFC00),
  (c!"lemonchiffon", 0xFFFACD),
  (c!"lightblue", 0xADD8E6),
  (c!"lightcoral", 0xF08080),
  (c!"lightcyan", 0xE0FFFF),
  (c!"lightgoldenrodyellow", 0xFAFAD2),
  (c!"lightgray", 0xD3D3D3),
  (c!"lightgreen", 0x90EE90),
  (c!"lightgrey", 0xD3D3D3),
  (c!"lightpink", 0xFFB6C1),
  (c!"lightsalmon", 0xFFA07A),
  (c!"lightseagreen", 0x20B2AA),
  (c!"lightskyblue", 0x87CEFA),
  (c!"lightslategray", 0x778899),
  (c!"lightslategrey", 0x778899),
  (c!"lightsteelblue", 0xB0C4DE),
  (c!"lightyellow", 0xFFFFE0),
  (c!"lime", 0x00FF00),
  (c!"limegreen", 0x32CD32),
  (c!"linen", 0xFAF0E6),
  (c!"magenta", 0xFF00FF),
  (c!"maroon", 0x800000),
  (c!"mediumaquamarine", 0x66CDAA),
  (c!"mediumblue", 0x0000CD),
  (c!"mediumorchid", 0xBA55D3),
  (c!"mediumpurple", 0x9370DB),
  (c!"mediumseagreen", 0x3CB371),
  (c!"mediumslateblue", 0x7B68EE),
  (c!"mediumspringgreen", 0x00FA9A),
  (c!"mediumturquoise", 0x48D1CC),
  (c!"mediumvioletred", 0xC71585),
  (c!"midnightblue", 0x191970),
  (c!"mintcream", 0xF5FFFA),
  (c!"mistyrose", 0xFFE4E1),
  (c!"moccasin", 0xFFE4B5),
  (c!"navajowhite", 0xFFDEAD),
  (c!"navy", 0x000080),
  (c!"oldlace", 0xFDF5E6),
  (c!"olive", 0x808000),
  (c!"olivedrab", 0x6B8E23),
  (c!"orange", 0xFFA500),
  (c!"orangered", 0xFF4500),
  (c!"orchid", 0xDA70D6),
  (c!"palegoldenrod", 0xEEE8AA),
  (c!"palegreen", 0x98FB98),
  (c!"paleturquoise", 0xAFEEEE),
  (c!"palevioletred", 0xDB7093),
  (c!"papayawhip", 0xFFEFD5),
  (c!"peachpuff", 0xFFDAB9),
  (c!"peru", 0xCD853F),
  (c!"pink", 0xFFC0CB),
  (c!"plum", 0xDDA0DD),
  (c!"powderblue", 0xB0E0E6),
  (c!"purple", 0x800080),
  (c!"rebeccapurple", 0x663399),
  (c!"red", 0xFF0000),
  (c!"rosybrown", 0xBC8F8F),
  (c!"royalblue", 0x4169E1),
  (c!"saddlebrown", 0x8B4513),
  (c!"salmon", 0xFA8072),
  (c!"sandybrown", 0xF4A460),
  (c!"seagreen", 0x2E8B57),
  (c!"seashell", 0xFFF5EE),
  (c!"sienna", 0xA0522D),
  (c!"silver", 0xC0C0C0),
  (c!"skyblue", 0x87CEEB),
  (c!"slateblue", 0x6A5ACD),
  (c!"slategray", 0x708090),
  (c!"slategrey", 0x708090),
  (c!"snow", 0xFFFAFA),
  (c!"springgreen", 0x00FF7F),
  (c!"steelblue", 0x4682B4),
  (c!"tan", 0xD2B48C),
  (c!"teal", 0x008080),
  (c!"thistle", 0xD8BFD8),
  (c!"tomato", 0xFF6347),
  (c!"turquoise", 0x40E0D0),
  (c!"violet", 0xEE82EE),
  (c!"wheat", 0xF5DEB3),
  (c!"white", 0xFFFFFF),
  (c!"whitesmoke", 0xF5F5F5),
  (c!"yellow", 0xFFFF00),
  (c!"yellowgreen", 0x9ACD32)]

/-- `c` is `d` in upper or lower case, for a small ASCII letter `d` (the Kelvin sign is an upper case `k`). -/
def FoldChar (c d : Char) : Prop := c = d ∨ (65 ≤ c.toNat ∧ c.toNat ≤ 90 ∧ d.toNat = c.toNat + 32) ∨
  (c = '\u212A' ∧ d = 'k')

/-- Equal up to case, character by character. -/
inductive CaseFold : Str → Str → Prop
  | nil : CaseFold [] []
  | cons {c d s n} : FoldChar c d → CaseFold s n → CaseFold (c :: s) (d :: n)

end PL.Spec
