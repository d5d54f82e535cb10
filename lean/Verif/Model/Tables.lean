import Verif.Model.Event
set_option autoImplicit false
/-!
# Tables

Generated by `tools/gen_tables.py` from `src/parser/tables.rs`. Sets of characters are written as
sorted ranges of code points.
-/
namespace PL

/-- Membership in a list of closed ranges. -/
def inRanges (rs : List (Nat × Nat)) (n : Nat) : Bool := rs.any fun (a, b) => a ≤ n && n ≤ b

def isBinaryRanges : List (Nat × Nat) := [
  (0x2B, 0x2B), (0x2F, 0x2F), (0x5C, 0x5C), (0xB1, 0xB1), (0xB7, 0xB7), (0xD7, 0xD7),
  (0xF7, 0xF7), (0x2022, 0x2022), (0x2040, 0x2040), (0x2044, 0x2044), (0x204E, 0x204E), (0x2061, 0x2062),
  (0x2213, 0x2219), (0x2227, 0x222A), (0x2238, 0x2238), (0x223E, 0x223E), (0x2240, 0x2240), (0x228C, 0x228E),
  (0x2293, 0x22A1), (0x22B9, 0x22BD), (0x22C4, 0x22C7), (0x22C9, 0x22CC), (0x22CE, 0x22CF), (0x22D2, 0x22D3),
  (0x2305, 0x2306), (0x233D, 0x233D), (0x25B2, 0x25B9), (0x25BC, 0x25C5), (0x25CA, 0x25CB), (0x25E6, 0x25E6),
  (0x25EB, 0x25EC), (0x25F8, 0x25FF), (0x2605, 0x2606), (0x27CE, 0x27CF), (0x27D1, 0x27D1), (0x27E0, 0x27E5),
  (0x29B6, 0x29B9), (0x29C0, 0x29C1), (0x29C4, 0x29C8), (0x29D6, 0x29D7), (0x29E2, 0x29E2), (0x29EB, 0x29EB),
  (0x29F5, 0x29F7), (0x29FA, 0x29FB), (0x29FE, 0x29FF), (0x2A22, 0x2A58), (0x2A71, 0x2A72), (0x2AF4, 0x2AF6),
  (0x2AFB, 0x2AFB), (0x2AFD, 0x2AFE)]

/-- `is_binary`, tables.rs 8-36 -/
def isBinary (c : Char) : Bool := inRanges isBinaryRanges c.toNat

def isRelationRanges : List (Nat × Nat) := [
  (0x3A, 0x3A), (0x3C, 0x3E), (0x2020, 0x2021), (0x204F, 0x2050), (0x2190, 0x21B3), (0x21B6, 0x21B7),
  (0x21BA, 0x21FF), (0x2208, 0x220D), (0x221D, 0x221D), (0x2223, 0x2226), (0x2234, 0x2237), (0x2239, 0x223D),
  (0x2241, 0x228B), (0x228F, 0x2292), (0x22A2, 0x22A3), (0x22A5, 0x22B8), (0x22C8, 0x22C8), (0x22CD, 0x22CD),
  (0x22D0, 0x22D1), (0x22D4, 0x22FF), (0x2322, 0x2323), (0x233F, 0x233F), (0x237C, 0x237C), (0x23B0, 0x23B1),
  (0x27C2, 0x27CB), (0x27CD, 0x27CD), (0x27D2, 0x27D4), (0x27DA, 0x27DF), (0x27F0, 0x27FF), (0x2900, 0x297F),
  (0x29CE, 0x29D5), (0x29DF, 0x29DF), (0x29E1, 0x29E1), (0x29E3, 0x29E6), (0x29F4, 0x29F4), (0x2A59, 0x2A59),
  (0x2A66, 0x2A70), (0x2A73, 0x2AE0), (0x2AE2, 0x2AF0), (0x2AF2, 0x2AF3), (0x2AF7, 0x2AFA), (0x2B00, 0x2B11),
  (0x2B30, 0x2B4C), (0x2B95, 0x2B95)]

/-- `is_relation`, tables.rs 39-108 -/
def isRelation (c : Char) : Bool := inRanges isRelationRanges c.toNat

def charDelimiters : List (Char × DelimType) := [
  ('(', .open_), ('⦇', .open_), ('⟮', .open_), ('[', .open_), ('⟦', .open_), ('⦃', .open_), ('⟨', .open_), ('⟪', .open_), ('⦉', .open_), ('⌊', .open_), ('⌈', .open_), ('┌', .open_), ('└', .open_), ('⎰', .open_),
  (')', .close), ('⦈', .close), ('⟯', .close), (']', .close), ('⟧', .close), ('⦄', .close), ('⟩', .close), ('⟫', .close), ('⦊', .close), ('⌋', .close), ('⌉', .close), ('┐', .close), ('┘', .close), ('⎱', .close),
  ('|', .fence), ('‖', .fence), ('↑', .fence), ('⇑', .fence), ('↓', .fence), ('⇓', .fence), ('↕', .fence), ('⇕', .fence), ('/', .fence)]

/-- `char_delimiter_map`, tables.rs 110-123 -/
def charDelimiterMap (c : Char) : Option (Char × DelimType) :=
  (charDelimiters.lookup c).map fun t => (c, t)

def csDelimiters : List (Str × Char × DelimType) := [
  (c!"lparen", '(', .open_),
  (c!"rparen", ')', .close),
  (c!"llparenthesis", '⦇', .open_),
  (c!"rrparenthesis", '⦈', .close),
  (c!"lgroup", '⟮', .open_),
  (c!"rgroup", '⟯', .close),
  (c!"lbrack", '[', .open_),
  (c!"rbrack", ']', .close),
  (c!"lBrack", '⟦', .open_),
  (c!"rBrack", '⟧', .close),
  (c!"{", '{', .open_),
  (c!"lbrace", '{', .open_),
  (c!"}", '}', .close),
  (c!"rbrace", '}', .close),
  (c!"lBrace", '⦃', .open_),
  (c!"rBrace", '⦄', .close),
  (c!"langle", '⟨', .open_),
  (c!"rangle", '⟩', .close),
  (c!"lAngle", '⟪', .open_),
  (c!"rAngle", '⟫', .close),
  (c!"llangle", '⦉', .open_),
  (c!"rrangle", '⦊', .close),
  (c!"lfloor", '⌊', .open_),
  (c!"rfloor", '⌋', .close),
  (c!"lceil", '⌈', .open_),
  (c!"rceil", '⌉', .close),
  (c!"ulcorner", '┌', .open_),
  (c!"urcorner", '┐', .close),
  (c!"llcorner", '└', .open_),
  (c!"lrcorner", '┘', .close),
  (c!"lmoustache", '⎰', .open_),
  (c!"rmoustache", '⎱', .close),
  (c!"backslash", '\\', .fence),
  (c!"vert", '|', .fence),
  (c!"lvert", '|', .open_),
  (c!"rvert", '|', .close),
  (c!"|", '‖', .fence),
  (c!"Vert", '‖', .fence),
  (c!"lVert", '‖', .open_),
  (c!"rVert", '‖', .close),
  (c!"uparrow", '↑', .fence),
  (c!"Uparrow", '⇑', .fence),
  (c!"downarrow", '↓', .fence),
  (c!"Downarrow", '⇓', .fence),
  (c!"updownarrow", '↕', .fence),
  (c!"Updownarrow", '⇕', .fence)]

/-- `control_sequence_delimiter_map`, tables.rs 126-179 -/
def controlSequenceDelimiterMap (cs : Str) : Option (Char × DelimType) := csDelimiters.lookup cs

def dvipsnames : List (Str × Nat × Nat × Nat) := [
  (c!"Apricot", 251, 185, 130),
  (c!"Aquamarine", 0, 181, 190),
  (c!"Bittersweet", 192, 79, 23),
  (c!"Black", 34, 30, 31),
  (c!"Blue", 45, 47, 146),
  (c!"BlueGreen", 0, 179, 184),
  (c!"BlueViolet", 71, 57, 146),
  (c!"BrickRed", 182, 50, 28),
  (c!"Brown", 121, 37, 0),
  (c!"BurntOrange", 247, 146, 29),
  (c!"CadetBlue", 116, 114, 154),
  (c!"CarnationPink", 242, 130, 180),
  (c!"Cerulean", 0, 162, 227),
  (c!"CornflowerBlue", 65, 176, 228),
  (c!"Cyan", 0, 174, 239),
  (c!"Dandelion", 253, 188, 66),
  (c!"DarkOrchid", 164, 83, 138),
  (c!"Emerald", 0, 169, 157),
  (c!"ForestGreen", 0, 155, 85),
  (c!"Fuchsia", 140, 54, 140),
  (c!"Goldenrod", 255, 223, 66),
  (c!"Gray", 148, 150, 152),
  (c!"Green", 0, 166, 79),
  (c!"GreenYellow", 223, 230, 116),
  (c!"JungleGreen", 0, 169, 154),
  (c!"Lavender", 244, 158, 196),
  (c!"LimeGreen", 141, 199, 62),
  (c!"Magenta", 236, 0, 140),
  (c!"Mahogany", 169, 52, 31),
  (c!"Maroon", 175, 50, 53),
  (c!"Melon", 248, 158, 123),
  (c!"MidnightBlue", 0, 103, 149),
  (c!"Mulberry", 169, 60, 147),
  (c!"NavyBlue", 0, 110, 184),
  (c!"OliveGreen", 60, 128, 49),
  (c!"Orange", 245, 129, 55),
  (c!"OrangeRed", 237, 19, 90),
  (c!"Orchid", 175, 114, 176),
  (c!"Peach", 247, 150, 90),
  (c!"Periwinkle", 121, 119, 184),
  (c!"PineGreen", 0, 139, 114),
  (c!"Plum", 146, 38, 143),
  (c!"ProcessBlue", 0, 176, 240),
  (c!"Purple", 153, 71, 155),
  (c!"RawSienna", 151, 64, 6),
  (c!"Red", 237, 27, 35),
  (c!"RedOrange", 242, 96, 53),
  (c!"RedViolet", 161, 36, 107),
  (c!"Rhodamine", 239, 85, 159),
  (c!"RoyalBlue", 0, 113, 188),
  (c!"RoyalPurple", 97, 63, 153),
  (c!"RubineRed", 237, 1, 125),
  (c!"Salmon", 246, 146, 137),
  (c!"SeaGreen", 63, 188, 157),
  (c!"Sepia", 103, 24, 0),
  (c!"SkyBlue", 70, 197, 221),
  (c!"SpringGreen", 198, 220, 103),
  (c!"Tan", 218, 157, 118),
  (c!"TealBlue", 0, 174, 179),
  (c!"Thistle", 216, 131, 183),
  (c!"Turquoise", 0, 180, 206),
  (c!"Violet", 88, 66, 155),
  (c!"VioletRed", 239, 88, 160),
  (c!"White", 255, 255, 255),
  (c!"WildStrawberry", 238, 41, 103),
  (c!"Yellow", 255, 242, 0),
  (c!"YellowGreen", 152, 204, 112),
  (c!"YellowOrange", 250, 162, 26)]

/-- `dvipsnames_color`, tables.rs 199-271 -/
def dvipsnamesColor (s : Str) : Option (Nat × Nat × Nat) := dvipsnames.lookup s

def cssNames : List (Str × Nat × Nat × Nat) := [
  (c!"aliceblue", 240, 248, 255),
  (c!"antiquewhite", 250, 235, 215),
  (c!"aqua", 0, 255, 255),
  (c!"cyan", 0, 255, 255),
  (c!"aquamarine", 127, 255, 212),
  (c!"azure", 240, 255, 255),
  (c!"beige", 245, 245, 220),
  (c!"bisque", 255, 228, 196),
  (c!"black", 0, 0, 0),
  (c!"blanchedalmond", 255, 235, 205),
  (c!"blue", 0, 0, 255),
  (c!"blueviolet", 138, 43, 226),
  (c!"brown", 165, 42, 42),
  (c!"burlywood", 222, 184, 135),
  (c!"cadetblue", 95, 158, 160),
  (c!"chartreuse", 127, 255, 0),
  (c!"chocolate", 210, 105, 30),
  (c!"coral", 255, 127, 80),
  (c!"cornflowerblue", 100, 149, 237),
  (c!"cornsilk", 255, 248, 220),
  (c!"crimson", 220, 20, 60),
  (c!"darkblue", 0, 0, 139),
  (c!"darkcyan", 0, 139, 139),
  (c!"darkgoldenrod", 184, 134, 11),
  (c!"darkgray", 169, 169, 169),
  (c!"darkgreen", 0, 100, 0),
  (c!"darkgrey", 169, 169, 169),
  (c!"darkkhaki", 189, 183, 107),
  (c!"darkmagenta", 139, 0, 139),
  (c!"darkolivegreen", 85, 107, 47),
  (c!"darkorange", 255, 140, 0),
  (c!"darkorchid", 153, 50, 204),
  (c!"darkred", 139, 0, 0),
  (c!"darksalmon", 233, 150, 122),
  (c!"darkseagreen", 143, 188, 143),
  (c!"darkslateblue", 72, 61, 139),
  (c!"darkslategray", 47, 79, 79),
  (c!"darkslategrey", 47, 79, 79),
  (c!"darkturquoise", 0, 206, 209),
  (c!"darkviolet", 148, 0, 211),
  (c!"deeppink", 255, 20, 147),
  (c!"deepskyblue", 0, 191, 255),
  (c!"dimgray", 105, 105, 105),
  (c!"dimgrey", 105, 105, 105),
  (c!"dodgerblue", 30, 144, 255),
  (c!"firebrick", 178, 34, 34),
  (c!"floralwhite", 255, 250, 240),
  (c!"forestgreen", 34, 139, 34),
  (c!"magenta", 255, 0, 255),
  (c!"fuchsia", 255, 0, 255),
  (c!"gainsboro", 220, 220, 220),
  (c!"ghostwhite", 248, 248, 255),
  (c!"gold", 255, 215, 0),
  (c!"goldenrod", 218, 165, 32),
  (c!"grey", 128, 128, 128),
  (c!"gray", 128, 128, 128),
  (c!"green", 0, 128, 0),
  (c!"greenyellow", 173, 255, 47),
  (c!"honeydew", 240, 255, 240),
  (c!"hotpink", 255, 105, 180),
  (c!"indianred", 205, 92, 92),
  (c!"indigo", 75, 0, 130),
  (c!"ivory", 255, 255, 240),
  (c!"khaki", 240, 230, 140),
  (c!"lavender", 230, 230, 250),
  (c!"lavenderblush", 255, 240, 245),
  (c!"lawngreen", 124, 252, 0),
  (c!"lemonchiffon", 255, 250, 205),
  (c!"lightblue", 173, 216, 230),
  (c!"lightcoral", 240, 128, 128),
  (c!"lightcyan", 224, 255, 255),
  (c!"lightgoldenrodyellow", 250, 250, 210),
  (c!"lightgray", 211, 211, 211),
  (c!"lightgreen", 144, 238, 144),
  (c!"lightgrey", 211, 211, 211),
  (c!"lightpink", 255, 182, 193),
  (c!"lightsalmon", 255, 160, 122),
  (c!"lightseagreen", 32, 178, 170),
  (c!"lightskyblue", 135, 206, 250),
  (c!"lightslategray", 119, 136, 153),
  (c!"lightslategrey", 119, 136, 153),
  (c!"lightsteelblue", 176, 196, 222),
  (c!"lightyellow", 255, 255, 224),
  (c!"lime", 0, 255, 0),
  (c!"limegreen", 50, 205, 50),
  (c!"linen", 250, 240, 230),
  (c!"maroon", 128, 0, 0),
  (c!"mediumaquamarine", 102, 205, 170),
  (c!"mediumblue", 0, 0, 205),
  (c!"mediumorchid", 186, 85, 211),
  (c!"mediumpurple", 147, 112, 219),
  (c!"mediumseagreen", 60, 179, 113),
  (c!"mediumslateblue", 123, 104, 238),
  (c!"mediumspringgreen", 0, 250, 154),
  (c!"mediumturquoise", 72, 209, 204),
  (c!"mediumvioletred", 199, 21, 133),
  (c!"midnightblue", 25, 25, 112),
  (c!"mintcream", 245, 255, 250),
  (c!"mistyrose", 255, 228, 225),
  (c!"moccasin", 255, 228, 181),
  (c!"navajowhite", 255, 222, 173),
  (c!"navy", 0, 0, 128),
  (c!"oldlace", 253, 245, 230),
  (c!"olive", 128, 128, 0),
  (c!"olivedrab", 107, 142, 35),
  (c!"orange", 255, 165, 0),
  (c!"orangered", 255, 69, 0),
  (c!"orchid", 218, 112, 214),
  (c!"palegoldenrod", 238, 232, 170),
  (c!"palegreen", 152, 251, 152),
  (c!"paleturquoise", 175, 238, 238),
  (c!"palevioletred", 219, 112, 147),
  (c!"papayawhip", 255, 239, 213),
  (c!"peachpuff", 255, 218, 185),
  (c!"peru", 205, 133, 63),
  (c!"pink", 255, 192, 203),
  (c!"plum", 221, 160, 221),
  (c!"powderblue", 176, 224, 230),
  (c!"purple", 128, 0, 128),
  (c!"rebeccapurple", 102, 51, 153),
  (c!"red", 255, 0, 0),
  (c!"rosybrown", 188, 143, 143),
  (c!"royalblue", 65, 105, 225),
  (c!"saddlebrown", 139, 69, 19),
  (c!"salmon", 250, 128, 114),
  (c!"sandybrown", 244, 164, 96),
  (c!"seagreen", 46, 139, 87),
  (c!"seashell", 255, 245, 238),
  (c!"sienna", 160, 82, 45),
  (c!"silver", 192, 192, 192),
  (c!"skyblue", 135, 206, 235),
  (c!"slateblue", 106, 90, 205),
  (c!"slategray", 112, 128, 144),
  (c!"slategrey", 112, 128, 144),
  (c!"snow", 255, 250, 250),
  (c!"springgreen", 0, 255, 127),
  (c!"steelblue", 70, 130, 180),
  (c!"tan", 210, 180, 140),
  (c!"teal", 0, 128, 128),
  (c!"thistle", 216, 191, 216),
  (c!"tomato", 255, 99, 71),
  (c!"turquoise", 64, 224, 208),
  (c!"violet", 238, 130, 238),
  (c!"wheat", 245, 222, 179),
  (c!"white", 255, 255, 255),
  (c!"whitesmoke", 245, 245, 245),
  (c!"yellow", 255, 255, 0),
  (c!"yellowgreen", 154, 205, 50)]

/-- `char::to_lowercase` as far as it can produce an ASCII letter: the ASCII capitals and the
Kelvin sign. (Every other character keeps, or becomes, something that is not in a CSS name.) -/
def lowerForCss (c : Char) : Char :=
  if 65 ≤ c.toNat && c.toNat ≤ 90 then Char.ofNat (c.toNat + 32)
  else if c.toNat = 0x212A then 'k' else c

/-- `primitive_color`, tables.rs 277-429 -/
def primitiveColor (s : Str) : Option (Nat × Nat × Nat) :=
  if blen s > 20 then none else cssNames.lookup (s.map lowerForCss)

end PL
