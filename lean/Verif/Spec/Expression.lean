import Verif.Spec.Document
import Verif.Model.Mathml
set_option autoImplicit false
/-!
# Expressions

Everyday formulas as trees, with two ways of writing them: as LaTeX and as MathML. Neither refers to the other, to tokens, to events or to the state of a
parser or renderer.
-/
namespace PL.Spec
open Lex Mathml

/-- Some Greek letters. -/
def greekLetters : List (Str × Char) := [(c!"alpha", 'α'), (c!"beta", 'β'), (c!"gamma", 'γ'), (c!"delta", 'δ'), (c!"zeta", 'ζ'), (c!"eta", 'η'), (c!"theta", 'θ'), (c!"iota", 'ι'),
  (c!"kappa", 'κ'), (c!"lambda", 'λ'), (c!"nu", 'ν'), (c!"xi", 'ξ'), (c!"pi", 'π'), (c!"rho", 'ρ'), (c!"sigma", 'σ'), (c!"tau", 'τ'), (c!"upsilon", 'υ'), (c!"chi", 'χ'),
  (c!"psi", 'ψ'), (c!"omega", 'ω'), (c!"Gamma", 'Γ'), (c!"Delta", 'Δ'), (c!"Theta", 'Θ'), (c!"Lambda", 'Λ'), (c!"Xi", 'Ξ'), (c!"Pi", 'Π'), (c!"Sigma", 'Σ'), (c!"Phi", 'Φ'),
  (c!"Psi", 'Ψ'), (c!"Omega", 'Ω')]

/-- Some symbols that stand for themselves. -/
def ordinarySymbols : List (Str × Char) := [(c!"infty", '∞'), (c!"partial", '∂'), (c!"nabla", '∇'), (c!"hbar", 'ℏ'), (c!"ell", 'ℓ'), (c!"ldots", '…'), (c!"cdots", '⋯'), (c!"forall", '∀'),
  (c!"exists", '∃'), (c!"emptyset", '∅')]

/-- Commands for operands of one character. -/
def namedLetters : List (Str × Char) := greekLetters ++ ordinarySymbols

/-- Pairs of delimiters. -/
inductive Fence where
  | paren
  | bracket
  | bar
  deriving DecidableEq, Repr

def Fence.opening : Fence → Char
  | .paren => '('
  | .bracket => '['
  | .bar => '|'
def Fence.closing : Fence → Char
  | .paren => ')'
  | .bracket => ']'
  | .bar => '|'

/-- Commands for operations on the two sides, one spelling for each. -/
def operations : List (Str × Char) := [(c!"times", '×'), (c!"cdot", '⋅'), (c!"pm", '±'), (c!"mp", '∓'), (c!"div", '÷'), (c!"cup", '∪'), (c!"cap", '∩'), (c!"oplus", '⊕'),
  (c!"otimes", '⊗'), (c!"wedge", '∧'), (c!"vee", '∨'), (c!"setminus", '∖'), (c!"circ", '∘'), (c!"star", '⋆')]

/-- Commands for relations of the two sides, one spelling for each. -/
def relations : List (Str × Char) := [(c!"le", '≤'), (c!"ge", '≥'), (c!"ne", '≠'), (c!"in", '∈'), (c!"notin", '∉'), (c!"to", '→'), (c!"equiv", '≡'), (c!"approx", '≈'),
  (c!"sim", '∼'), (c!"cong", '≅'), (c!"subset", '⊂'), (c!"supset", '⊃'), (c!"subseteq", '⊆'), (c!"supseteq", '⊇'), (c!"perp", '⟂'), (c!"parallel", '∥'), (c!"mid", '∣'),
  (c!"propto", '∝'), (c!"ll", '≪'), (c!"gg", '≫'), (c!"prec", '≺'), (c!"succ", '≻'), (c!"Rightarrow", '⇒'), (c!"Leftrightarrow", '⇔'), (c!"mapsto", '↦'), (c!"implies", '⟹'),
  (c!"iff", '⟺')]

/-- What can stand between two expressions. -/
inductive Infix where
  | plus
  | minus
  | equals
  | comma
  | slash
  | asterisk
  | greater
  | colon
  | semicolon
  | operation (name : Str) (c : Char) (h : (name, c) ∈ operations)
  | relation (name : Str) (c : Char) (h : (name, c) ∈ relations)
  deriving DecidableEq

def Infix.source : Infix → Str
  | .plus => c!"+"
  | .minus => c!"-"
  | .equals => c!"="
  | .comma => c!","
  | .slash => c!"/"
  | .asterisk => c!"*"
  | .greater => c!">"
  | .colon => c!":"
  | .semicolon => c!";"
  | .operation name _ _ => c!"\\" ++ name ++ c!" "
  | .relation name _ _ => c!"\\" ++ name ++ c!" "

def Infix.sign : Infix → Char
  | .plus => '+'
  | .minus => '−'
  | .equals => '='
  | .comma => ','
  | .slash => '/'
  | .asterisk => '∗'
  | .greater => '>'
  | .colon => ':'
  | .semicolon => ';'
  | .operation _ c _ => c
  | .relation _ c _ => c

/-- Signs before an expression. -/
inductive Sign where
  | plus
  | minus
  deriving DecidableEq, Repr

def Sign.source : Sign → Str
  | .plus => c!"+"
  | .minus => c!"-"

def Sign.sign : Sign → Char
  | .plus => '+'
  | .minus => '−'

/-- Functions. -/
inductive Func where
  | sin
  | cos
  | tan
  | cot
  | sec
  | csc
  | arcsin
  | arccos
  | arctan
  | sinh
  | cosh
  | tanh
  | coth
  | ln
  | lg
  | log
  | exp
  | arg
  | deg
  | det
  | dim
  | hom
  | ker
  | sgn
  deriving DecidableEq, Repr

def Func.name : Func → Str
  | .sin => c!"sin"
  | .cos => c!"cos"
  | .tan => c!"tan"
  | .cot => c!"cot"
  | .sec => c!"sec"
  | .csc => c!"csc"
  | .arcsin => c!"arcsin"
  | .arccos => c!"arccos"
  | .arctan => c!"arctan"
  | .sinh => c!"sinh"
  | .cosh => c!"cosh"
  | .tanh => c!"tanh"
  | .coth => c!"coth"
  | .ln => c!"ln"
  | .lg => c!"lg"
  | .log => c!"log"
  | .exp => c!"exp"
  | .arg => c!"arg"
  | .deg => c!"deg"
  | .det => c!"det"
  | .dim => c!"dim"
  | .hom => c!"hom"
  | .ker => c!"ker"
  | .sgn => c!"sgn"

/-- Large operators. -/
inductive BigOp where
  | sum
  | product
  | coproduct
  | union
  | intersection
  | disjunction
  | conjunction
  | directSum
  | tensorProduct
  | integral
  | doubleIntegral
  | tripleIntegral
  | contourIntegral
  deriving DecidableEq, Repr

def BigOp.source : BigOp → Str
  | .sum => c!"\\sum"
  | .product => c!"\\prod"
  | .coproduct => c!"\\coprod"
  | .union => c!"\\bigcup"
  | .intersection => c!"\\bigcap"
  | .disjunction => c!"\\bigvee"
  | .conjunction => c!"\\bigwedge"
  | .directSum => c!"\\bigoplus"
  | .tensorProduct => c!"\\bigotimes"
  | .integral => c!"\\int"
  | .doubleIntegral => c!"\\iint"
  | .tripleIntegral => c!"\\iiint"
  | .contourIntegral => c!"\\oint"

def BigOp.sign : BigOp → Char
  | .sum => '∑'
  | .product => '∏'
  | .coproduct => '∐'
  | .union => '⋃'
  | .intersection => '⋂'
  | .disjunction => '⋁'
  | .conjunction => '⋀'
  | .directSum => '⨁'
  | .tensorProduct => '⨂'
  | .integral => '∫'
  | .doubleIntegral => '∬'
  | .tripleIntegral => '∭'
  | .contourIntegral => '∮'

/-- Whether the limits are above and below. -/
def BigOp.stacked (block : Bool) : BigOp → Bool
  | .integral => false
  | .doubleIntegral => false
  | .tripleIntegral => false
  | .contourIntegral => false
  | _ => block

/-- Accents. The first ones are as wide as what is below. -/
inductive Accent where
  | hat
  | tilde
  | check
  | arrow
  | leftArrow
  | arrows
  | doubleArrow
  | leftHarpoon
  | rightHarpoon
  | arc
  | smallHat
  | smallTilde
  | smallCheck
  | bar
  | vector
  | dot
  | dots
  | breve
  | acute
  | grave
  | ring
  deriving DecidableEq, Repr

def Accent.source : Accent → Str
  | .hat => c!"\\widehat"
  | .tilde => c!"\\widetilde"
  | .check => c!"\\widecheck"
  | .arrow => c!"\\overrightarrow"
  | .leftArrow => c!"\\overleftarrow"
  | .arrows => c!"\\overleftrightarrow"
  | .doubleArrow => c!"\\Overrightarrow"
  | .leftHarpoon => c!"\\overleftharpoon"
  | .rightHarpoon => c!"\\overrightharpoon"
  | .arc => c!"\\wideparen"
  | .smallHat => c!"\\hat"
  | .smallTilde => c!"\\tilde"
  | .smallCheck => c!"\\check"
  | .bar => c!"\\bar"
  | .vector => c!"\\vec"
  | .dot => c!"\\dot"
  | .dots => c!"\\ddot"
  | .breve => c!"\\breve"
  | .acute => c!"\\acute"
  | .grave => c!"\\grave"
  | .ring => c!"\\mathring"

def Accent.sign : Accent → Char
  | .hat => '^'
  | .tilde => '~'
  | .check => 'ˇ'
  | .arrow => '→'
  | .leftArrow => '←'
  | .arrows => '↔'
  | .doubleArrow => '⇒'
  | .leftHarpoon => '↼'
  | .rightHarpoon => '⇀'
  | .arc => '⏜'
  | .smallHat => '^'
  | .smallTilde => '~'
  | .smallCheck => 'ˇ'
  | .bar => '‾'
  | .vector => '→'
  | .dot => '˙'
  | .dots => '¨'
  | .breve => '˘'
  | .acute => '´'
  | .grave => '`'
  | .ring => '˚'

def Accent.wide : Accent → Bool
  | .hat | .tilde | .check | .arrow | .leftArrow | .arrows | .doubleArrow | .leftHarpoon | .rightHarpoon | .arc => true
  | _ => false

/-- Alphabets. -/
inductive Alphabet where
  | bold
  | script
  | doubleStruck
  | fraktur
  | sansSerif
  | typewriter
  | boldItalic
  deriving DecidableEq, Repr

def Alphabet.source : Alphabet → Str
  | .bold => c!"\\mathbf"
  | .script => c!"\\mathcal"
  | .doubleStruck => c!"\\mathbb"
  | .fraktur => c!"\\mathfrak"
  | .sansSerif => c!"\\mathsf"
  | .typewriter => c!"\\mathtt"
  | .boldItalic => c!"\\mathbfit"

/-- The letters in the alphabets, by the names of the characters in Unicode. The capital I in Fraktur is left out, because the renderer writes another letter for it
(see C37). -/
def variants : List (Alphabet × Char × Char) := [(.bold, 'a', '𝐚'), (.bold, 'b', '𝐛'), (.bold, 'c', '𝐜'), (.bold, 'd', '𝐝'), (.bold, 'e', '𝐞'), (.bold, 'f', '𝐟'), (.bold, 'g', '𝐠'),
  (.bold, 'h', '𝐡'), (.bold, 'i', '𝐢'), (.bold, 'j', '𝐣'), (.bold, 'k', '𝐤'), (.bold, 'l', '𝐥'), (.bold, 'm', '𝐦'), (.bold, 'n', '𝐧'),
  (.bold, 'o', '𝐨'), (.bold, 'p', '𝐩'), (.bold, 'q', '𝐪'), (.bold, 'r', '𝐫'), (.bold, 's', '𝐬'), (.bold, 't', '𝐭'), (.bold, 'u', '𝐮'),
  (.bold, 'v', '𝐯'), (.bold, 'w', '𝐰'), (.bold, 'x', '𝐱'), (.bold, 'y', '𝐲'), (.bold, 'z', '𝐳'), (.bold, 'A', '𝐀'), (.bold, 'B', '𝐁'),
  (.bold, 'C', '𝐂'), (.bold, 'D', '𝐃'), (.bold, 'E', '𝐄'), (.bold, 'F', '𝐅'), (.bold, 'G', '𝐆'), (.bold, 'H', '𝐇'), (.bold, 'I', '𝐈'),
  (.bold, 'J', '𝐉'), (.bold, 'K', '𝐊'), (.bold, 'L', '𝐋'), (.bold, 'M', '𝐌'), (.bold, 'N', '𝐍'), (.bold, 'O', '𝐎'), (.bold, 'P', '𝐏'),
  (.bold, 'Q', '𝐐'), (.bold, 'R', '𝐑'), (.bold, 'S', '𝐒'), (.bold, 'T', '𝐓'), (.bold, 'U', '𝐔'), (.bold, 'V', '𝐕'), (.bold, 'W', '𝐖'),
  (.bold, 'X', '𝐗'), (.bold, 'Y', '𝐘'), (.bold, 'Z', '𝐙'), (.script, 'A', '𝒜'), (.script, 'B', 'ℬ'), (.script, 'C', '𝒞'), (.script, 'D', '𝒟'),
  (.script, 'E', 'ℰ'), (.script, 'F', 'ℱ'), (.script, 'G', '𝒢'), (.script, 'H', 'ℋ'), (.script, 'I', 'ℐ'), (.script, 'J', '𝒥'), (.script, 'K', '𝒦'),
  (.script, 'L', 'ℒ'), (.script, 'M', 'ℳ'), (.script, 'N', '𝒩'), (.script, 'O', '𝒪'), (.script, 'P', '𝒫'), (.script, 'Q', '𝒬'), (.script, 'R', 'ℛ'),
  (.script, 'S', '𝒮'), (.script, 'T', '𝒯'), (.script, 'U', '𝒰'), (.script, 'V', '𝒱'), (.script, 'W', '𝒲'), (.script, 'X', '𝒳'), (.script, 'Y', '𝒴'),
  (.script, 'Z', '𝒵'), (.doubleStruck, 'A', '𝔸'), (.doubleStruck, 'B', '𝔹'), (.doubleStruck, 'C', 'ℂ'), (.doubleStruck, 'D', '𝔻'),
  (.doubleStruck, 'E', '𝔼'), (.doubleStruck, 'F', '𝔽'), (.doubleStruck, 'G', '𝔾'), (.doubleStruck, 'H', 'ℍ'), (.doubleStruck, 'I', '𝕀'),
  (.doubleStruck, 'J', '𝕁'), (.doubleStruck, 'K', '𝕂'), (.doubleStruck, 'L', '𝕃'), (.doubleStruck, 'M', '𝕄'), (.doubleStruck, 'N', 'ℕ'),
  (.doubleStruck, 'O', '𝕆'), (.doubleStruck, 'P', 'ℙ'), (.doubleStruck, 'Q', 'ℚ'), (.doubleStruck, 'R', 'ℝ'), (.doubleStruck, 'S', '𝕊'),
  (.doubleStruck, 'T', '𝕋'), (.doubleStruck, 'U', '𝕌'), (.doubleStruck, 'V', '𝕍'), (.doubleStruck, 'W', '𝕎'), (.doubleStruck, 'X', '𝕏'),
  (.doubleStruck, 'Y', '𝕐'), (.doubleStruck, 'Z', 'ℤ'), (.fraktur, 'a', '𝔞'), (.fraktur, 'b', '𝔟'), (.fraktur, 'c', '𝔠'), (.fraktur, 'd', '𝔡'),
  (.fraktur, 'e', '𝔢'), (.fraktur, 'f', '𝔣'), (.fraktur, 'g', '𝔤'), (.fraktur, 'h', '𝔥'), (.fraktur, 'i', '𝔦'), (.fraktur, 'j', '𝔧'),
  (.fraktur, 'k', '𝔨'), (.fraktur, 'l', '𝔩'), (.fraktur, 'm', '𝔪'), (.fraktur, 'n', '𝔫'), (.fraktur, 'o', '𝔬'), (.fraktur, 'p', '𝔭'),
  (.fraktur, 'q', '𝔮'), (.fraktur, 'r', '𝔯'), (.fraktur, 's', '𝔰'), (.fraktur, 't', '𝔱'), (.fraktur, 'u', '𝔲'), (.fraktur, 'v', '𝔳'),
  (.fraktur, 'w', '𝔴'), (.fraktur, 'x', '𝔵'), (.fraktur, 'y', '𝔶'), (.fraktur, 'z', '𝔷'), (.fraktur, 'A', '𝔄'), (.fraktur, 'B', '𝔅'),
  (.fraktur, 'C', 'ℭ'), (.fraktur, 'D', '𝔇'), (.fraktur, 'E', '𝔈'), (.fraktur, 'F', '𝔉'), (.fraktur, 'G', '𝔊'), (.fraktur, 'H', 'ℌ'),
  (.fraktur, 'J', '𝔍'), (.fraktur, 'K', '𝔎'), (.fraktur, 'L', '𝔏'), (.fraktur, 'M', '𝔐'), (.fraktur, 'N', '𝔑'),
  (.fraktur, 'O', '𝔒'), (.fraktur, 'P', '𝔓'), (.fraktur, 'Q', '𝔔'), (.fraktur, 'R', 'ℜ'), (.fraktur, 'S', '𝔖'), (.fraktur, 'T', '𝔗'),
  (.fraktur, 'U', '𝔘'), (.fraktur, 'V', '𝔙'), (.fraktur, 'W', '𝔚'), (.fraktur, 'X', '𝔛'), (.fraktur, 'Y', '𝔜'), (.fraktur, 'Z', 'ℨ'),
  (.sansSerif, 'a', '𝖺'), (.sansSerif, 'b', '𝖻'), (.sansSerif, 'c', '𝖼'), (.sansSerif, 'd', '𝖽'), (.sansSerif, 'e', '𝖾'), (.sansSerif, 'f', '𝖿'), (.sansSerif, 'g', '𝗀'),
  (.sansSerif, 'h', '𝗁'), (.sansSerif, 'i', '𝗂'), (.sansSerif, 'j', '𝗃'), (.sansSerif, 'k', '𝗄'), (.sansSerif, 'l', '𝗅'), (.sansSerif, 'm', '𝗆'), (.sansSerif, 'n', '𝗇'),
  (.sansSerif, 'o', '𝗈'), (.sansSerif, 'p', '𝗉'), (.sansSerif, 'q', '𝗊'), (.sansSerif, 'r', '𝗋'), (.sansSerif, 's', '𝗌'), (.sansSerif, 't', '𝗍'), (.sansSerif, 'u', '𝗎'),
  (.sansSerif, 'v', '𝗏'), (.sansSerif, 'w', '𝗐'), (.sansSerif, 'x', '𝗑'), (.sansSerif, 'y', '𝗒'), (.sansSerif, 'z', '𝗓'), (.sansSerif, 'A', '𝖠'), (.sansSerif, 'B', '𝖡'),
  (.sansSerif, 'C', '𝖢'), (.sansSerif, 'D', '𝖣'), (.sansSerif, 'E', '𝖤'), (.sansSerif, 'F', '𝖥'), (.sansSerif, 'G', '𝖦'), (.sansSerif, 'H', '𝖧'), (.sansSerif, 'I', '𝖨'),
  (.sansSerif, 'J', '𝖩'), (.sansSerif, 'K', '𝖪'), (.sansSerif, 'L', '𝖫'), (.sansSerif, 'M', '𝖬'), (.sansSerif, 'N', '𝖭'), (.sansSerif, 'O', '𝖮'), (.sansSerif, 'P', '𝖯'),
  (.sansSerif, 'Q', '𝖰'), (.sansSerif, 'R', '𝖱'), (.sansSerif, 'S', '𝖲'), (.sansSerif, 'T', '𝖳'), (.sansSerif, 'U', '𝖴'), (.sansSerif, 'V', '𝖵'), (.sansSerif, 'W', '𝖶'),
  (.sansSerif, 'X', '𝖷'), (.sansSerif, 'Y', '𝖸'), (.sansSerif, 'Z', '𝖹'), (.typewriter, 'a', '𝚊'), (.typewriter, 'b', '𝚋'), (.typewriter, 'c', '𝚌'), (.typewriter, 'd', '𝚍'),
  (.typewriter, 'e', '𝚎'), (.typewriter, 'f', '𝚏'), (.typewriter, 'g', '𝚐'), (.typewriter, 'h', '𝚑'), (.typewriter, 'i', '𝚒'), (.typewriter, 'j', '𝚓'), (.typewriter, 'k', '𝚔'),
  (.typewriter, 'l', '𝚕'), (.typewriter, 'm', '𝚖'), (.typewriter, 'n', '𝚗'), (.typewriter, 'o', '𝚘'), (.typewriter, 'p', '𝚙'), (.typewriter, 'q', '𝚚'), (.typewriter, 'r', '𝚛'),
  (.typewriter, 's', '𝚜'), (.typewriter, 't', '𝚝'), (.typewriter, 'u', '𝚞'), (.typewriter, 'v', '𝚟'), (.typewriter, 'w', '𝚠'), (.typewriter, 'x', '𝚡'), (.typewriter, 'y', '𝚢'),
  (.typewriter, 'z', '𝚣'), (.typewriter, 'A', '𝙰'), (.typewriter, 'B', '𝙱'), (.typewriter, 'C', '𝙲'), (.typewriter, 'D', '𝙳'), (.typewriter, 'E', '𝙴'), (.typewriter, 'F', '𝙵'),
  (.typewriter, 'G', '𝙶'), (.typewriter, 'H', '𝙷'), (.typewriter, 'I', '𝙸'), (.typewriter, 'J', '𝙹'), (.typewriter, 'K', '𝙺'), (.typewriter, 'L', '𝙻'), (.typewriter, 'M', '𝙼'),
  (.typewriter, 'N', '𝙽'), (.typewriter, 'O', '𝙾'), (.typewriter, 'P', '𝙿'), (.typewriter, 'Q', '𝚀'), (.typewriter, 'R', '𝚁'), (.typewriter, 'S', '𝚂'), (.typewriter, 'T', '𝚃'),
  (.typewriter, 'U', '𝚄'), (.typewriter, 'V', '𝚅'), (.typewriter, 'W', '𝚆'), (.typewriter, 'X', '𝚇'), (.typewriter, 'Y', '𝚈'), (.typewriter, 'Z', '𝚉'), (.boldItalic, 'a', '𝒂'),
  (.boldItalic, 'b', '𝒃'), (.boldItalic, 'c', '𝒄'), (.boldItalic, 'd', '𝒅'), (.boldItalic, 'e', '𝒆'), (.boldItalic, 'f', '𝒇'), (.boldItalic, 'g', '𝒈'), (.boldItalic, 'h', '𝒉'),
  (.boldItalic, 'i', '𝒊'), (.boldItalic, 'j', '𝒋'), (.boldItalic, 'k', '𝒌'), (.boldItalic, 'l', '𝒍'), (.boldItalic, 'm', '𝒎'), (.boldItalic, 'n', '𝒏'), (.boldItalic, 'o', '𝒐'),
  (.boldItalic, 'p', '𝒑'), (.boldItalic, 'q', '𝒒'), (.boldItalic, 'r', '𝒓'), (.boldItalic, 's', '𝒔'), (.boldItalic, 't', '𝒕'), (.boldItalic, 'u', '𝒖'), (.boldItalic, 'v', '𝒗'),
  (.boldItalic, 'w', '𝒘'), (.boldItalic, 'x', '𝒙'), (.boldItalic, 'y', '𝒚'), (.boldItalic, 'z', '𝒛'), (.boldItalic, 'A', '𝑨'), (.boldItalic, 'B', '𝑩'), (.boldItalic, 'C', '𝑪'),
  (.boldItalic, 'D', '𝑫'), (.boldItalic, 'E', '𝑬'), (.boldItalic, 'F', '𝑭'), (.boldItalic, 'G', '𝑮'), (.boldItalic, 'H', '𝑯'), (.boldItalic, 'I', '𝑰'), (.boldItalic, 'J', '𝑱'),
  (.boldItalic, 'K', '𝑲'), (.boldItalic, 'L', '𝑳'), (.boldItalic, 'M', '𝑴'), (.boldItalic, 'N', '𝑵'), (.boldItalic, 'O', '𝑶'), (.boldItalic, 'P', '𝑷'), (.boldItalic, 'Q', '𝑸'),
  (.boldItalic, 'R', '𝑹'), (.boldItalic, 'S', '𝑺'), (.boldItalic, 'T', '𝑻'), (.boldItalic, 'U', '𝑼'), (.boldItalic, 'V', '𝑽'), (.boldItalic, 'W', '𝑾'), (.boldItalic, 'X', '𝑿'),
  (.boldItalic, 'Y', '𝒀'), (.boldItalic, 'Z', '𝒁')]

/-- Numbers are made of digits and points; they start and end with digits. -/
def inNumber (c : Char) : Bool := isDigit c || c == '.'

/-- Words are made of letters and spaces; they start and end with letters. -/
def inWords (c : Char) : Bool := isLetter c || c == ' '

mutual
/-- An operand. -/
inductive Operand where
  | letter (c : Char) (h : isLetter c = true)
  | number (ds : Str) (h : ds.head?.any isDigit = true ∧ ds.getLast?.any isDigit = true ∧ ∀ c ∈ ds, inNumber c = true)
  | named (name : Str) (c : Char) (h : (name, c) ∈ namedLetters)
  | group (e : Expr)
  | fraction (num den : Expr)
  | root (e : Expr)
  | nthRoot (i : Operand) (e : Expr)
  | accented (a : Accent) (e : Expr)
  | word (t : Str) (h : t.head?.any isLetter = true ∧ t.getLast?.any isLetter = true ∧ ∀ c ∈ t, inWords c = true)
  | styled (a : Alphabet) (l c : Char) (h : (a, l, c) ∈ variants)
  | fenced (f : Fence) (e : Expr)
  | matrix (g : Grid)
  | choice (g : Grid)
/-- An operand with scripts. -/
inductive Scripted where
  | plain (b : Operand)
  | sup (b : Operand) (s : Index)
  | sub (b : Operand) (s : Index)
  | subSup (b : Operand) (lower upper : Index)
/-- A script: a group, or a single letter or digit. -/
inductive Index where
  | braced (e : Expr)
  | letter (c : Char) (h : isLetter c = true)
  | digit (c : Char) (h : isDigit c = true)
/-- An expression. -/
inductive Expr where
  | one (i : Scripted)
  | next (i : Scripted) (e : Expr)
  | infix (i : Scripted) (o : Infix) (e : Expr)
  | signed (s : Sign) (e : Expr)
  | apply (f : Func) (e : Expr)
  | big (op : BigOp) (lower upper : Index) (e : Expr)
  | ranged (op : BigOp) (range : Index) (e : Expr)
/-- A row of a matrix or of a distinction of cases. -/
inductive Entries where
  | last (e : Expr)
  | cons (e : Expr) (es : Entries)
/-- The rows. -/
inductive Grid where
  | last (es : Entries)
  | cons (es : Entries) (g : Grid)
end

/-! ## LaTeX -/

mutual
def Operand.source : Operand → Str
  | .letter c _ => [c]
  | .number ds _ => ds ++ c!" "
  | .named name _ _ => c!"\\" ++ name ++ c!" "
  | .group e => c!"{" ++ e.source ++ c!"}"
  | .fraction n d => c!"\\frac" ++ (c!"{" ++ n.source ++ c!"}") ++ (c!"{" ++ d.source ++ c!"}")
  | .root e => c!"\\sqrt" ++ (c!"{" ++ e.source ++ c!"}")
  | .nthRoot i e => c!"\\sqrt" ++ (c!"[" ++ i.source ++ c!"]") ++ (c!"{" ++ e.source ++ c!"}")
  | .accented a e => a.source ++ (c!"{" ++ e.source ++ c!"}")
  | .word t _ => c!"\\text" ++ (c!"{" ++ t ++ c!"}")
  | .styled a l _ _ => a.source ++ (c!"{" ++ [l] ++ c!"}")
  | .fenced f e => c!"\\left" ++ [f.opening] ++ e.source ++ c!"\\right" ++ [f.closing]
  | .matrix g => c!"\\begin{matrix}" ++ g.source ++ c!"\\end{matrix}"
  | .choice g => c!"\\begin{cases}" ++ g.source ++ c!"\\end{cases}"
def Scripted.source : Scripted → Str
  | .plain b => b.source
  | .sup b s => b.source ++ c!"^" ++ s.source
  | .sub b s => b.source ++ c!"_" ++ s.source
  | .subSup b l u => b.source ++ c!"_" ++ l.source ++ c!"^" ++ u.source
def Index.source : Index → Str
  | .braced e => c!"{" ++ e.source ++ c!"}"
  | .letter c _ => [c]
  | .digit c _ => [c]
def Expr.source : Expr → Str
  | .one i => i.source
  | .next i e => i.source ++ e.source
  | .infix i o e => i.source ++ o.source ++ e.source
  | .signed s e => s.source ++ e.source
  | .apply f e => c!"\\" ++ f.name ++ c!" " ++ e.source
  | .big op l u e => op.source ++ c!"_" ++ l.source ++ c!"^" ++ u.source ++ e.source
  | .ranged op l e => op.source ++ c!"_" ++ l.source ++ e.source
def Entries.source : Entries → Str
  | .last e => e.source
  | .cons e es => e.source ++ c!"&" ++ es.source
def Grid.source : Grid → Str
  | .last es => es.source
  | .cons es g => es.source ++ c!"\\\\" ++ g.source
end

/-! ## MathML -/

/-- Letters set upright, by the style of the document: by ISO none, in French all but small Latin letters, in TeX capital Greek letters. -/
def setUpright : MathStyle → Char → Bool
  | .iso, _ => false
  | .upright, _ => true
  | .french, c => !('a' ≤ c && c ≤ 'z')
  | .tex, c => 'Α' ≤ c && c ≤ 'Ω'

/-- A letter. -/
def identifier (style : MathStyle) (c : Char) : Str := tag c!"mi" (if setUpright style c then [(c!"mathvariant", c!"normal")] else []) [c]

/-- An accent: an operator that stretches, or like a letter. -/
def Accent.mark (style : MathStyle) (a : Accent) : Str := if a.wide then tag c!"mo" [(c!"stretchy", c!"true")] [a.sign] else identifier style a.sign

def Index.grouped : Index → Bool
  | .braced _ => true
  | _ => false

mutual
def Operand.mathml (block : Bool) (style : MathStyle) : Operand → Str
  | .letter c _ => identifier style c
  | .number ds _ => tag c!"mn" [] ds
  | .named _ c _ => identifier style c
  | .group e => tag c!"mrow" [] (e.mathml block style false)
  | .fraction n d => tag c!"mfrac" [] (tag c!"mrow" [] (n.mathml block style false) ++ tag c!"mrow" [] (d.mathml block style false))
  | .root e => tag c!"msqrt" [] (tag c!"mrow" [] (e.mathml block style false))
  | .nthRoot i e => tag c!"mroot" [] (tag c!"mrow" [] (e.mathml block style false) ++ i.mathml block style)
  | .accented a e => tag c!"mover" [] (tag c!"mrow" [] (e.mathml block style false) ++ a.mark style)
  | .word t _ => tag c!"mtext" [] t
  | .styled _ _ c _ => tag c!"mrow" [] (tag c!"mi" [] [c])
  | .fenced f e => tag c!"mrow" [] (tag c!"mo" [(c!"stretchy", c!"true")] [f.opening] ++ e.mathml block style false ++ tag c!"mo" [(c!"stretchy", c!"true")] [f.closing])
  | .matrix g => tag c!"mtable" [(c!"class", c!"menv-arraylike")] (g.mathml block style)
  | .choice g => tag c!"mrow" [] (tag c!"mo" [(c!"stretchy", c!"true")] ['{'] ++ tag c!"mtable" [(c!"class", c!"menv-cells-left menv-cases")] (g.mathml block style))
def Scripted.mathml (block : Bool) (style : MathStyle) : Scripted → Str
  | .plain b => b.mathml block style
  | .sup b s => tag c!"msup" [] (b.mathml block style ++ s.mathml block style)
  | .sub b s => tag c!"msub" [] (b.mathml block style ++ s.mathml block style)
  | .subSup b l u => tag c!"msubsup" [] (b.mathml block style ++ l.mathml block style ++ u.mathml block style)
def Index.mathml (block : Bool) (style : MathStyle) : Index → Str
  | .braced e => tag c!"mrow" [] (e.mathml block style false)
  | .letter c _ => identifier style c
  | .digit c _ => tag c!"mn" [] [c]
/-- `after`: an operand comes before the expression. Then a sign at its start is an operator, and a function at its start is set apart from the operand.
Limits in braces count as an operand, other limits do not (see C54). -/
def Expr.mathml (block : Bool) (style : MathStyle) (after : Bool) : Expr → Str
  | .one i => i.mathml block style
  | .next i e => i.mathml block style ++ e.mathml block style true
  | .infix i o e => i.mathml block style ++ tag c!"mo" [] [o.sign] ++ e.mathml block style false
  | .signed s e => tag (if after then c!"mo" else c!"mi") [] [s.sign] ++ e.mathml block style (!after)
  | .apply f e => (if after then void c!"mspace" [(c!"width", c!"0.1667em")] else []) ++ tag c!"mi" [] f.name ++ tag c!"mo" [] ['⁡'] ++
      void c!"mspace" [(c!"width", c!"0.1667em")] ++ e.mathml block style false
  | .big op l u e => tag (if op.stacked block then c!"munderover" else c!"msubsup") [] (tag c!"mo" [(c!"movablelimits", c!"false")] [op.sign] ++
      l.mathml block style ++ u.mathml block style) ++ e.mathml block style (l.grouped || u.grouped)
  | .ranged op l e => tag (if op.stacked block then c!"munder" else c!"msub") [] (tag c!"mo" [(c!"movablelimits", c!"false")] [op.sign] ++ l.mathml block style) ++
      e.mathml block style l.grouped
def Entries.mathml (block : Bool) (style : MathStyle) : Entries → Str
  | .last e => tag c!"mtd" [] (e.mathml block style false)
  | .cons e es => tag c!"mtd" [] (e.mathml block style false) ++ es.mathml block style
def Grid.mathml (block : Bool) (style : MathStyle) : Grid → Str
  | .last es => tag c!"mtr" [] (es.mathml block style)
  | .cons es g => tag c!"mtr" [] (es.mathml block style) ++ g.mathml block style
end

/-! ## Conditions -/

def Entries.width : Entries → Nat
  | .last _ => 1
  | .cons _ es => es.width + 1

def Expr.startsSigned : Expr → Bool
  | .signed _ _ => true
  | _ => false

mutual
/-- No matrix has more than 65536 columns, no distinction of cases more than two, and no sign comes right after the limits of a large operator. -/
def Operand.proper : Operand → Bool
  | .group e => e.proper
  | .fraction n d => n.proper && d.proper
  | .root e => e.proper
  | .nthRoot i e => i.proper && e.proper
  | .accented _ e => e.proper
  | .fenced _ e => e.proper
  | .matrix g => g.proper 65535
  | .choice g => g.proper 1
  | _ => true
def Scripted.proper : Scripted → Bool
  | .plain b => b.proper
  | .sup b e => b.proper && e.proper
  | .sub b e => b.proper && e.proper
  | .subSup b l u => b.proper && l.proper && u.proper
def Index.proper : Index → Bool
  | .braced e => e.proper
  | _ => true
def Expr.proper : Expr → Bool
  | .one i => i.proper
  | .next i e => i.proper && e.proper
  | .infix i _ e => i.proper && e.proper
  | .signed _ e => e.proper
  | .apply _ e => e.proper
  | .big _ l u e => l.proper && u.proper && e.proper && !e.startsSigned
  | .ranged _ l e => l.proper && e.proper && !e.startsSigned
def Entries.proper : Entries → Bool
  | .last e => e.proper
  | .cons e es => e.proper && es.proper
def Grid.proper : Grid → Nat → Bool
  | .last es, m => decide (es.width ≤ m + 1) && es.proper
  | .cons es g, m => decide (es.width ≤ m + 1) && es.proper && g.proper m
end

end PL.Spec
