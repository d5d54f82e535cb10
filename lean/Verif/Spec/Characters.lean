import Verif.Model.Event
set_option autoImplicit false
/-!
# Specification of the classes of characters and of named symbols
-/
namespace PL.Spec

/-- The event of a printable ASCII character without special meaning: letters and most signs are ordinary; the signs of arithmetic are binary,
with a proper minus sign and an asterisk operator; an apostrophe is a prime. -/
def asciiEvent (c : Char) : Event :=
  .content (
    if c = '+' ∨ c = '/' then .binaryOp c false
    else if c = '-' then .binaryOp '−' false
    else if c = '*' then .binaryOp '∗' false
    else if c = '=' ∨ c = '<' ∨ c = '>' ∨ c = ':' then .relation c none false
    else if c = '(' ∨ c = '[' then .delimiter c none .open_
    else if c = ')' ∨ c = ']' then .delimiter c none .close
    else if c = '.' ∨ c = ',' ∨ c = ';' then .punctuation c
    else if c = '\'' then .ordinary '′' false
    else .ordinary c false)

/-- The character an event of a single character shows. -/
inductive ShowsChar : Event → Char → Prop
  | ordinary {c st} : ShowsChar (.content (.ordinary c st)) c
  | binary {c sm} : ShowsChar (.content (.binaryOp c sm)) c
  | relation {c sm} : ShowsChar (.content (.relation c none sm)) c
  | delimiter {c sz ty} : ShowsChar (.content (.delimiter c sz ty)) c
  | punctuation {c} : ShowsChar (.content (.punctuation c)) c

/-- The character a source character stands for. -/
def shownAs (c : Char) : Char := if c = '\'' then '′' else if c = '-' then '−' else if c = '*' then '∗' else c

/-- Names of the Greek letters in the order of the Unicode block, from U+03B1 and U+0391 (`none`: unassigned). `\epsilon` and `\phi` are symbols of
their own, and the letters of the block have the names `\varepsilon` and `\varphi`, as in LaTeX. -/
def greekNames : List (Option Str) := [some c!"alpha", some c!"beta", some c!"gamma", some c!"delta", some c!"varepsilon", some c!"zeta", some c!"eta",
  some c!"theta", some c!"iota", some c!"kappa", some c!"lambda", some c!"mu", some c!"nu", some c!"xi", some c!"omicron", some c!"pi", some c!"rho",
  some c!"varsigma", some c!"sigma", some c!"tau", some c!"upsilon", some c!"varphi", some c!"chi", some c!"psi", some c!"omega"]

def upperGreekNames : List (Option Str) := [some c!"Alpha", some c!"Beta", some c!"Gamma", some c!"Delta", some c!"Epsilon", some c!"Zeta", some c!"Eta",
  some c!"Theta", some c!"Iota", some c!"Kappa", some c!"Lambda", some c!"Mu", some c!"Nu", some c!"Xi", some c!"Omicron", some c!"Pi", some c!"Rho",
  none, some c!"Sigma", some c!"Tau", some c!"Upsilon", some c!"Phi", some c!"Chi", some c!"Psi", some c!"Omega"]

/-- Operator names that show as themselves. -/
def operatorNames : List Str := [c!"arccos", c!"arcsin", c!"arctan", c!"arg", c!"cos", c!"cosh", c!"cot", c!"coth", c!"csc", c!"deg", c!"det", c!"dim",
  c!"exp", c!"gcd", c!"hom", c!"inf", c!"ker", c!"lg", c!"lim", c!"ln", c!"log", c!"max", c!"min", c!"Pr", c!"sec", c!"sin", c!"sinh", c!"sup", c!"tan",
  c!"tanh"]

/-- Operator names whose scripts are set as limits in display style. -/
def limitNames : List Str := [c!"Pr", c!"gcd", c!"inf", c!"lim", c!"max", c!"min", c!"sup"]

/-- Names of opening delimiters, with the names of the closing ones. -/
def delimiterPairs : List ((Str × Char) × Str × Char) := [
  ((c!"lparen", '('), c!"rparen", ')'), ((c!"lbrack", '['), c!"rbrack", ']'), ((c!"lbrace", '{'), c!"rbrace", '}'), ((c!"{", '{'), c!"}", '}'),
  ((c!"langle", '⟨'), c!"rangle", '⟩'), ((c!"lfloor", '⌊'), c!"rfloor", '⌋'), ((c!"lceil", '⌈'), c!"rceil", '⌉'), ((c!"lvert", '|'), c!"rvert", '|'),
  ((c!"lVert", '‖'), c!"rVert", '‖'), ((c!"lgroup", '⟮'), c!"rgroup", '⟯'), ((c!"lmoustache", '⎰'), c!"rmoustache", '⎱'),
  ((c!"ulcorner", '┌'), c!"urcorner", '┐'), ((c!"llcorner", '└'), c!"lrcorner", '┘')]

/-- Commands that are two names for the same thing. -/
def synonyms : List (Str × Str) := [
  (c!"le", c!"leq"), (c!"ge", c!"geq"), (c!"ne", c!"neq"), (c!"to", c!"rightarrow"), (c!"gets", c!"leftarrow"), (c!"land", c!"wedge"),
  (c!"lor", c!"vee"), (c!"lnot", c!"neg"), (c!"owns", c!"ni"), (c!"isin", c!"in"), (c!"implies", c!"Longrightarrow"), (c!"impliedby",
  c!"Longleftarrow"), (c!"iff", c!"Longleftrightarrow"), (c!"dag", c!"dagger"), (c!"ddag", c!"ddagger"), (c!"lll", c!"llless"), (c!"ggg",
  c!"gggtr"), (c!"Cap", c!"doublecap"), (c!"thickapprox", c!"approx"), (c!"thicksim", c!"sim"), (c!"varpropto", c!"propto"), (c!"Doteq",
  c!"doteqdot"), (c!"mathsterling", c!"pounds"), (c!"coloneqq", c!"colonequals"), (c!"dblcolon", c!"coloncolon"), (c!"leadsto",
  c!"rightsquigarrow"), (c!"restriction", c!"upharpoonright"), (c!"Join", c!"bowtie"), (c!"dotsb", c!"dotsm"), (c!"dotsc", c!"dotso"),
  (c!"hslash", c!"hbar"), (c!"vcentcolon", c!"ratio")]

end PL.Spec
