import Verif.Spec.Text
set_option autoImplicit false
/-!
# Texts without the constructs that break the operand structure
-/
namespace PL.Spec

/-- Spaces and commands for horizontal lines. -/
inductive Ruled : Str → Prop
  | nil : Ruled []
  | ws {c s} : isWs c = true → Ruled s → Ruled (c :: s)
  | solid {s} : Ruled s → Ruled (c!"\\hline" ++ s)
  | dashed {s} : Ruled s → Ruled (c!"\\hdashline" ++ s)

/-- What can stand between a line break and the text of the next line. -/
inductive BreakTail : Str → Prop
  | plain {m} : Ruled m → BreakTail m
  | spacing {w g m} : Spaces w → Ruled m → BreakTail (w ++ '[' :: (g ++ ']' :: m))
  | bracket {w m} : Spaces w → Ruled m → BreakTail (w ++ '[' :: m)

/-- The commands that apply a font to one argument. -/
def fontCommands : List Str := [c!"mathbf", c!"symbf", c!"mathbfup", c!"symbfup", c!"boldsymbol", c!"mathcal",
  c!"symcal", c!"mathit", c!"symit", c!"mathrm", c!"symrm", c!"mathup", c!"symup", c!"mathsf", c!"symsf",
  c!"mathsfup", c!"symsfup", c!"mathtt", c!"symtt", c!"mathbb", c!"symbb", c!"mathbbit", c!"symbbit",
  c!"mathfrak", c!"symfrak", c!"mathbfcal", c!"symbfcal", c!"mathsfit", c!"symsfit", c!"mathbfit", c!"symbfit",
  c!"mathbffrak", c!"symbffrak", c!"mathbfsfup", c!"symbfsfup", c!"mathbfsfit", c!"symbfsfit", c!"mathnormal",
  c!"symnormal"]

/-- Commands that define macros. -/
def definingCommands : List Str := [c!"\\def", c!"\\let", c!"\\futurelet", c!"\\newcommand", c!"\\renewcommand",
  c!"\\providecommand"]

/-- A character of several bytes occurs in the text. -/
def Wide (s : Str) : Prop := ∃ c ∈ s, c.utf8Size ≠ 1

/-- The text contains a command that defines macros. -/
def Defines (t : Str) : Prop := ∃ w ∈ definingCommands, w <:+: t

/-- The text defines no macros, and contains none of the constructs that produce no element, several
elements, or an element in the wrong place: `\relax`, `\pmod`, `\buildrel`, a root with an index, scripts
directly on an alignment or line break, a font command applied to an alignment or line break. -/
structure Clean (s : Str) : Prop where
  macros : ∀ w ∈ definingCommands, ¬ w <:+: s
  relax : ¬ c!"\\relax" <:+: s
  pmod : ¬ c!"\\pmod" <:+: s
  buildrel : ¬ c!"\\buildrel" <:+: s
  root : ∀ w, Spaces w → ¬ (c!"\\sqrt" ++ w ++ ['[']) <:+: s
  alignment : ∀ w c, Spaces w → c = '^' ∨ c = '_' → ¬ ('&' :: w ++ [c]) <:+: s
  lineBreak : ∀ b m c, b = c!"\\\\" ∨ b = c!"\\cr" → BreakTail m → c = '^' ∨ c = '_' → ¬ (b ++ m ++ [c]) <:+: s
  font : ∀ n ∈ fontCommands, ∀ k b, Blank k → b = ['&'] ∨ b = c!"\\\\" ∨ b = c!"\\cr" →
    ¬ ('\\' :: n ++ k ++ b) <:+: s

/-- Every part of a clean text is clean. -/
theorem Clean.infix {s t : Str} (h : Clean s) (ht : t <:+: s) : Clean t where
  macros w hw hi := h.macros w hw (hi.trans ht)
  relax hi := h.relax (hi.trans ht)
  pmod hi := h.pmod (hi.trans ht)
  buildrel hi := h.buildrel (hi.trans ht)
  root w hw hi := h.root w hw (hi.trans ht)
  alignment w c hw hc hi := h.alignment w c hw hc (hi.trans ht)
  lineBreak b m c hb hm hc hi := h.lineBreak b m c hb hm hc (hi.trans ht)
  font n hn k b hk hb hi := h.font n hn k b hk hb (hi.trans ht)

end PL.Spec
