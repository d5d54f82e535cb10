import Verif.Spec.Formula
import Verif.Spec.Clean
set_option autoImplicit false
/-!
# Texts without the constructs whose output is not the events of a tree

The texts for which the grammar of `Spec.Formula` is meant to be complete.
-/
namespace PL.Spec

/-- The text defines no macros, and contains none of these: scripts directly on an alignment or line break, a font command applied to an alignment or
line break, a signed number in a colour, and counts of columns that do not fit. -/
structure Regular (s : Str) : Prop where
  macros : ∀ w ∈ definingCommands, ¬ w <:+: s
  alignment : ∀ w c, Spaces w → c = '^' ∨ c = '_' → ¬ ('&' :: w ++ [c]) <:+: s
  lineBreak : ∀ b m c, b = c!"\\\\" ∨ b = c!"\\cr" → BreakTail m → c = '^' ∨ c = '_' → ¬ (b ++ m ++ [c]) <:+: s
  font : ∀ n ∈ fontCommands, ∀ k b, Blank k → b = ['&'] ∨ b = c!"\\\\" ∨ b = c!"\\cr" → ¬ ('\\' :: n ++ k ++ b) <:+: s
  colour : ∀ g, ('{' :: '#' :: g ++ ['}']) <:+: s → g.length = 6 → '+' ∉ g
  counts : ∀ name t, ('{' :: name ++ '}' :: t) <:+: s → ¬ Degenerate name t

/-- Every part of a regular text is regular. -/
theorem Regular.infix {s t : Str} (h : Regular s) (ht : t <:+: s) : Regular t where
  macros w hw hi := h.macros w hw (hi.trans ht)
  alignment w c hw hc hi := h.alignment w c hw hc (hi.trans ht)
  lineBreak b m c hb hm hc hi := h.lineBreak b m c hb hm hc (hi.trans ht)
  font n hn k b hk hb hi := h.font n hn k b hk hb (hi.trans ht)
  colour g hi := h.colour g (hi.trans ht)
  counts n u hi := h.counts n u (hi.trans ht)

end PL.Spec
