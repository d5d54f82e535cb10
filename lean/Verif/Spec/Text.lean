import Verif.Model.Str
set_option autoImplicit false
/-!
# Specifications on source text

Independent of the lexer: what blank text is, where a group ends, what a control word is.
-/
namespace PL.Spec

/-- Whitespace characters only. -/
def Spaces (s : Str) : Prop := ∀ c ∈ s, isWs c = true

/-- Text that TeX ignores between tokens: whitespace, and comments up to and including the end of their
line. -/
inductive Blank : Str → Prop
  | nil : Blank []
  | ws {c s} : isWs c = true → Blank s → Blank (c :: s)
  | comment {line s} : '\n' ∉ line → Blank s → Blank ('%' :: (line ++ '\n' :: s))

/-- Blank text, possibly ending in a comment that is not closed by an end of line. -/
inductive BlankEnd : Str → Prop
  | blank {s} : Blank s → BlankEnd s
  | comment {s line} : Blank s → '\n' ∉ line → BlankEnd (s ++ '%' :: line)

/-- `Split op cl d s g r`: reading `s` inside `d` nested groups (delimited by `op` and `cl`), the closer of
the outermost group comes after the content `g`, and `r` is the text after it. A backslash hides the
character after it, a comment hides its line. -/
inductive Split (op cl : Str) : Nat → Str → Str → Str → Prop
  /-- the closer of the outermost group -/
  | done {r} : Split op cl 0 (cl ++ r) [] r
  /-- a nested opener -/
  | opener {d s g r} : (d = 0 → ¬ cl <+: op ++ s) → Split op cl (d + 1) s g r → Split op cl d (op ++ s) (op ++ g) r
  /-- the closer of a nested group -/
  | closer {d s g r} : ¬ op <+: cl ++ s → Split op cl d s g r → Split op cl (d + 1) (cl ++ s) (cl ++ g) r
  /-- a comment -/
  | comment {d line s g r} : ¬ op <+: '%' :: (line ++ '\n' :: s) → ¬ cl <+: '%' :: (line ++ '\n' :: s) →
      '\n' ∉ line → Split op cl d s g r →
      Split op cl d ('%' :: (line ++ '\n' :: s)) ('%' :: (line ++ '\n' :: g)) r
  /-- an escaped character -/
  | escaped {d c s g r} : ¬ op <+: '\\' :: c :: s → ¬ cl <+: '\\' :: c :: s → Split op cl d s g r →
      Split op cl d ('\\' :: c :: s) ('\\' :: c :: g) r
  /-- any other character -/
  | char {d c s g r} : ¬ op <+: c :: s → ¬ cl <+: c :: s → c ≠ '\\' → c ≠ '%' → Split op cl d s g r →
      Split op cl d (c :: s) (c :: g) r

/-- The name of the control sequence starting (after its backslash) at a text, with what follows:
the longest run of ASCII letters, or else one character. -/
inductive CsName : Str → Str → Str → Prop
  | word {name r} : name ≠ [] → (∀ c ∈ name, isLetter c = true) →
      (∀ c r', r = c :: r' → isLetter c = false) → CsName (name ++ r) name r
  | symbol {c r} : isLetter c = false → CsName (c :: r) [c] r

/-- Characters with a meaning for the grammar: they start groups, scripts, numbers, commands and so on. -/
def special (c : Char) : Bool :=
  c ∈ ['\\', '%', '_', '^', '$', '#', '&', '{', '}', '~'] || isDigit c || isWs c

end PL.Spec
