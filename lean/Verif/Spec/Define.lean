import Verif.Spec.Macro
set_option autoImplicit false
/-!
# Specification of the commands that define macros
-/
namespace PL.Spec

/-- A group in braces, after white space: its content and the text after it. -/
def Braced (s g r : Str) : Prop := ∃ w t, Spaces w ∧ s = w ++ '{' :: t ∧ Split ['{'] ['}'] 0 t g r

/-- A group in brackets, after white space. -/
def Bracketed (s g r : Str) : Prop := ∃ w t, Spaces w ∧ s = w ++ '[' :: t ∧ Split ['['] [']'] 0 t g r

/-- No bracket is next. -/
def NoBracket (s : Str) : Prop := ∀ w t, Spaces w → s ≠ w ++ '[' :: t

/-- `Dangles d u s`: reading `s` inside `d` nested brackets, the outermost one is never closed; `u` if the text ends in a comment without an end of line. -/
inductive Dangles : Nat → Bool → Str → Prop
  | nil {d} : Dangles d false []
  | backslash {d} : Dangles d false ['\\']
  | opener {d u s} : Dangles (d + 1) u s → Dangles d u ('[' :: s)
  | closer {d u s} : Dangles d u s → Dangles (d + 1) u (']' :: s)
  | comment {d u line s} : '\n' ∉ line → Dangles d u s → Dangles d u ('%' :: (line ++ '\n' :: s))
  | unfinished {d line} : '\n' ∉ line → Dangles d true ('%' :: line)
  | escaped {d u c s} : Dangles d u s → Dangles d u ('\\' :: c :: s)
  | char {d u c s} : c ≠ '[' → c ≠ ']' → c ≠ '\\' → c ≠ '%' → Dangles d u s → Dangles d u (c :: s)

/-- `NoOptional s r`: there is no optional argument at the start of `s`, and `r` is what follows. If a bracket is never closed, the text after it is
lost, or only the bracket is. -/
inductive NoOptional : Str → Str → Prop
  | absent {s} : NoBracket s → NoOptional s s
  | lost {w t} : Spaces w → Dangles 0 false t → NoOptional (w ++ '[' :: t) []
  | dropped {w t} : Spaces w → Dangles 0 true t → NoOptional (w ++ '[' :: t) t

/-- The first argument of `\newcommand`: a control sequence in braces (text after it in the group is ignored). -/
def Names (s name r : Str) : Prop := ∃ g u, Braced s ('\\' :: g) r ∧ CsName g name u

/-- `[n]`, a number of parameters from 0 to 9: decimal digits, perhaps with a sign `+` and leading zeros. -/
def ParamNumber (g : Str) (n : Nat) : Prop :=
  ∃ ds, (g = ds ∨ g = '+' :: ds) ∧ ds ≠ [] ∧ (∀ c ∈ ds, isDigit c = true) ∧ n = ds.foldl (fun v c => v * 10 + (c.toNat - 48)) 0 ∧ n ≤ 9

/-- The text after `\newcommand`: `{\name}[n]{rt}` or `{\name}[n][d]{rt}`. -/
inductive NewCommand : Str → Str → Nat → Option Str → Str → Str → Prop
  | plain {s name r1 g n r2 rt r} : Names s name r1 → Bracketed r1 g r2 → ParamNumber g n → NoBracket r2 → Braced r2 rt r →
      NewCommand s name n none rt r
  | default {s name r1 g n r2 d r3 rt r} : Names s name r1 → Bracketed r1 g r2 → ParamNumber g n → Bracketed r2 d r3 → Braced r3 rt r →
      NewCommand s name n (some d) rt r

/-- The degenerate form `{\name}[n][{rt}` whose second bracket is never closed: the bracket is dropped. -/
def OpenBracket (s name : Str) (n : Nat) (rt r : Str) : Prop :=
  ∃ r1 g w t, Names s name r1 ∧ Bracketed r1 g (w ++ '[' :: t) ∧ ParamNumber g n ∧ Spaces w ∧
    (¬ ∃ g r, Split ['['] [']'] 0 t g r) ∧ Braced t rt r

/-- A token by what it says, without the place it was found at. -/
inductive Word where
  | chr (c : Char)
  | cs (name : Str)

/-- The next token of a text and what follows it (without the white space after a control sequence). -/
inductive NextTok : Str → Word → Str → Prop
  | chr {k c r} : Blank k → c ≠ '\\' → c ≠ '%' → isWs c = false → NextTok (k ++ c :: r) (.chr c) r
  | cs {k t name w r} : Blank k → CsName t name (w ++ r) → Spaces w → (∀ c r', r = c :: r' → isWs c = false) →
      NextTok (k ++ '\\' :: t) (.cs name) r

/-- The text after `\let`: a control sequence, perhaps an equals sign, a token. -/
inductive LetText : Str → Str → Word → Str → Prop
  | equals {g name w u x r} : CsName g name (w ++ '=' :: u) → Spaces w → NextTok u x r → LetText ('\\' :: g) name x r
  | plain {g name u x r} : CsName g name u → (∀ w v, Spaces w → u ≠ w ++ '=' :: v) → NextTok u x r → LetText ('\\' :: g) name x r

/-- The text after `\futurelet`: a control sequence and two tokens. `u` is the text from the first of the two on. -/
inductive FutureText : Str → Str → Word → Str → Prop
  | mk {g name w u x1 u2 x2 r} : CsName g name (w ++ u) → Spaces w → (∀ c r', u = c :: r' → isWs c = false) →
      NextTok u x1 u2 → NextTok u2 x2 r → FutureText ('\\' :: g) name x2 u

/-- The text after `\def`: a control sequence, the parameter text up to the first brace, and the replacement text in
braces. White space after the control sequence is not part of the parameter text. -/
def DefCommand (s name pt rt r : Str) : Prop := ∃ g w t, s = '\\' :: g ∧ CsName g name (w ++ (pt ++ '{' :: t)) ∧ Spaces w ∧
  (∀ c u, pt = c :: u → isWs c = false) ∧ '{' ∉ pt ∧ '}' ∉ pt ∧ '%' ∉ pt ∧ Split ['{'] ['}'] 0 t rt r

end PL.Spec
