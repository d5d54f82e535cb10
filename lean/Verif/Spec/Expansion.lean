import Verif.Spec.Define
set_option autoImplicit false
/-!
# Specification of macros in use

What a macro is, what a call of it is replaced by, and how definitions change the macros that are known. Everything is stated on source text.
-/
namespace PL.Spec

/-- An optional argument: given in brackets, or absent. -/
inductive ReadOpt (dflt : Str) : Str → Str → Str → Prop
  | given {w s g r} : Spaces w → Split ['['] [']'] 0 s g r → ReadOpt dflt (w ++ '[' :: s) g r
  | absent {s} : (∀ w t, Spaces w → s ≠ w ++ '[' :: t) → ReadOpt dflt s dflt s

/-- No subscript or superscript comes next. -/
def NoScript (s : Str) : Prop := ∀ w c u, Spaces w → s = w ++ c :: u → c ≠ '^' ∧ c ≠ '_'

/-- A macro, by the text of its definition. -/
inductive MacroDef where
  /-- `\def`: the prefix, the delimiters of the parameters, whether the last parameter ends at a brace, the replacement text -/
  | plain (pre : Str) (ds : List Str) (brace : Bool) (rt : Str)
  /-- `\newcommand`: the number of parameters, the default of the first one, the replacement text -/
  | command (n : Nat) (dflt : Option Str) (rt : Str)
  /-- `\let`: another token -/
  | alias (x : Word)

/-- The source text of a token. -/
def Word.text : Word → Str
  | .chr c => [c]
  | .cs name => '\\' :: name

/-- `Replaces d s body r`: of the text `s` after the name of the macro, all up to `r` belongs to the call, which is replaced by `body`. -/
inductive Replaces : MacroDef → Str → Str → Str → Prop
  | plain {pre ds b rt s args r body} : ReadArgs b ds s args r → Subst args rt body → Replaces (.plain pre ds b rt) (pre ++ s) body r
  | command {n rt s args r body} : ReadArgs false (List.replicate n []) s args r → Subst args rt body → Replaces (.command n none rt) s body r
  | default {n dflt rt s g u args r body} : (∀ w t, Spaces w → s = w ++ '[' :: t → ∃ g r, Split ['['] [']'] 0 t g r) → ReadOpt dflt s g u →
      ReadArgs false (List.replicate n []) u args r → Subst (('{' :: g ++ ['}']) :: args) rt body →
      Replaces (.command (n + 1) (some dflt) rt) s body r
  | alias {x s} : Replaces (.alias x) s x.text s

/-- A control word at the end of `body` does not go on in `r`. -/
def Ends (body r : Str) : Prop := ∀ u name c t, body = u ++ '\\' :: name → (∀ c ∈ name, isLetter c = true) → r = c :: t → isLetter c = false

/-- The macros that are known, by name. -/
abbrev Known := Str → Option MacroDef

def Known.none : Known := fun _ => .none
def Known.set (m : Known) (name : Str) (d : MacroDef) : Known := fun x => if x = name then some d else m x

/-- A token that is not a macro. -/
def Known.Free (m : Known) (x : Word) : Prop := ∀ name, x = .cs name → m name = .none

/-- `Defining m s m' r`: `s` begins with a definition, after which the macros are `m'` and the text is `r`. -/
inductive Defining (m : Known) : Str → Known → Str → Prop
  | def_ {s t name pt rt r pre ds b} : NextTok s (.cs c!"def") t → m c!"def" = .none → DefCommand t name pt rt r → DefText pt pre ds b →
      ReplText ds.length rt → Defining m s (m.set name (.plain pre ds b rt)) r
  | let_ {s t name x r} : NextTok s (.cs c!"let") t → m c!"let" = .none → LetText t name x r → Defining m s (m.set name (.alias x)) r
  | futurelet {s t name x r} : NextTok s (.cs c!"futurelet") t → m c!"futurelet" = .none → FutureText t name x r →
      Defining m s (m.set name (.alias x)) r
  | new {s t name n d rt r} : NextTok s (.cs c!"newcommand") t → m c!"newcommand" = .none → NewCommand t name n d rt r → ReplText n rt → NoScript r →
      m name = .none → Defining m s (m.set name (.command n d rt)) r
  | renew {s t name n d rt r} : NextTok s (.cs c!"renewcommand") t → m c!"renewcommand" = .none → NewCommand t name n d rt r → ReplText n rt → NoScript r →
      m name ≠ .none → Defining m s (m.set name (.command n d rt)) r
  | provide {s t name n d rt r} : NextTok s (.cs c!"providecommand") t → m c!"providecommand" = .none → NewCommand t name n d rt r →
      ReplText n rt → NoScript r → m name = .none → Defining m s (m.set name (.command n d rt)) r
  | provided {s t name n d rt r} : NextTok s (.cs c!"providecommand") t → m c!"providecommand" = .none → NewCommand t name n d rt r →
      ReplText n rt → NoScript r → m name ≠ .none → Defining m s m r

end PL.Spec
