import Verif.Spec.Call
import Verif.Spec.Preamble
set_option autoImplicit false
/-! # Specification of macros that mean the same -/
namespace PL.Spec

/-- The same names are defined, and every call that the definitions in `Δ` allow becomes the same text with those in `Δ'`. -/
def Covers (Δ Δ' : Known) : Prop := ∀ n, (Δ n = none ↔ Δ' n = none) ∧
  ∀ d d', Δ n = some d → Δ' n = some d' → ∀ s u, Calls d s u → Calls d' s u

/-- `#1#2…` with `k` parameters, counting on from `i`. -/
def holes : Nat → Nat → Str
  | _, 0 => []
  | i, k + 1 => '#' :: paramDigit i :: holes (i + 1) k

/-- `\def\name pt{rt}`. -/
def byDef (name pt rt : Str) : Str := c!"\\def\\" ++ name ++ pt ++ '{' :: rt ++ c!"}"

/-- `\newcommand{\name}[k]{rt}`. -/
def byNew (name : Str) (k : Nat) (rt : Str) : Str := c!"\\newcommand{\\" ++ name ++ c!"}[" ++ paramDigit k :: c!"]{" ++ rt ++ c!"}"

/-- A name of letters other than that of `\def`. -/
structure FreshName (name : Str) : Prop where
  nonempty : name ≠ []
  letters : ∀ c ∈ name, isLetter c = true
  other : name ≠ c!"def"

/-- A replacement text for `n` parameters whose braces are balanced. -/
structure Body (n : Nat) (rt : Str) : Prop where
  balanced : Split ['{'] ['}'] 0 (rt ++ ['}']) rt []
  parameters : ReplText n rt

/-- A parameter text, with its prefix and the delimiters of the parameters. -/
structure Heading (pt pre : Str) (ds : List Str) (brace : Bool) : Prop where
  text : DefText pt pre ds brace
  start : ∀ c u, pt = c :: u → isLetter c = false ∧ isWs c = false
  plain : '{' ∉ pt ∧ '}' ∉ pt ∧ '%' ∉ pt

end PL.Spec
