import Verif.Spec.Text
set_option autoImplicit false
/-!
# Specification of macro definitions and expansion

Independent of the representation of macros: everything is stated on source text.
-/
namespace PL.Spec

/-- The character of a parameter number from 1 to 9. -/
def paramDigit (i : Nat) : Char := Char.ofNat (48 + i)

/-- A replacement text for `n` parameters: every `#` is followed by `#` or by a parameter number from
1 to `n`. -/
inductive ReplText (n : Nat) : Str → Prop
  | nil : ReplText n []
  | hash {s} : ReplText n s → ReplText n ('#' :: '#' :: s)
  | param {i s} : 1 ≤ i → i ≤ n → i ≤ 9 → ReplText n s → ReplText n ('#' :: paramDigit i :: s)
  | char {c s} : c ≠ '#' → ReplText n s → ReplText n (c :: s)

/-- Substitution: `##` reads `#`, and `#i` reads the `i`-th argument. -/
inductive Subst (args : List Str) : Str → Str → Prop
  | nil : Subst args [] []
  | hash {s t} : Subst args s t → Subst args ('#' :: '#' :: s) ('#' :: t)
  | param {i a s t} : 1 ≤ i → i ≤ 9 → args[i - 1]? = some a → Subst args s t →
      Subst args ('#' :: paramDigit i :: s) (a ++ t)
  | char {c s t} : c ≠ '#' → Subst args s t → Subst args (c :: s) (c :: t)

/-- `ParamText i text delims`: the text is `#i` followed by the first delimiter, `#(i+1)` followed by
the second delimiter, and so on. -/
inductive ParamText : Nat → Str → List Str → Prop
  | nil {i} : ParamText i [] []
  | cons {i d s ds} : i ≤ 9 → '#' ∉ d → ParamText (i + 1) s ds →
      ParamText i ('#' :: paramDigit i :: (d ++ s)) (d :: ds)

/-- The parameter text of `\def`: a prefix, then the parameters with their delimiters, then perhaps a
last `#` standing for "up to an opening brace". -/
inductive DefText : Str → Str → List Str → Bool → Prop
  | plain {pre s ds} : '#' ∉ pre → ParamText 1 s ds → DefText (pre ++ s) pre ds false
  | brace {pre s ds} : '#' ∉ pre → ParamText 1 s ds → DefText (pre ++ s ++ ['#']) pre ds true

/-- `ReadArg s a r`: an undelimited argument, in its written form `a`, is read from `s`, leaving `r`. -/
inductive ReadArg : Str → Str → Str → Prop
  | group {w s g r} : Spaces w → Split ['{'] ['}'] 0 s g r → ReadArg (w ++ '{' :: s) ('{' :: g ++ ['}']) r
  | char {k c r} : Blank k → c ≠ '\\' → c ≠ '%' → isWs c = false →
      (c = '{' → '%' ∈ k) → ReadArg (k ++ c :: r) [c] r
  | cs {k s name w r} : Blank k → CsName s name (w ++ r) → Spaces w →
      (∀ c r', r = c :: r' → isWs c = false) → ReadArg (k ++ '\\' :: s) ('\\' :: name) r

/-- `Delimited d s a r`: the argument `a` extends in `s` up to the first occurrence of the delimiter `d`
that is not escaped, in a comment or in braces; `r` is the text after the delimiter. -/
inductive Delimited (d : Str) : Str → Str → Str → Prop
  | found {r} : Delimited d (d ++ r) [] r
  | comment {line s a r} : ¬ d <+: '%' :: (line ++ '\n' :: s) → '\n' ∉ line → Delimited d s a r →
      Delimited d ('%' :: (line ++ '\n' :: s)) ('%' :: (line ++ '\n' :: a)) r
  | escaped {c s a r} : ¬ d <+: '\\' :: c :: s → Delimited d s a r →
      Delimited d ('\\' :: c :: s) ('\\' :: c :: a) r
  | braces {s g s' a r} : ¬ d <+: '{' :: s → Split ['{'] ['}'] 0 s g s' → Delimited d s' a r →
      Delimited d ('{' :: s) ('{' :: (g ++ '}' :: a)) r
  | char {c s a r} : ¬ d <+: c :: s → c ≠ '\\' → c ≠ '%' → c ≠ '{' → Delimited d s a r →
      Delimited d (c :: s) (c :: a) r

/-- `ReadArgs brace delims s args r`: the arguments for parameters with the given delimiters (empty for
undelimited ones) are read from `s`, leaving `r`. With `brace`, the last argument extends up to
the first occurrence of its delimiter followed by an opening brace (neither is consumed). -/
inductive ReadArgs (brace : Bool) : List Str → Str → List Str → Str → Prop
  | nil {s} : ReadArgs brace [] s [] s
  | last {d a t} : brace = true →
      (∀ u v, a ++ d ++ '{' :: t = u ++ (d ++ '{' :: v) → a.length ≤ u.length) →
      ReadArgs brace [d] (a ++ d ++ '{' :: t) [a] (d ++ '{' :: t)
  | plain {ds s a s' as r} : (ds = [] → brace = false) → ReadArg s a s' → ReadArgs brace ds s' as r →
      ReadArgs brace ([] :: ds) s (a :: as) r
  | delimited {d ds s a s' as r} : (ds = [] → brace = false) → d ≠ [] → Delimited d s a s' →
      ReadArgs brace ds s' as r → ReadArgs brace (d :: ds) s (a :: as) r

end PL.Spec
