import Verif.Spec.Effect
set_option autoImplicit false
/-!
# Specification of calls of macros, right and wrong

What the text after the name of a macro is replaced by, which error is reported when the arguments are not there, and what comes of an element that is
the call of a macro.
-/
namespace PL.Spec

/-- `BadArgs b ds s k`: the arguments for parameters with the delimiters `ds` are not all there. With `b`, the last one extends up to a brace. -/
inductive BadArgs (b : Bool) : List Str → Str → ErrorKind → Prop
  | last {d s} : b = true → (∀ u v, s ≠ u ++ (d ++ '{' :: v)) → BadArgs b [d] s .macroSuffixNotFound
  | plain {ds s k} : (ds = [] → b = false) → NoArgument s k → BadArgs b ([] :: ds) s k
  | delimited {d ds s k} : (ds = [] → b = false) → d ≠ [] → NotDelimited d s k → BadArgs b (d :: ds) s k
  | plainNext {ds s a r k} : (ds = [] → b = false) → ReadArg s a r → BadArgs b ds r k → BadArgs b ([] :: ds) s k
  | delimitedNext {d ds s a r k} : (ds = [] → b = false) → d ≠ [] → Delimited d s a r → BadArgs b ds r k → BadArgs b (d :: ds) s k

/-- `Calls d s u`: the text `s` after the name of the macro `d` becomes `u`. When a bracket is never closed, the default value is taken. -/
inductive Calls : MacroDef → Str → Str → Prop
  | plain {pre ds b rt s args r body} : ReadArgs b ds s args r → Subst args rt body → Calls (.plain pre ds b rt) (pre ++ s) (body ++ r)
  | command {n rt s args r body} : ReadArgs false (List.replicate n []) s args r → Subst args rt body → Calls (.command n none rt) s (body ++ r)
  | default {n dflt rt s g u args r body} : MaybeOptional s g u → ReadArgs false (List.replicate n []) u args r →
      Subst (('{' :: g.getD dflt ++ ['}']) :: args) rt body → Calls (.command (n + 1) (some dflt) rt) s (body ++ r)
  | alias {x s} : Calls (.alias x) s (x.text ++ s)

/-- `BadCall d s k`: the text `s` after the name of the macro `d` is not what the definition asks for. -/
inductive BadCall : MacroDef → Str → ErrorKind → Prop
  | prefix_ {pre ds b rt s} : (∀ u, s ≠ pre ++ u) → BadCall (.plain pre ds b rt) s .incorrectMacroPrefix
  | plain {pre ds b rt s k} : BadArgs b ds s k → BadCall (.plain pre ds b rt) (pre ++ s) k
  | command {n rt s k} : BadArgs false (List.replicate n []) s k → BadCall (.command n none rt) s k
  | default {n dflt rt s g u k} : MaybeOptional s g u → BadArgs false (List.replicate n []) u k → BadCall (.command (n + 1) (some dflt) rt) s k

/-- `Acts T Δ s e`: what comes of the element at the start of `s`, which may be the call of a macro. -/
inductive Acts (T : Option Nat) (Δ : Known) : Str → Effect → Prop
  | here {s e} : Meant T Δ s e → Acts T Δ s e
  | call {s name t d u e} : NextTok s (.cs name) t → Δ name = some d → Calls d t u → Acts T Δ u e → Acts T Δ s e
  | badCall {s name t d k} : NextTok s (.cs name) t → Δ name = some d → BadCall d t k → Acts T Δ s (.wrong k)

end PL.Spec
