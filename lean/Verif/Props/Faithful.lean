import Verif.Lemmas.ExpressionBack
import Verif.Props.Expression
set_option autoImplicit false
/-!
# C79: different formulas are rendered differently
-/
namespace PL.Props
open PL PL.Lex PL.Mathml Spec

/-- The text is parsed without error, and its rendering is the document. -/
def Rendered (cf : Cfg) (cfg : RCfg) (text document : Str) : Prop := ∃ es : List Event, Yields cf text (es.map .ok) ∧ pushMathml cfg (es.map .ok) [] = .ok document

theorem Displays.eq {cfg : RCfg} {es : List Event} {a d : Str} (h : Displays cfg es a) (hd : pushMathml cfg (es.map .ok) [] = .ok d) : d = framed cfg.block cfg.xml cfg.annotation a := by
  rw [h []] at hd
  injection hd with hd
  exact hd.symm

theorem items_inj : ∀ {es es' : List Event}, es.map Item.ok = es'.map Item.ok → es = es'
  | [], [], _ => rfl
  | [], _ :: _, h => by cases h
  | _ :: _, [], h => by cases h
  | a :: es, b :: es', h => by
    injection h with h1 h2
    injection h1 with h1
    rw [h1, items_inj h2]

/-- **C79.** The document tells the formula: two expressions with the same document are the same LaTeX. -/
theorem C79_different (cf cf' : Cfg) (cfg : RCfg) (hu : TellsCapitals cfg.isUpper) (e e' : Expr) (hp : e.proper = true) (hp' : e'.proper = true) (d : Str)
    (h : Rendered cf cfg e.source d) (h' : Rendered cf' cfg e'.source d) : e.source = e'.source := by
  have key : ∀ (cf : Cfg) (e : Expr), e.proper = true → Rendered cf cfg e.source d → d = framed cfg.block cfg.xml cfg.annotation (e.mathml cfg.block cfg.style false) := by
    rintro cf e hp ⟨es, ⟨n, hy⟩, hd⟩
    obtain ⟨es', ⟨m, hy'⟩, hs⟩ := C78_expression cf cfg hu e hp
    have := items_inj (run_unique hy hy')
    subst this
    exact hs.eq hd
  exact Back.same_source (framed_inj ((key cf e hp h).symm.trans (key cf' e' hp' h')))

/-- There is such a document. -/
theorem C79_exists (cf : Cfg) (cfg : RCfg) (hu : TellsCapitals cfg.isUpper) (e : Expr) (hp : e.proper = true) : ∃ d, Rendered cf cfg e.source d := by
  obtain ⟨es, hy, hs⟩ := C78_expression cf cfg hu e hp
  exact ⟨_, es, hy, hs []⟩

/-! ### Cases -/

/-- A sum with an index and one with a power. -/
def indexed : Expr := .infix (.sub (.letter 'x' (by decide)) (.braced (.one (.plain (num c!"2"))))) .plus (.one (var 'y'))
def raised : Expr := .infix (.sup (.letter 'x' (by decide)) (.braced (.one (.plain (num c!"2"))))) .plus (.one (var 'y'))

example : indexed.source = c!"x_{2 }+y" ∧ raised.source = c!"x^{2 }+y" ∧ indexed.proper = true ∧ raised.proper = true := by decide +kernel
example (cf : Cfg) (cfg : RCfg) (hu : TellsCapitals cfg.isUpper) : ∃ d d', Rendered cf cfg indexed.source d ∧ Rendered cf cfg raised.source d' ∧ d ≠ d' := by
  obtain ⟨d, h⟩ := C79_exists cf cfg hu indexed (by decide +kernel)
  obtain ⟨d', h'⟩ := C79_exists cf cfg hu raised (by decide +kernel)
  refine ⟨d, d', h, h', ?_⟩
  rintro rfl
  exact absurd (C79_different cf cf cfg hu indexed raised (by decide +kernel) (by decide +kernel) d h h') (by decide +kernel)

end PL.Props
