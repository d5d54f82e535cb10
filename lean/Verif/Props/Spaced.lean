import Verif.Lemmas.Spaced
import Verif.Props.Expression
set_option autoImplicit false
/-!
# White space between the parts of everyday formulas
-/
namespace PL.Props
open PL PL.Lex PL.Mathml Spec

mutual
theorem operand_source : ∀ (b : Operand) (p : List Nat), b.spaced (fun _ => []) p = b.source
  | .letter c _, p => rfl
  | .number ds _, p => rfl
  | .named name _ _, p => by simp [Operand.spaced, Operand.source, apart]
  | .group e, p => by simp [Operand.spaced, Operand.source, expr_source e]
  | .fraction n d, p => by simp [Operand.spaced, Operand.source, inBraces, expr_source n, expr_source d]
  | .root e, p => by simp [Operand.spaced, Operand.source, inBraces, expr_source e]
  | .nthRoot i e, p => by simp [Operand.spaced, Operand.source, inBraces, operand_source i, expr_source e]
  | .accented a e, p => by simp [Operand.spaced, Operand.source, inBraces, expr_source e]
  | .word t _, p => by simp [Operand.spaced, Operand.source]
  | .styled _ _ _ _, p => by simp [Operand.spaced, Operand.source, inBraces]
  | .fenced f e, p => by simp [Operand.spaced, Operand.source, expr_source e]
  | .matrix g, p => by simp [Operand.spaced, Operand.source, grid_source g]
  | .choice g, p => by simp [Operand.spaced, Operand.source, grid_source g]
theorem piece_source : ∀ (i : Scripted) (p : List Nat), i.spaced (fun _ => []) p = i.source
  | .plain b, p => operand_source b _
  | .sup b e, p => by simp [Scripted.spaced, Scripted.source, operand_source b, index_source e]
  | .sub b e, p => by simp [Scripted.spaced, Scripted.source, operand_source b, index_source e]
  | .subSup b l u, p => by simp [Scripted.spaced, Scripted.source, operand_source b, index_source l, index_source u]
theorem index_source : ∀ (s : Index) (p : List Nat), s.spaced (fun _ => []) p = s.source
  | .braced e, p => by simp [Index.spaced, Index.source, inBraces, expr_source e]
  | .letter _ _, p => rfl
  | .digit _ _, p => rfl
theorem expr_source : ∀ (e : Expr) (p : List Nat), e.spaced (fun _ => []) p = e.source
  | .one i, p => piece_source i _
  | .next i e, p => by simp [Expr.spaced, Expr.source, piece_source i, expr_source e]
  | .infix i o e, p => by cases o <;> simp [Expr.spaced, Expr.source, Infix.spaced, Infix.source, apart, piece_source i, expr_source e]
  | .signed s e, p => by simp [Expr.spaced, Expr.source, expr_source e]
  | .apply f e, p => by simp [Expr.spaced, Expr.source, apart, expr_source e]
  | .big op l u e, p => by simp [Expr.spaced, Expr.source, index_source l, index_source u, expr_source e]
  | .ranged op l e, p => by simp [Expr.spaced, Expr.source, index_source l, expr_source e]
theorem entries_source : ∀ (es : Entries) (p : List Nat), es.spaced (fun _ => []) p = es.source
  | .last e, p => expr_source e _
  | .cons e es, p => by simp [Entries.spaced, Entries.source, expr_source e, entries_source es]
theorem grid_source : ∀ (g : Grid) (p : List Nat), g.spaced (fun _ => []) p = g.source
  | .last es, p => entries_source es _
  | .cons es g, p => by simp [Grid.spaced, Grid.source, entries_source es, grid_source g]
end

/-- **C80 (partial).** However much white space of whatever kind there is before, after and between the parts of an expression, parsing it succeeds with the events
of the expression without it, and rendering them gives the MathML of the expression. Missing: white space between a subscript and a superscript, and white space
within `\begin{matrix}` and `\end{matrix}`, for which the claim is false (`C80_false_scripts`, `C80_false_end`). -/
theorem C80_spaces_partial (cf : Cfg) (cfg : RCfg) (hu : TellsCapitals cfg.isUpper) (e : Expr) (hn : e.proper = true) (gap : List Nat → Str) (hg : ∀ p, Spaces (gap p))
    (before after : Str) (hb : Spaces before) (ha : Spaces after) :
    ∃ es, Yields cf e.source (es.map .ok) ∧ Yields cf (before ++ e.spaced gap [] ++ after) (es.map .ok) ∧ Displays cfg es (e.mathml cfg.block cfg.style false) := by
  refine ⟨e.nodes.events, C55_meaning cf _ _ (expr_read e hn).formula, C55_meaning cf _ _ ?_, ?_⟩
  · rw [List.append_assoc]
    exact (Spaced.expr_read hg e [] hn).formula hb ha
  · rw [← (expr_shows hu e none false rfl).1]
    exact displays_body cfg (expr_regular e hn)

/-- Without white space, `spaced` is the LaTeX of the expression. -/
theorem C80_none (e : Expr) : e.spaced (fun _ => []) [] = e.source := expr_source e []

/-! ### Cases -/

/-- A gap that is different from place to place. -/
def gaps (p : List Nat) : Str := if p.length % 2 = 0 then c!" " else if p.head? = some 0 then c!"\n" else c!"\t  "

theorem gaps_spaces (p : List Nat) : Spaces (gaps p) := by
  unfold gaps
  split
  · intro c hc; simp at hc; subst hc; decide
  · split
    · intro c hc; simp at hc; subst hc; decide
    · intro c hc; simp at hc; rcases hc with rfl | rfl <;> decide

example : solution.spaced gaps [] = c!"x\n=\t  \\frac { b\n+\t  \\sqrt { b ^\n2\n-\t  4  a\nc } } { 2\n\na }" := by decide +kernel
example (cfg : RCfg) (hu : TellsCapitals cfg.isUpper) : ∃ es, Yields cf0 determinant.source (es.map .ok) ∧ Yields cf0 (c!"  " ++ determinant.spaced gaps [] ++ c!"\n") (es.map .ok) ∧
    Displays cfg es (determinant.mathml cfg.block cfg.style false) :=
  C80_spaces_partial cf0 cfg hu determinant (by decide +kernel) gaps gaps_spaces _ _ (by intro c hc; simp at hc; subst hc; decide) (by intro c hc; simp at hc; subst hc; decide)

/-- White space between a subscript and a superscript: the superscript is then one of an empty group. -/
theorem C80_false_scripts : let x : List Event := [.content (.ordinary 'x' false)]
    let one : List Event := [.begin_ .normal, .content (.number c!"1"), .end_]
    let two : List Event := [.begin_ .normal, .content (.number c!"2"), .end_]
    Yields cf0 c!"x_{1}^{2}" (([Event.script .subSup .right] ++ x ++ one ++ two).map .ok) ∧
    Yields cf0 c!"x_{1} ^{2}" (([Event.script .sub .right] ++ x ++ one ++ [Event.script .sup .right, .begin_ .normal, .end_] ++ two).map .ok) := by
  exact ⟨⟨30, by decide +kernel⟩, ⟨30, by decide +kernel⟩⟩

/-- White space after `\end` (LaTeX allows it): the environment has no end. -/
theorem C80_false_end : Yields cf0 c!"\\begin{matrix}a\\end{matrix}" ([Event.begin_ (.matrix .center), .content (.ordinary 'a' false), .end_].map .ok) ∧
    ((run cf0 30 (State.init c!"\\begin{matrix}a\\end {matrix}")).1.any fun i => match i with | .err _ _ => true | _ => false) = true := by
  exact ⟨⟨30, by decide +kernel⟩, by decide +kernel⟩

end PL.Props
