import Verif.Spec.Expression
set_option autoImplicit false
/-!
# Expressions with white space

The LaTeX of an expression (`Spec/Expression.lean`), with white space of any kind and length between its parts. `gap` gives the white space at each place of the
tree; a place is a path from the top.
-/
namespace PL.Spec
open Lex Mathml

/-- White space where some is needed. -/
def apart (g : Str) : Str := if g = [] then c!" " else g

/-- A group in braces, with white space before each brace and at the start. -/
def inBraces (g₁ g₂ t g₃ : Str) : Str := g₁ ++ (c!"{" ++ (g₂ ++ (t ++ (g₃ ++ c!"}"))))

def Infix.spaced (g : Str) : Infix → Str
  | .plus => c!"+" ++ g
  | .minus => c!"-" ++ g
  | .equals => c!"=" ++ g
  | .comma => c!"," ++ g
  | .slash => c!"/" ++ g
  | .asterisk => c!"*" ++ g
  | .greater => c!">" ++ g
  | .colon => c!":" ++ g
  | .semicolon => c!";" ++ g
  | .operation name _ _ => c!"\\" ++ name ++ apart g
  | .relation name _ _ => c!"\\" ++ name ++ apart g

mutual
def Operand.spaced (gap : List Nat → Str) (p : List Nat) : Operand → Str
  | .letter c _ => [c]
  | .number ds _ => ds ++ apart (gap (0 :: p))
  | .named name _ _ => c!"\\" ++ (name ++ apart (gap (0 :: p)))
  | .group e => c!"{" ++ (gap (0 :: p) ++ (e.spaced gap (0 :: p) ++ (gap (1 :: p) ++ c!"}")))
  | .fraction n d => c!"\\frac" ++ (inBraces (gap (0 :: p)) (gap (1 :: p)) (n.spaced gap (0 :: p)) (gap (2 :: p)) ++
      inBraces (gap (3 :: p)) (gap (4 :: p)) (d.spaced gap (1 :: p)) (gap (5 :: p)))
  | .root e => c!"\\sqrt" ++ inBraces (gap (0 :: p)) (gap (1 :: p)) (e.spaced gap (0 :: p)) (gap (2 :: p))
  | .nthRoot i e => c!"\\sqrt" ++ (gap (0 :: p) ++ (c!"[" ++ ((gap (1 :: p) ++ (i.spaced gap (0 :: p) ++ gap (2 :: p))) ++ (c!"]" ++
      inBraces (gap (3 :: p)) (gap (4 :: p)) (e.spaced gap (1 :: p)) (gap (5 :: p))))))
  | .accented a e => a.source ++ inBraces (gap (0 :: p)) (gap (1 :: p)) (e.spaced gap (0 :: p)) (gap (2 :: p))
  | .word t _ => c!"\\text" ++ (gap (0 :: p) ++ (c!"{" ++ (t ++ c!"}")))
  | .styled a l _ _ => a.source ++ inBraces (gap (0 :: p)) (gap (1 :: p)) [l] (gap (2 :: p))
  | .fenced f e => c!"\\left" ++ (gap (0 :: p) ++ ([f.opening] ++ ((gap (1 :: p) ++ (e.spaced gap (0 :: p) ++ gap (2 :: p))) ++ (c!"\\right" ++ (gap (3 :: p) ++ [f.closing])))))
  | .matrix g => c!"\\begin{matrix}" ++ ((gap (0 :: p) ++ (g.spaced gap (0 :: p) ++ gap (1 :: p))) ++ c!"\\end{matrix}")
  | .choice g => c!"\\begin{cases}" ++ ((gap (0 :: p) ++ (g.spaced gap (0 :: p) ++ gap (1 :: p))) ++ c!"\\end{cases}")
def Scripted.spaced (gap : List Nat → Str) (p : List Nat) : Scripted → Str
  | .plain b => b.spaced gap (0 :: p)
  | .sup b e => b.spaced gap (0 :: p) ++ (gap (0 :: p) ++ (c!"^" ++ e.spaced gap (1 :: p)))
  | .sub b e => b.spaced gap (0 :: p) ++ (gap (0 :: p) ++ (c!"_" ++ e.spaced gap (1 :: p)))
  /- no white space between the scripts: see `C80_false_scripts` -/
  | .subSup b l u => b.spaced gap (0 :: p) ++ (gap (0 :: p) ++ (c!"_" ++ (l.spaced gap (1 :: p) ++ (c!"^" ++ u.spaced gap (2 :: p)))))
def Index.spaced (gap : List Nat → Str) (p : List Nat) : Index → Str
  | .braced e => inBraces (gap (0 :: p)) (gap (1 :: p)) (e.spaced gap (0 :: p)) (gap (2 :: p))
  | .letter c _ => gap (0 :: p) ++ [c]
  | .digit c _ => gap (0 :: p) ++ [c]
def Expr.spaced (gap : List Nat → Str) (p : List Nat) : Expr → Str
  | .one i => i.spaced gap (0 :: p)
  | .next i e => i.spaced gap (0 :: p) ++ (gap (0 :: p) ++ e.spaced gap (1 :: p))
  | .infix i o e => i.spaced gap (0 :: p) ++ (gap (0 :: p) ++ (o.spaced (gap (1 :: p)) ++ e.spaced gap (1 :: p)))
  | .signed s e => s.source ++ (gap (0 :: p) ++ e.spaced gap (0 :: p))
  | .apply f e => c!"\\" ++ (f.name ++ (apart (gap (0 :: p)) ++ e.spaced gap (0 :: p)))
  | .big op l u e => op.source ++ (gap (0 :: p) ++ (c!"_" ++ (l.spaced gap (0 :: p) ++ (c!"^" ++ (u.spaced gap (1 :: p) ++ (gap (1 :: p) ++ e.spaced gap (2 :: p)))))))
  | .ranged op l e => op.source ++ (gap (0 :: p) ++ (c!"_" ++ (l.spaced gap (0 :: p) ++ (gap (1 :: p) ++ e.spaced gap (1 :: p)))))
def Entries.spaced (gap : List Nat → Str) (p : List Nat) : Entries → Str
  | .last e => e.spaced gap (0 :: p)
  | .cons e es => e.spaced gap (0 :: p) ++ (gap (0 :: p) ++ (c!"&" ++ (gap (1 :: p) ++ es.spaced gap (1 :: p))))
def Grid.spaced (gap : List Nat → Str) (p : List Nat) : Grid → Str
  | .last es => es.spaced gap (0 :: p)
  | .cons es g => es.spaced gap (0 :: p) ++ (gap (0 :: p) ++ (c!"\\\\" ++ (gap (1 :: p) ++ g.spaced gap (1 :: p))))
end

end PL.Spec
