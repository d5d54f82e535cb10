import Verif.Model.Event
set_option autoImplicit false
/-!
# Primitives as data

The arms of the match in `handle_primitive` (primitives.rs 136-1961), as a data type. Which name has which
arm is the generated table `primTable`; what an arm does is `execPrim` in `Primitives.lean`.
-/
namespace PL

/-- `AtomClass`, primitives.rs 2319-2328 -/
inductive AtomClass where
  | ord | op | bin | rel | open_ | close | punct | inner
  deriving DecidableEq, Repr

/-- The arms of `handle_primitive`. -/
inductive Prim where
  /-- `E::Content(C::Function(..))` -/
  | func (s : Str)
  /-- the same with movable limits, primitives.rs 140-154 -/
  | funcMov (s : Str)
  | operatorname
  | pmod
  /-- `atom_group(class)`; `\mathop` also allows limits -/
  | atom (c : AtomClass)
  | ord (c : Char)
  | rel (c : Char) (small : Bool)
  | rel2 (c d : Char)
  | bin (c : Char)
  | dots
  | fontChange (f : Font)
  | fontGroup (f : Option Font)
  | style (s : Style)
  | color
  | textcolor
  | colorbox
  | fcolorbox
  | sized (s : DelimSize)
  | left
  | middle
  /-- `\right`, `\endgroup`, `\end`: always an error -/
  | unbalanced
  | largeOp (c : Char) (movable : Bool)
  | smallint
  /-- `accent(c, stretchy)`, preceded by `script_position = AboveBelow` if `above` -/
  | accent (c : Char) (stretchy above : Bool)
  | under (c : Char) (above : Bool)
  /-- fixed spaces; the depth is never given (the arm for `\strut` does not write the field) -/
  | space (w h : Option Dim)
  | nbsp
  | kern
  | hskip
  | mkern
  | mskip
  | hspace
  | space3
  | xarrow (c : Char)
  | frac (l r : Option Char) (bar : Option Dim) (style : Option Style)
  | genfrac
  /-- `\overset`, `\stackrel` (superscript) and `\underset` (subscript) -/
  | overset (ty : ScriptType)
  | buildrel
  | substack
  | sideset
  | sqrt
  | surd
  | text (f : Option Font)
  | not_
  | char
  | relax
  | begingroup
  | begin_
  | newline
  | def_
  | let_
  | futurelet
  | newcommand (shouldExist : Option Bool)
  /-- delimiters by name, primitives.rs 1923-1930 -/
  | delim (c : Char) (ty : DelimType)
  /-- the catch-all arm -/
  | unknown
  deriving DecidableEq, Repr

end PL
