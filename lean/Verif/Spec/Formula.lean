import Verif.Spec.Document
import Verif.Spec.Delimiter
import Verif.Spec.Colour
import Verif.Spec.Environment
import Verif.Spec.Characters
import Verif.Spec.Expansion
set_option autoImplicit false
/-!
# The formula that a text stands for

A grammar on source text: which tree of `Spec.Document` a text stands for. It is written down rule by rule as a manual of LaTeX would, on texts and trees
only. It says nothing about how a text is read. What a command name stands for (`\alpha` is the ordinary symbol `α`, `\sum` is a large operator) is looked
up in the table of commands.
-/
namespace PL.Spec
open Lex

/-! ## Parts of the source -/

/-- No script follows directly. -/
def NoScriptHere (s : Str) : Prop := ∀ c u, s = c :: u → c ≠ '^' ∧ c ≠ '_'

/-- A single token as an argument: a group in braces does not come next. -/
def TokArg (s : Str) (x : Word) (t : Str) : Prop := NextTok s x t ∧ ∀ w u, Spaces w → s ≠ w ++ '{' :: u

/-- A length, and at most one space after it. -/
inductive Length : Str → Dim → Str → Prop
  | mk {s neg ip fp u t r} : DimText s neg ip fp u t → OptSpace t r → (∀ c t', t = c :: t' → isWs c = true → c.toNat < 128) →
      Length s ⟨⟨(if neg then -1 else 1) * (decValue (ip ++ fp) : Nat), 10 ^ fp.length⟩, u⟩ r

/-- The stretch or shrink of a glue, if there is any. -/
inductive Stretch (word : Str) : Str → Option Dim → Str → Prop
  | none {s} : (∀ w u, Spaces w → s ≠ w ++ word ++ u) → Stretch word s none s
  | some {w s d r} : Spaces w → Length s d r → Stretch word (w ++ word ++ s) (some d) r

/-- A glue: a length, its stretch and its shrink. -/
inductive Glue : Str → Dim × Option Dim × Option Dim → Str → Prop
  | mk {s d t p u m r} : Length s d t → Stretch c!"plus" t p u → Stretch c!"minus" u m r → Glue s (d, p, m) r

/-- Something in braces or without them. -/
inductive MaybeBraced {α : Type} (What : Str → α → Str → Prop) : Str → α → Str → Prop
  | bare {s a r} : (∀ w u, Spaces w → s ≠ w ++ '{' :: u) → What s a r → MaybeBraced What s a r
  | braced {s g a u r} : Braced s g r → What g a u → Spaces u → MaybeBraced What s a r

/-- A group in braces with a colour. -/
def ColourArg (s : Str) (c : Nat × Nat × Nat) (r : Str) : Prop := ∃ g, Braced s g r ∧ '+' ∉ g ∧ Colour g c

/-- The delimiters of `\genfrac`: an empty group for none. -/
inductive GenDelim : Str → Option Char → Str → Prop
  | none {s r} : Braced s [] r → GenDelim s none r
  | chr {s c d ty r} : TokArg s (.chr c) r → charDelimiterMap c = some (d, ty) → GenDelim s (some d) r
  | cs {s n d ty r} : TokArg s (.cs n) r → controlSequenceDelimiterMap n = some (d, ty) → GenDelim s (some d) r

/-- The thickness of the bar of `\genfrac`. -/
inductive GenBar : Str → Option Dim → Str → Prop
  | none {s r} : Braced s [] r → GenBar s none r
  | some {s g d r} : Braced s g r → g ≠ [] → Length g d [] → GenBar s (some d) r

/-- The style of `\genfrac`. -/
inductive GenStyle : Str → Option Style → Str → Prop
  | none {s r} : Braced s [] r → GenStyle s none r
  | some {s r} {i : Nat} {st : Style} : TokArg s (.chr (Char.ofNat (48 + i))) r ∨ Braced s [Char.ofNat (48 + i)] r →
      [Style.display, .text, .script, .scriptScript][i]? = some st → GenStyle s (some st) r

/-- A text: a group in braces. A single character takes everything after it along. -/
inductive TextArg : Str → Str → Str → Prop
  | braced {s g r} : Braced s g r → TextArg s g r
  | rest {s c r} : TokArg s (.chr c) r → TextArg s (c :: r) r

/-- White space around one character. -/
def Lone (g : Str) (c : Char) : Prop := ∃ w w', Spaces w ∧ Spaces w' ∧ g = w ++ c :: w' ∧ isWs c = false

/-! ## Single symbols -/

/-- The symbol of a character without special meaning. -/
def charContent (c : Char) : Content :=
  if c.toNat < 128 then
    match asciiEvent c with
    | .content k => k
    | _ => .ordinary c false
  else if isBinary c then .binaryOp c false
  else if isRelation c then .relation c none false
  else
    match charDelimiterMap c with
    | some (d, .open_) => .delimiter d none .open_
    | some (d, .close) => .delimiter d none .close
    | some (d, .fence) => .ordinary d false
    | none => .ordinary c false

/-- The symbol of a command that is one symbol. -/
def symbol : Prim → Option Content
  | .func s => some (.function s)
  | .ord c => some (.ordinary c false)
  | .rel c small => some (.relation c none small)
  | .rel2 c d => some (.relation c (some d) false)
  | .bin c => some (.binaryOp c false)
  | .delim c ty => some (.delimiter c none ty)
  | .nbsp => some (.text c!"&nbsp;")
  | _ => none

/-- Tokens that are one symbol. -/
inductive Single : Word → Content → Prop
  | chr {x} : special x = false → Single (.chr x) (charContent x)
  | tie : Single (.chr '~') (.text c!"&nbsp;")
  | cs {name c} : symbol (primOf name) = some c → Single (.cs name) c

/-- Where the scripts of an element are set, if it says so, whether limit modifiers may follow it, and whether it takes no scripts at all because it
changes the state. -/
structure Place where
  pos : Option ScriptPos := none
  mods : Bool := false
  skip : Bool := false
  deriving DecidableEq

/-- What the second of two elements says counts more. -/
def Place.over (p q : Place) : Place := ⟨q.pos.or p.pos, p.mods || q.mods, p.skip || q.skip⟩

/-- Commands that are one symbol and take limits. -/
def operator : Prim → Option (Content × Place)
  | .funcMov s => some (.function s, ⟨some .movable, true, false⟩)
  | .largeOp c movable => some (.largeOp c false, ⟨some (if movable then .movable else .right), true, false⟩)
  | .smallint => some (.largeOp '∫' true, ⟨none, true, false⟩)
  | _ => none

/-- Commands that change the state of what follows. -/
def changeOf : Prim → Option StateChange
  | .fontChange f => some (.font (some f))
  | .style s => some (.style s)
  | _ => none

/-- One character of a given class. -/
def classContent : AtomClass → Char → Content
  | .ord, c => .ordinary c false
  | .op, c => .largeOp c false
  | .bin, c => .binaryOp c false
  | .rel, c => .relation c none false
  | .open_, c => .delimiter c none .open_
  | .close, c => .delimiter c none .close
  | .punct, c => .punctuation c
  | .inner, c => .ordinary c false

/-- Operators take limits. -/
def classPlace : AtomClass → Place
  | .op => ⟨some .movable, true, false⟩
  | _ => {}

/-- Accents that move scripts above and below. -/
def abovePlace (above : Bool) : Place := if above then ⟨some .aboveBelow, false, false⟩ else {}

/-- The limit modifiers after an element, if they may follow it. `true` is for `\limits`. -/
inductive Limits : Bool → Str → List Bool → Str → Prop
  | no {s} : Limits false s [] s
  | yes {s vs r} : WordSeq [(c!"\\limits", true), (c!"\\nolimits", false)] s vs r → Limits true s vs r

/-- The last modifier decides. -/
def placed (vs : List Bool) (p : ScriptPos) : ScriptPos :=
  match vs.getLast? with
  | some true => .aboveBelow
  | some false => .right
  | none => p

/-! ## Trees -/

def Nodes.one (n : Node) : Nodes := .cons n .nil
def Nodes.two (n m : Node) : Nodes := .cons n (.one m)
def Nodes.three (n m k : Node) : Nodes := .cons n (.two m k)

/-- The state changes at the start. -/
def Nodes.leading : Nodes → List StateChange
  | .cons (.change sc) ns => sc :: ns.leading
  | _ => []

/-- What comes after them. -/
def Nodes.body : Nodes → Nodes
  | .cons (.change _) ns => ns.body
  | ns => ns

/-- A group of some elements, in a changed state. -/
def block (d : Option (Option Char × Option Char)) (cs : List StateChange) (ns : Nodes) : Node := .group d (cs ++ ns.leading) ns.body

/-- A fraction with its delimiters, in a style. -/
def fractionNode (l r : Option Char) (bar : Option Dim) (style : Option Style) (num den : Nodes) : Node :=
  if l = none ∧ r = none ∧ style = none then .visual (.fraction bar) (num.append den)
  else .group (if l = none ∧ r = none then none else some (l, r)) (style.toList.map .style) (.one (.visual (.fraction bar) (num.append den)))

/-- A style at the start of the first cell. -/
def Cells.inStyle (st : Style) : Cells → Cells
  | .last b => .last (.cons (.change (.style st)) b)
  | .cell b cs => .cell (.cons (.change (.style st)) b) cs
  | .lost b ls cs => .lost (.cons (.change (.style st)) b) ls cs
def Rows.inStyle (st : Style) : Rows → Rows
  | .last cs => .last (cs.inStyle st)
  | .line cs sp ls rows => .line (cs.inStyle st) sp ls rows

/-- Horizontal lines after the start of the first cell, which are lost. -/
def Rows.losing (b : Nodes) (ls : List Line) : Rows → Rows
  | .last cs => .last (.lost b ls cs)
  | .line cs sp l rows => .line (.lost b ls cs) sp l rows

def isEquation : Grouping → Bool
  | .equation _ => true
  | _ => false

/-- An environment: lines above it, and a style. The lines are lost in an equation and after a style. -/
def linedTable (sh : EnvShape) (ls : List Line) (rows : Rows) : Node :=
  match sh.style with
  | none => if ls = [] then .table sh.group none rows else if isEquation sh.group then .table sh.group none (rows.losing .nil ls) else .table sh.group (some ls) rows
  | some st => .table sh.group none (if ls = [] then rows.inStyle st else rows.losing (.one (.change (.style st))) ls)

/-- An environment with delimiters around it. -/
def tableNode (sh : EnvShape) (ls : List Line) (rows : Rows) : Node :=
  match sh.around with
  | some (l, r) => .group (some (some l, some r)) [] (.one (linedTable sh ls rows))
  | none => linedTable sh ls rows

/-! ## The grammar -/

/-- What can be said of a text. -/
inductive Judgement where
  /-- the token `x` with the text `s` after it stands for `ns`, and `r` follows; `arg` if it is an argument of a command or a script -/
  | means (arg : Bool) (x : Word) (s : Str) (ns : Nodes) (r : Str) (pl : Place)
  /-- an argument of a command or a script at the start of `s` stands for `ns`, and `r` follows -/
  | operand (s : Str) (ns : Nodes) (r : Str) (pl : Place)
  /-- elements at the start of `s`, and `r` follows -/
  | elements (s : Str) (ns : Nodes) (r : Str)
  /-- a whole text -/
  | formula (s : Str) (ns : Nodes)
  /-- the cells of a line with at most `m` alignments -/
  | cells (m : Nat) (s : Str) (cs : Cells) (r : Str)
  /-- the lines of an environment -/
  | rows (m : Nat) (s : Str) (rows : Rows)

open Judgement in
/-- The rules. -/
inductive Reads (Δ : Known) : Judgement → Prop
  -- ### Tokens
  | single {a x s c} : Single x c → Reads Δ (means a x s (.one (.content c)) s {})
  /-- a number is as long as possible -/
  | number {x s lit r} : isDigit x = true → NumberLit (x :: s) lit r → Reads Δ (means false (.chr x) s (.one (.content (.number lit))) r {})
  /-- but a single digit as an argument -/
  | digit {x s} : isDigit x = true → Reads Δ (means true (.chr x) s (.one (.content (.number [x]))) s {})
  | braces {a s g r ns} : Split ['{'] ['}'] 0 s g r → Reads Δ (formula g ns) → Reads Δ (means a (.chr '{') s (.one (block none [] ns)) r {})
  /-- a script without a base -/
  | noBase {x s} : x = '^' ∨ x = '_' → Reads Δ (means false (.chr x) s (.one (.group none [] .nil)) (x :: s) {})
  -- ### Commands that are symbols
  | operator {a name s c pl} : operator (primOf name) = some (c, pl) → Reads Δ (means a (.cs name) s (.one (.content c)) s pl)
  | operatorname {a name s g r} : primOf name = .operatorname → TextArg s g r →
      Reads Δ (means a (.cs name) s (.one (.content (.function g))) r ⟨none, true, false⟩)
  | dotsLow {a name w c s} : primOf name = .dots → Spaces w → c = '.' ∨ c = ',' →
      Reads Δ (means a (.cs name) (w ++ c :: s) (.one (.content (.ordinary '…' false))) (w ++ c :: s) {})
  | dots {a name s} : primOf name = .dots → (∀ w c u, Spaces w → s = w ++ c :: u → c ≠ '.' ∧ c ≠ ',') →
      Reads Δ (means a (.cs name) s (.one (.content (.ordinary '⋯' false))) s {})
  | char {a name s m r} : primOf name = .char → IntConst s m r → m ≤ 255 →
      Reads Δ (means a (.cs name) s (.one (.content (.ordinary (Char.ofNat m) false))) r {})
  | relax {name s} : primOf name = .relax → Reads Δ (means false (.cs name) s .nil s {})
  -- ### Changes of the state
  | change {a name s sc} : changeOf (primOf name) = some sc → Reads Δ (means a (.cs name) s (.one (.change sc)) s ⟨none, false, true⟩)
  | color {a name s c r} : primOf name = .color → ColourArg s c r → Reads Δ (means a (.cs name) s (.one (.change (.color c .text))) r ⟨none, false, true⟩)
  -- ### Groups
  /-- the group is looked for between `\begin` and `\end` -/
  | begingroup {a name s g r ns} : primOf name = .begingroup → Split c!"\\begin" c!"\\end" 0 s g r → Reads Δ (formula g ns) →
      Reads Δ (means a (.cs name) s (.one (block none [] ns)) r {})
  -- ### Delimiters
  | sized {a name size s d ty r} : primOf name = .sized size → Delim s d ty r →
      Reads Δ (means a (.cs name) s (.one (.content (.delimiter d (some size) ty))) r {})
  | middle {a name s d ty r} : primOf name = .middle → Delim s d ty r →
      Reads Δ (means a (.cs name) s (.one (.content (.delimiter d (some .big) .fence))) r {})
  | left {a name s l t g u r v ns} : primOf name = .left → DelimText s l t → Split c!"\\left" c!"\\right" 0 t g u → DelimText u r v →
      Reads Δ (formula g ns) → Reads Δ (means a (.cs name) s (.one (block (some (l, r)) [] ns)) v {})
  -- ### Spaces
  | space {a name s w h} : primOf name = .space w h → Reads Δ (means a (.cs name) s (.one (.space w h none)) s {})
  | kern {a name s d r} : primOf name = .kern → MaybeBraced Length s d r → Reads Δ (means a (.cs name) s (.one (.space (some d) none none)) r {})
  | mkern {a name s d r} : primOf name = .mkern → MaybeBraced Length s d r → d.unit = .mu →
      Reads Δ (means a (.cs name) s (.one (.space (some d) none none)) r {})
  | hskip {a name s d p m r} : primOf name = .hskip → MaybeBraced Glue s (d, p, m) r →
      Reads Δ (means a (.cs name) s (.one (.space (some d) none none)) r {})
  | mskip {a name s d p m r} : primOf name = .mskip → MaybeBraced Glue s (d, p, m) r → d.unit = .mu → (∀ x, p = some x → x.unit = .mu) →
      (∀ x, m = some x → x.unit = .mu) → Reads Δ (means a (.cs name) s (.one (.space (some d) none none)) r {})
  | hspace {a name s g d p m u r} : primOf name = .hspace → Braced s g r → Glue g (d, p, m) u →
      Reads Δ (means a (.cs name) s (.one (.space (some d) none none)) r {})
  | space3 {a name s g1 w u1 t g2 h u2 t' g3 d u3 r} : primOf name = .space3 → Braced s g1 t → Length g1 w u1 → Braced t g2 t' → Length g2 h u2 →
      Braced t' g3 r → Length g3 d u3 → Reads Δ (means a (.cs name) s (.one (.space (some w) (some h) (some d))) r {})
  -- ### Commands with formulas as arguments
  | pmod {a name s ns r pl} : primOf name = .pmod → Reads Δ (operand s ns r pl) →
      Reads Δ (means a (.cs name) s (.three (.space (some ⟨⟨1, 1⟩, .em⟩) none none)
        (.group none [] ((Nodes.two (.content (.delimiter '(' none .open_)) (.content (.function c!"mod"))).append ns))
        (.content (.delimiter ')' none .close))) r pl)
  | classChar {a name cls s c r} : primOf name = .atom cls → TokArg s (.chr c) r →
      Reads Δ (means a (.cs name) s (.one (.content (classContent cls c))) r (classPlace cls))
  | classLone {a name cls s g c r} : primOf name = .atom cls → Braced s g r → Lone g c →
      Reads Δ (means a (.cs name) s (.one (.content (classContent cls c))) r (classPlace cls))
  | classGroup {a name cls s g ns r} : primOf name = .atom cls → cls ≠ .op → Braced s g r → (∀ c, ¬ Lone g c) → Reads Δ (formula g ns) →
      Reads Δ (means a (.cs name) s (.one (.group none [] (.one (block none [] ns)))) r {})
  /-- `\mathop{...}` takes its argument as a name -/
  | className {a name s g r} : primOf name = .atom .op → Braced s g r → (∀ c, ¬ Lone g c) →
      Reads Δ (means a (.cs name) s (.one (.content (.function g))) r (classPlace .op))
  | classToken {a name cls s x t ns r pl} : primOf name = .atom cls → TokArg s (.cs x) t → Δ.Free (.cs x) → Reads Δ (means true (.cs x) t ns r pl) →
      Reads Δ (means a (.cs name) s (.one (block none [] ns)) r ((classPlace cls).over pl))
  | fontGroup {a name f s g ns r} : primOf name = .fontGroup f → Braced s g r → Reads Δ (formula g ns) →
      Reads Δ (means a (.cs name) s (.one (block none [.font f] ns)) r {})
  | fontToken {a name f s x t ns r pl} : primOf name = .fontGroup f → TokArg s x t → Δ.Free x → Reads Δ (means a x t ns r pl) →
      Reads Δ (means a (.cs name) s (.one (block none [.font f] ns)) r pl)
  | textcolor {a name s c t ns r pl} : primOf name = .textcolor → ColourArg s c t → Reads Δ (operand t ns r pl) →
      Reads Δ (means a (.cs name) s (.one (block none [.color c .text] ns)) r pl)
  | colorbox {a name s c t g r} : primOf name = .colorbox → ColourArg s c t → TextArg t g r →
      Reads Δ (means a (.cs name) s (.one (.group none [.color c .background] (.one (.content (.text g))))) r {})
  | fcolorbox {a name s f t b u g r} : primOf name = .fcolorbox → ColourArg s f t → ColourArg t b u → TextArg u g r →
      Reads Δ (means a (.cs name) s (.one (.group none [.color f .border, .color b .background] (.one (.content (.text g))))) r {})
  | text {a name s g r} : primOf name = .text none → TextArg s g r → Reads Δ (means a (.cs name) s (.one (.content (.text g))) r {})
  | textFont {a name f s g r} : primOf name = .text (some f) → TextArg s g r →
      Reads Δ (means a (.cs name) s (.one (.group none [.font (some f)] (.one (.content (.text g))))) r {})
  | accent {a name c st above s ns r pl} : primOf name = .accent c st above → Reads Δ (operand s ns r pl) →
      Reads Δ (means a (.cs name) s (.one (.script .sup .aboveBelow (ns.append (.one (.content (.ordinary c st)))))) r ((abovePlace above).over pl))
  | under {a name c above s ns r pl} : primOf name = .under c above → Reads Δ (operand s ns r pl) →
      Reads Δ (means a (.cs name) s (.one (.script .sub .aboveBelow (ns.append (.one (.content (.ordinary c true)))))) r ((abovePlace above).over pl))
  | xarrow {a name c s t ns r pl} : primOf name = .xarrow c → NoOptional s t → Reads Δ (operand t ns r pl) →
      Reads Δ (means a (.cs name) s (.one (.script .sup .aboveBelow (.cons (.content (.relation c none false)) ns))) r pl)
  | xarrowBelow {a name c s b bs t ns r pl} : primOf name = .xarrow c → Bracketed s b t → Reads Δ (formula b bs) → Reads Δ (operand t ns r pl) →
      Reads Δ (means a (.cs name) s (.one (.script .subSup .aboveBelow (.cons (.content (.relation c none false)) (.cons (block none [] bs) ns)))) r pl)
  | frac {a name l r bar style s ns t ms u pl pl'} : primOf name = .frac l r bar style → Reads Δ (operand s ns t pl) → Reads Δ (operand t ms u pl') →
      Reads Δ (means a (.cs name) s (.one (fractionNode l r bar style ns ms)) u (pl.over pl'))
  | genfrac {a name l r bar style s s1 s2 s3 s4 ns t ms u pl pl'} : primOf name = .genfrac → GenDelim s l s1 → GenDelim s1 r s2 → GenBar s2 bar s3 →
      GenStyle s3 style s4 → Reads Δ (operand s4 ns t pl) → Reads Δ (operand t ms u pl') →
      Reads Δ (means a (.cs name) s (.one (fractionNode l r bar style ns ms)) u (pl.over pl'))
  | overset {a name ty s ns t ms u pl pl'} : primOf name = .overset ty → Reads Δ (operand s ns t pl) → Reads Δ (operand t ms u pl') →
      Reads Δ (means a (.cs name) s (.one (.script ty .aboveBelow (ms.append ns))) u (pl.over pl'))
  | buildrel {a name s o t g v ns ms u pl} : primOf name = .buildrel → Delimited c!"\\over" s o t → Braced o g v → Reads Δ (formula g ns) →
      Reads Δ (operand t ms u pl) → Reads Δ (means a (.cs name) s (.one (.script .sup .aboveBelow (ms.append (.one (block none [] ns))))) u pl)
  /-- a token takes its arguments from the text after `\over` -/
  | buildrelToken {a name s o t x v ns t' ms u pl pl'} : primOf name = .buildrel → Delimited c!"\\over" s o t → TokArg o x v →
      (∀ c, x = .chr c → isDigit c = false) → Δ.Free x → Reads Δ (means true x t ns t' pl) → Reads Δ (operand t' ms u pl') →
      Reads Δ (means a (.cs name) s (.one (.script .sup .aboveBelow (ms.append ns))) u (pl.over pl'))
  /-- after a digit, the text goes on before `\over`, and what comes after it is lost -/
  | buildrelDigit {a name s o t c v ms u pl} : primOf name = .buildrel → Delimited c!"\\over" s o t → TokArg o (.chr c) v → isDigit c = true →
      Reads Δ (operand v ms u pl) → Reads Δ (means a (.cs name) s (.one (.script .sup .aboveBelow (ms.append (.one (.content (.number [c])))))) u pl)
  | sideset {a name s w1 s1 w2 s2 ns r pl} : primOf name = .sideset → ReadArg s w1 s1 → ReadArg s1 w2 s2 → Reads Δ (operand s2 ns r pl) →
      Reads Δ (means a (.cs name) s ns r pl)
  | sqrt {a name s t ns r pl} : primOf name = .sqrt → NoOptional s t → Reads Δ (operand t ns r pl) →
      Reads Δ (means a (.cs name) s (.one (.visual .squareRoot ns)) r pl)
  /-- the index of a root is not put into a group -/
  | root {a name s b is t ns r pl} : primOf name = .sqrt → Bracketed s b t → Reads Δ (formula b is) → Reads Δ (operand t ns r pl) →
      Reads Δ (means a (.cs name) s (.one (.visual .root (ns.append is))) r pl)
  | surd {a name s} : primOf name = .surd →
      Reads Δ (means a (.cs name) s (.one (.visual .squareRoot (.one (.space (some ⟨⟨0, 1⟩, .em⟩) (some ⟨⟨7, 10⟩, .em⟩) none)))) s {})
  | negated {a name s ns r pl} : primOf name = .not_ → Reads Δ (operand s ns r pl) →
      Reads Δ (means a (.cs name) s (.one (.visual .negation ns)) r pl)
  -- ### Environments
  | substack {a name s g rows r} : primOf name = .substack → Braced s g r → Reads Δ (Judgement.rows 0 g rows) →
      Reads Δ (means a (.cs name) s (.one (.table (.subArray .center) none rows)) r {})
  | environment {a s name r0 sh r1 ls r2 X r rows} : Braced s name r0 → Selects name r0 sh r1 →
      WordSeq [(c!"\\hline", .solid), (c!"\\hdashline", .dashed)] r1 ls r2 →
      Split (c!"\\begin{" ++ name ++ c!"}") (c!"\\end{" ++ name ++ c!"}") 0 r2 X r →
      Reads Δ (Judgement.rows sh.alignments X rows) →
      Reads Δ (means a (.cs c!"begin") s (.one (tableNode sh ls rows)) r {})
  -- ### Arguments
  | groupArg {s g r ns} : Braced s g r → Reads Δ (formula g ns) → Reads Δ (operand s (.one (block none [] ns)) r {})
  | tokenArg {s x t ns r pl} : TokArg s x t → Δ.Free x → Reads Δ (means true x t ns r pl) → Reads Δ (operand s ns r pl)
  -- ### Sequences
  | nil {s} : Reads Δ (elements s .nil s)
  /-- a macro: its call is replaced, by something that is not a script of what comes before -/
  | call {s name t d body r ns u} : NextTok s (.cs name) t → Δ name = some d → Replaces d t body r → Ends body r → NoScript (body ++ r) →
      Reads Δ (elements (body ++ r) ns u) → Reads Δ (elements s ns u)
  /-- an element without scripts -/
  | plain {s x t ns r pl vs r' ms u} : NextTok s x t → Δ.Free x → Reads Δ (means false x t ns r pl) → pl.skip = false → Limits pl.mods r vs r' →
      NoScript r' → Reads Δ (elements r' ms u) → Reads Δ (elements s (ns.append ms) u)
  /-- an element that changes the state: a script after it is not its script -/
  | skipping {s x t ns r pl ms u} : NextTok s x t → Δ.Free x → Reads Δ (means false x t ns r pl) → pl.skip = true → Reads Δ (elements r ms u) →
      Reads Δ (elements s (ns.append ms) u)
  /-- an element with one script -/
  | script {s x t ns r pl vs w c v ks pl' v' ms u} : NextTok s x t → Δ.Free x → Reads Δ (means false x t ns r pl) → pl.skip = false →
      Limits pl.mods r vs (w ++ c :: v) → Spaces w → c = '^' ∨ c = '_' → Reads Δ (operand v ks v' pl') → NoScriptHere v' → Reads Δ (elements v' ms u) →
      Reads Δ (elements s (.cons (.script (if c = '^' then .sup else .sub) (pl'.pos.getD (placed vs (pl.pos.getD .right))) (ns.append ks)) ms) u)
  /-- an element with a subscript and a superscript -/
  | subSup {s x t ns r pl vs w v ks pl' v' ls pl'' v'' ms u} : NextTok s x t → Δ.Free x → Reads Δ (means false x t ns r pl) → pl.skip = false →
      Limits pl.mods r vs (w ++ '_' :: v) → Spaces w → Reads Δ (operand v ks ('^' :: v') pl') → Reads Δ (operand v' ls v'' pl'') → NoScriptHere v'' →
      Reads Δ (elements v'' ms u) →
      Reads Δ (elements s (.cons (.script .subSup ((pl'.over pl'').pos.getD (placed vs (pl.pos.getD .right))) (ns.append (ks.append ls))) ms) u)
  | supSub {s x t ns r pl vs w v ks pl' v' ls pl'' v'' ms u} : NextTok s x t → Δ.Free x → Reads Δ (means false x t ns r pl) → pl.skip = false →
      Limits pl.mods r vs (w ++ '^' :: v) → Spaces w → Reads Δ (operand v ls ('_' :: v') pl') → Reads Δ (operand v' ks v'' pl'') → NoScriptHere v'' →
      Reads Δ (elements v'' ms u) →
      Reads Δ (elements s (.cons (.script .subSup ((pl'.over pl'').pos.getD (placed vs (pl.pos.getD .right))) (ns.append (ks.append ls))) ms) u)
  | whole {s ns r} : Reads Δ (elements s ns r) → BlankEnd r → Reads Δ (formula s ns)
  -- ### Tables
  | lastCell {m s ns r} : Reads Δ (elements s ns r) → Reads Δ (cells m s (.last ns) r)
  | cell {m s ns t u cs r} : Reads Δ (elements s ns t) → NextTok t (.chr '&') u → NoScript u → Reads Δ (cells m u cs r) →
      Reads Δ (cells (m + 1) s (.cell ns cs) r)
  | lastLine {m s cs r} : Reads Δ (cells m s cs r) → BlankEnd r → Reads Δ (rows m s (.last cs))
  | line {m s cs t name u v ls w rs} : Reads Δ (cells m s cs t) → NextTok t (.cs name) u → Δ name = none → primOf name = .newline → NoOptional u v →
      WordSeq [(c!"\\hline", .solid), (c!"\\hdashline", .dashed)] v ls w → NoScript w → Reads Δ (rows m w rs) →
      Reads Δ (rows m s (.line cs none ls rs))
  | spacedLine {m s cs t name u g d e v ls w rs} : Reads Δ (cells m s cs t) → NextTok t (.cs name) u → Δ name = none → primOf name = .newline → Bracketed u g v →
      Length g d e → WordSeq [(c!"\\hline", .solid), (c!"\\hdashline", .dashed)] v ls w → NoScript w → Reads Δ (rows m w rs) →
      Reads Δ (rows m s (.line cs (some d) ls rs))

/-- `s` stands for the formula `ns`. -/
def Formula (s : Str) (ns : Nodes) : Prop := Reads Known.none (.formula s ns)

/-- `s` stands for the formula `ns`, when some macros are known; definitions come between the elements, outside of groups. -/
inductive Document : Known → Str → Nodes → Prop
  | formula {Δ s ns} : Reads Δ (.formula s ns) → Document Δ s ns
  | define {Δ s ns t Δ' u ms} : Reads Δ (.elements s ns t) → Defining Δ t Δ' u → Document Δ' u ms → Document Δ s (ns.append ms)

end PL.Spec
