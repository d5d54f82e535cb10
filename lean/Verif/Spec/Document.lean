import Verif.Model.Mathml
import Verif.Spec.Stream
set_option autoImplicit false
/-!
# The document that a sequence of events stands for

A formula is a tree: elements, groups, tables, and scripts and visuals with their operands. The document is given by
recursion over the tree. What an element is written as depends on the place it is in, on the state (font, colours,
style), on the class of what came before it, and on the class of what comes next.
-/
namespace PL.Spec
open Mathml (Atom RState)

/-! ## Markup -/

def attr (a : Str × Str) : Str := c!" " ++ a.1 ++ c!"=\"" ++ a.2 ++ c!"\""

/-- An element. -/
def tag (name : Str) (as : List (Str × Str)) (inner : Str) : Str :=
  c!"<" ++ name ++ as.flatMap attr ++ c!">" ++ inner ++ c!"</" ++ name ++ c!">"

/-- An empty element. -/
def void (name : Str) (as : List (Str × Str)) : Str := c!"<" ++ name ++ as.flatMap attr ++ c!" />"

/-- Words with something between them. -/
def joined (sep : Str) : List Str → Str
  | [] => []
  | [w] => w
  | w :: ws => w ++ sep ++ joined sep ws

/-- A `class` attribute, if there are classes. -/
def classes : List Str → List (Str × Str)
  | [] => []
  | cs => [(c!"class", joined c!" " cs)]

/-! ## Trees -/

mutual
/-- An element of a formula. -/
inductive Node where
  | content (c : Content)
  | space (width height depth : Option Dim)
  | change (sc : StateChange)
  /-- a group, with the delimiters around it if it has any, and the state changes at its start -/
  | group (delims : Option (Option Char × Option Char)) (changes : List StateChange) (body : Nodes)
  | script (ty : ScriptType) (pos : ScriptPos) (operands : Nodes)
  | visual (v : Visual) (operands : Nodes)
  /-- an environment, with the horizontal lines above it -/
  | table (g : Grouping) (lines : Option (List Line)) (rows : Rows)
inductive Nodes where
  | nil
  | cons (n : Node) (ns : Nodes)
/-- The lines of an environment. -/
inductive Rows where
  | last (cells : Cells)
  | line (cells : Cells) (spacing : Option Dim) (lines : List Line) (rest : Rows)
/-- The cells of a line. -/
inductive Cells where
  | last (body : Nodes)
  | cell (body : Nodes) (rest : Cells)
  /-- horizontal lines inside a cell, which are lost; the cell goes on after them -/
  | lost (body : Nodes) (lines : List Line) (rest : Cells)
end

mutual
/-- The events that a tree stands for. -/
def Node.events : Node → List Event
  | .content c => [.content c]
  | .space w h d => [.space w h d]
  | .change sc => [.stateChange sc]
  | .group none cs b => .begin_ .normal :: (cs.map .stateChange ++ (b.events ++ [.end_]))
  | .group (some (l, r)) cs b => .begin_ (.leftRight l r) :: (cs.map .stateChange ++ (b.events ++ [.end_]))
  | .script ty p ops => .script ty p :: ops.events
  | .visual v ops => .visual v :: ops.events
  | .table g none rows => .begin_ g :: (rows.events ++ [.end_])
  | .table g (some ls) rows => .begin_ g :: .flow (.startLines ls) :: (rows.events ++ [.end_])
def Nodes.events : Nodes → List Event
  | .nil => []
  | .cons n ns => n.events ++ ns.events
def Rows.events : Rows → List Event
  | .last cs => cs.events
  | .line cs sp ls rest => cs.events ++ .flow (.newLine sp ls) :: rest.events
def Cells.events : Cells → List Event
  | .last b => b.events
  | .cell b rest => b.events ++ .flow .alignment :: rest.events
  | .lost b ls rest => b.events ++ .flow (.startLines ls) :: rest.events
end

def Nodes.length : Nodes → Nat
  | .nil => 0
  | .cons _ ns => ns.length + 1

def Cells.length : Cells → Nat
  | .last _ => 1
  | .cell _ rest => rest.length + 1
  | .lost _ _ rest => rest.length

def Rows.single : Rows → Bool
  | .last (.last _) => true
  | _ => false

/-- The first cell starts with horizontal lines. -/
def Cells.lined : Cells → Bool
  | .lost .nil _ _ => true
  | _ => false

def Rows.lined : Rows → Bool
  | .last cs => cs.lined
  | .line cs _ _ _ => cs.lined

/-! ## What the renderer supports -/

def Nodes.startsWithChange : Nodes → Bool
  | .cons (.change _) _ => true
  | _ => false

/-- The environment is one, and an array has a column. -/
def tableOk : Grouping → Bool
  | .array cols => cols.any isColumn
  | g => g.isMathEnv

mutual
/-- Scripts and visuals have their operands, lines have at most the allowed number of cells, and horizontal lines at the start of an environment are
lost only in equations. -/
def Node.regular : Node → Bool
  | .group _ _ b => !b.startsWithChange && b.regular
  | .script ty _ ops => ops.length == scriptOperands ty && ops.regular
  | .visual v ops => ops.length == visualOperands v && ops.regular
  | .table (.equation _) ls rows => ls.isNone && rows.regular 1
  | .table g ls rows => tableOk g && (ls.isSome || !rows.lined) && rows.regular (alignments g + 1)
  | _ => true
def Nodes.regular : Nodes → Bool
  | .nil => true
  | .cons n ns => n.regular && ns.regular
def Rows.regular (k : Nat) : Rows → Bool
  | .last cs => decide (cs.length ≤ k) && cs.regular
  | .line cs _ _ rest => decide (cs.length ≤ k) && cs.regular && rest.regular k
def Cells.regular : Cells → Bool
  | .last b => b.regular
  | .cell b rest => b.regular && rest.regular
  | .lost b _ rest => b.regular && rest.regular
end

/-- A binary operator alone. -/
def Nodes.binary : Nodes → Bool
  | .cons (.content (.binaryOp _ _)) .nil => true
  | _ => false

mutual
/-- No delimiter with a size, no space without width, no negated binary operator, no lost lines, and one line in equations. -/
def Node.flawless : Node → Bool
  | .content (.delimiter _ (some _) _) => false
  | .space none _ _ => false
  | .group _ _ b => b.flawless
  | .script _ _ ops => ops.flawless
  | .visual v ops => !(v == .negation && ops.binary) && ops.flawless
  | .table (.equation _) ls rows => ls.isNone && rows.single && rows.flawless
  | .table _ _ rows => rows.flawless
  | _ => true
def Nodes.flawless : Nodes → Bool
  | .nil => true
  | .cons n ns => n.flawless && ns.flawless
def Rows.flawless : Rows → Bool
  | .last cs => cs.flawless
  | .line cs _ _ rest => cs.flawless && rest.flawless
def Cells.flawless : Cells → Bool
  | .last b => b.flawless
  | .cell b rest => b.flawless && rest.flawless
  | .lost _ _ _ => false
end

/-- One sequence after the other. -/
def Nodes.append : Nodes → Nodes → Nodes
  | .nil, ms => ms
  | .cons n ns, ms => .cons n (ns.append ms)

/-! ## Places, classes and states -/

/-- Where an element stands. -/
inductive Role where
  /-- in a group, a cell, or the formula itself -/
  | free
  /-- the base of a script -/
  | base
  /-- a sub- or superscript -/
  | script
  /-- a numerator or radicand -/
  | main
  /-- a denominator or the index of a root -/
  | aside
  /-- the operand of a negation -/
  | negated
  deriving DecidableEq, Repr

/-- An operand without a group around it. Binary operators are ordinary symbols there. -/
def Role.operand : Role → Bool
  | .free => false
  | .negated => false
  | _ => true

/-- Operands whose class does not count for what follows the whole. -/
def Role.silent : Role → Bool
  | .script => true
  | .aside => true
  | _ => false

/-- Operands of a script. -/
def Role.scripted : Role → Bool
  | .base => true
  | .script => true
  | _ => false

def scriptRoles : ScriptType → List Role
  | .subSup => [.base, .script, .script]
  | _ => [.base, .script]

def visualRoles : Visual → List Role
  | .fraction _ => [.main, .aside]
  | .root => [.main, .aside]
  | .squareRoot => [.main]
  | .negation => [.negated]

/-- The class after an element of class `a`. -/
def Role.after (r : Role) (prev : Option Atom) (a : Atom) : Option Atom := if r.silent then prev else some a

/-- The class of a content for what precedes it. -/
def ahead : Content → Atom
  | .binaryOp _ _ => .bin
  | .largeOp _ _ => .op
  | .relation _ _ _ => .rel
  | .delimiter _ _ .open_ => .open_
  | .delimiter _ _ .close => .close
  | .punctuation _ => .punct
  | _ => .ord

mutual
/-- The class of an element for what precedes it, if it has one: spaces and state changes do not, scripts and
negations have the class of their operand. -/
def Node.first : Node → Option Atom
  | .content c => some (ahead c)
  | .space _ _ _ => none
  | .change _ => none
  | .group _ _ _ => some .inner
  | .table _ _ _ => some .inner
  | .script _ _ ops => ops.first none
  | .visual .negation ops => ops.first none
  | .visual _ _ => some .inner
/-- The class of the first element that has one, or else `next`. -/
def Nodes.first (next : Option Atom) : Nodes → Option Atom
  | .nil => next
  | .cons n ns => n.first <|> ns.first next
end

/-- What can stand to the left of a binary operator. -/
def ordLike : Option Atom → Bool
  | some .inner => true
  | some .close => true
  | some .ord => true
  | _ => false

/-- What can stand to the right of a binary operator. -/
def startsOperand : Option Atom → Bool
  | some .inner => true
  | some .bin => true
  | some .op => true
  | some .ord => true
  | some .open_ => true
  | _ => false

/-- Whether an operator that can be binary is. -/
def actsBinary (r : Role) (prev next : Option Atom) : Bool := ordLike prev && !r.operand && startsOperand next

def changed (st : RState) : StateChange → RState
  | .font f => { st with font := f }
  | .color c .text => { st with text := some c }
  | .color c .border => { st with border := some c }
  | .color c .background => { st with background := some c }
  | .style s => { st with style := some s }

/-! ## Attributes -/

def styleAttributes : Option Style → List (Str × Str)
  | none => []
  | some .display => [(c!"displaystyle", c!"true"), (c!"scriptlevel", c!"0")]
  | some .text => [(c!"displaystyle", c!"false"), (c!"scriptlevel", c!"0")]
  | some .script => [(c!"displaystyle", c!"false"), (c!"scriptlevel", c!"1")]
  | some .scriptScript => [(c!"displaystyle", c!"false"), (c!"scriptlevel", c!"2")]

def rgb (c : Nat × Nat × Nat) : Str :=
  c!"rgb(" ++ joined c!" " [Nat.toDigits 10 c.1, Nat.toDigits 10 c.2.1, Nat.toDigits 10 c.2.2] ++ c!")"

def colourAttributes (st : RState) : List (Str × Str) :=
  match ((st.text.map fun c => c!"color: " ++ rgb c).toList ++
    (st.border.map fun c => c!"border: 0.06em solid " ++ rgb c).toList ++
    (st.background.map fun c => c!"background-color: " ++ rgb c).toList) with
  | [] => []
  | ds => [(c!"style", joined c!"; " ds)]

/-- The attributes that the state gives to an element: in scripts, the style is determined by the script. -/
def lookAttributes (r : Role) (st : RState) : List (Str × Str) :=
  (if r = .script then [] else styleAttributes st.style) ++ colourAttributes st

/-! ## Contents -/

/-- What the document depends on besides the events: block or inline display, the letters set upright, the letters
of the fonts (C37), and how dimensions are shown (C45). The document is `flawed` with four mistakes of the renderer: sized delimiters, spaces without
width, negated binary operators and line breaks in equations are written differently from what they should be. -/
structure Printing where
  flawed : Bool
  block : Bool
  upright : Char → Bool
  mapped : Font → Char → Char
  shown : Dim → Str

def escaped (c : Char) : Str :=
  match c with
  | '&' => c!"&amp;"
  | '<' => c!"&lt;"
  | '>' => c!"&gt;"
  | c => [c]

/-- Without the white space at both ends. -/
def trimmed (t : Str) : Str := ((t.dropWhile isWs).reverse.dropWhile isWs).reverse

def spaceAt : Option Char → Str
  | some c => if isWs c then c!"&nbsp;" else []
  | none => []

def thinSpace : Str := void c!"mspace" [(c!"width", c!"0.1667em")]

/-- After a function: the application operator and a thin space, unless nothing or a delimiter follows. -/
def application : Option Atom → Str
  | none => []
  | some .open_ => tag c!"mo" [] ['⁡']
  | some .close => tag c!"mo" [] ['⁡']
  | some .punct => tag c!"mo" [] ['⁡']
  | some _ => tag c!"mo" [] ['⁡'] ++ thinSpace

section
variable (P : Printing)

/-- A character of a text in a font. -/
def Printing.textual (font : Option Font) (c : Char) : Char :=
  match font with
  | none => c
  | some f => P.mapped f c

/-- A digit in a font. -/
def Printing.digit (font : Option Font) (c : Char) : Char :=
  match font with
  | none => c
  | some .boldSymbol => P.mapped .bold c
  | some f => P.mapped f c

/-- A letter in a font, and whether it is to be set upright by an attribute. -/
def Printing.letter (font : Option Font) (c : Char) : Char × Bool :=
  match font with
  | none => (c, P.upright c)
  | some .upRight => (c, true)
  | some .boldSymbol => (P.mapped (if P.upright c then .bold else .boldItalic) c, false)
  | some f => (P.mapped f c, false)

/-- The size of a delimiter. -/
def sizeAttributes (z : DelimSize) : List (Str × Str) :=
  let em := match z with | .big => c!"1.2em" | .BIG => c!"1.8em" | .bigg => c!"2.4em" | .BIGG => c!"3em"
  [(c!"minsize", em), (c!"maxsize", em)]

/-- The element for a content. -/
def Printing.content (r : Role) (st : RState) (prev next : Option Atom) (negated : Bool) (c : Content) : Str :=
  let elem (name : Str) (as : List (Str × Str)) (inner : Str) := tag name (lookAttributes r st ++ as) inner
  let stroke : Str := if negated then ['̸'] else []
  let small (b : Bool) : List (Str × Str) := if b then classes [c!"small"] else []
  let yes (b : Bool) : Str := if b then c!"true" else c!"false"
  match c with
  | .text t => elem c!"mtext" [] (spaceAt t.head? ++ (trimmed t).flatMap (fun c => escaped (P.textual st.font c)) ++
       spaceAt t.getLast?)
  | .number t => elem c!"mn" [] (t.map (P.digit st.font))
  | .function t => (if ordLike prev then thinSpace else []) ++
      elem c!"mi" (if t.length = 1 then [(c!"mathvariant", c!"normal")] else []) t ++
      (if r.scripted then [] else application next)
  | .ordinary c true => tag c!"mo" [(c!"stretchy", c!"true")] [c]
  | .ordinary c false => elem c!"mi" (if (P.letter st.font c).2 then [(c!"mathvariant", c!"normal")] else [])
      ((P.letter st.font c).1 :: stroke)
  | .binaryOp c b => elem (if actsBinary r prev next then c!"mo" else c!"mi") (small b) (c :: stroke)
  | .relation c second b => elem c!"mo" (small b) (c :: second.toList ++ stroke)
  | .largeOp c b => elem c!"mo" ((if b then [(c!"largeop", c!"false")] else []) ++ [(c!"movablelimits", c!"false")]) (c :: stroke)
  | .delimiter c none ty => elem c!"mo" [(c!"symmetric", yes (ty = .fence)), (c!"stretchy", yes (ty = .fence))] (c :: stroke)
  | .delimiter c (some z) _ =>
    let grow := [(c!"symmetric", c!"true"), (c!"stretchy", c!"true")]
    -- the mistake: no space between the attributes
    if P.flawed then c!"<mo" ++ (lookAttributes r st ++ grow).flatMap attr ++ ((sizeAttributes z).flatMap attr).tail ++ c!">" ++
      (c :: stroke ++ c!"</mo>")
    else elem c!"mo" (grow ++ sizeAttributes z) (c :: stroke)
  | .punctuation c => elem c!"mo" [] (c :: stroke)

/-- The class after a content. -/
def behind (r : Role) (prev next : Option Atom) : Content → Option Atom
  | .ordinary _ true => prev
  | .function _ => r.after prev .op
  | .binaryOp _ _ => r.after prev (if actsBinary r prev next then .bin else .ord)
  | .relation _ _ _ => r.after prev .rel
  | .largeOp _ _ => r.after prev .op
  | .delimiter _ _ .open_ => r.after prev .open_
  | .delimiter _ _ .close => r.after prev .close
  | .delimiter _ _ .fence => r.after prev .punct
  | .punctuation _ => r.after prev .punct
  | _ => r.after prev .ord

/-- The contents that a stroke can go through. -/
def strokable : Content → Bool
  | .text _ => false
  | .number _ => false
  | .function _ => false
  | _ => true

def Printing.space (w h d : Option Dim) : Str :=
  let rest := (h.map fun h => (c!"height", P.shown h)).toList ++ (d.map fun d => (c!"depth", P.shown d)).toList
  match w with
  | some w => void c!"mspace" ((c!"width", P.shown w) :: (if w.value.num < 0 then [(c!"style", c!"margin-left: " ++ P.shown w)] else []) ++ rest)
  | none => if P.flawed then rest.flatMap attr ++ c!" />" /- the mistake: no tag -/ else void c!"mspace" rest

/-- A delimiter that stretches with its group. -/
def stretched (r : Role) (st : RState) : Option Char → Str
  | none => []
  | some c => tag c!"mo" (lookAttributes r st ++ [(c!"stretchy", c!"true")]) [c]

end

/-! ## Tables -/

/-- The classes of a table. -/
def tableClasses : Grouping → List Str
  | .align eq => [c!"menv-alignlike", c!"menv-align"] ++ (if eq then [c!"menv-with-eqn"] else [])
  | .aligned => [c!"menv-alignlike", c!"menv-align"]
  | .alignat _ eq => [c!"menv-alignlike"] ++ (if eq then [c!"menv-with-eqn"] else [])
  | .alignedat _ => [c!"menv-alignlike"]
  | .split => [c!"menv-alignlike"]
  | .matrix .left => [c!"menv-arraylike", c!"menv-cells-left"]
  | .matrix .center => [c!"menv-arraylike"]
  | .matrix .right => [c!"menv-arraylike", c!"menv-cells-right"]
  | .array _ => [c!"menv-arraylike"]
  | .cases _ => [c!"menv-cells-left", c!"menv-cases"]
  | .subArray .left => [c!"menv-cells-left"]
  | .subArray .right => [c!"menv-cells-right"]
  | .gather true => [c!"menv-with-eqn"]
  | .equation true => [c!"menv-with-eqn"]
  | .multline => [c!"menv-multline"]
  | _ => []

def borderClass (side : Str) : Line → Str
  | .solid => c!"menv-" ++ side ++ c!"-solid"
  | .dashed => c!"menv-" ++ side ++ c!"-dashed"

def alignClasses : ColAlign → List Str
  | .left => [c!"cell-left"]
  | .center => []
  | .right => [c!"cell-right"]

/-- An empty cell that shows a border. -/
def borderCell (side : Str) (l : Line) : Str := tag c!"mtd" (classes [borderClass side l, c!"menv-border-only"]) []

/-- The rules at the start of a list of columns. -/
def rules : List ArrayCol → List Line
  | .separator l :: cs => l :: rules cs
  | _ => []

/-- The columns of an array, each with the rules that follow it. -/
def ruledColumns : List ArrayCol → List (ColAlign × List Line)
  | [] => []
  | .separator _ :: cs => ruledColumns cs
  | .column a :: cs => (a, rules cs) :: ruledColumns cs

/-- The cell in column `i`. In an array, the last rule before the first column and the first rule after each column
are borders of the cell; further rules are cells of their own. -/
def tableCell (g : Grouping) (i : Nat) (inner : Str) : Str :=
  match g with
  | .array cols =>
    let lead := if i = 0 then rules cols else []
    match (ruledColumns cols)[i]? with
    | none => []
    | some (a, rs) => lead.dropLast.flatMap (borderCell c!"left") ++
        tag c!"mtd" (classes ((lead.getLast?.map (borderClass c!"left")).toList ++ alignClasses a ++
          (rs.head?.map (borderClass c!"right")).toList)) inner ++
        rs.tail.flatMap (borderCell c!"right")
  | _ => tag c!"mtd" [] inner

/-- The class of a row below a horizontal line. -/
def lineClass : Line → List Str
  | .solid => [c!"menv-hline"]
  | .dashed => [c!"menv-hdashline"]

/-- A cell that is not numbered. -/
def blankCell : Str := tag c!"mtd" (classes [c!"menv-nonumber"]) []

/-- A row below some horizontal lines: all but the last of the lines have a row of their own. -/
def linedRow : List Line → Str → Str
  | [], inner => tag c!"mtr" [] inner
  | [l], inner => tag c!"mtr" (classes (lineClass l)) inner
  | l :: ls, inner => tag c!"mtr" (classes (lineClass l)) blankCell ++ linedRow ls inner

/-- Empty cells from column `i` on. -/
def emptyCells (g : Grouping) : Nat → Nat → Str
  | _, 0 => []
  | i, n + 1 => tableCell g i [] ++ emptyCells g (i + 1) n

/-- The row that makes vertical space. In arrays it has as many cells as the row above. -/
def spacingRow (P : Printing) (g : Grouping) (n : Nat) : Option Dim → Str
  | none => []
  | some d => tag c!"mtr" [(c!"style", c!"height: " ++ P.shown d)]
      (match g with
        | .array _ => emptyCells g 0 n
        | _ => blankCell)

/-- The table with its delimiter. -/
def tableElement (g : Grouping) (rows : Str) : Str :=
  let t := tag c!"mtable" (classes (tableClasses g)) rows
  match g with
  | .cases left => tag c!"mrow" [] ((if left then tag c!"mo" [(c!"stretchy", c!"true")] ['{'] else []) ++ t ++
      (if left then [] else tag c!"mo" [(c!"stretchy", c!"true")] ['}']))
  | _ => t

/-! ## Elements -/

def scriptElement : ScriptType → Bool → Str
  | .sub, above => if above then c!"munder" else c!"msub"
  | .sup, above => if above then c!"mover" else c!"msup"
  | .subSup, above => if above then c!"munderover" else c!"msubsup"

def visualElement : Visual → Str
  | .root => c!"mroot"
  | .squareRoot => c!"msqrt"
  | .fraction _ => c!"mfrac"
  | .negation => c!"mrow"

/-- Whether scripts go above and below. -/
def Printing.above (P : Printing) (st : RState) : ScriptPos → Bool
  | .right => false
  | .aboveBelow => true
  | .movable => match st.style with
    | some s => s = .display
    | none => P.block

/-- One of the nodes is a function name. -/
def Nodes.function : Nodes → Bool
  | .nil => false
  | .cons (.content (.function _)) _ => true
  | .cons _ ns => ns.function

/-- The single content, if it is one that a stroke can go through. -/
def Nodes.stroked : Nodes → Option Content
  | .cons (.content c) .nil => if strokable c then some c else none
  | _ => none

/-- What an element is written as, with the state and the class after it. -/
structure Written where
  text : Str
  st : RState
  prev : Option Atom

mutual
/-- The element, where `prev` and `next` are the classes before and after it. -/
def Node.markup (P : Printing) (r : Role) (st : RState) (prev next : Option Atom) : Node → Written
  | .content c => ⟨P.content r st prev next false c, st, behind r prev next c⟩
  | .space w h d => ⟨P.space w h d, st, prev⟩
  | .change sc => ⟨[], changed st sc, prev⟩
  | .group delims cs b =>
    let outer := cs.foldl changed st
    let inner := b.markup P [] { font := outer.font } (if delims.isSome then some .open_ else none) none
    let text := match delims with
      | none => inner.text
      | some (l, r') => stretched r {} l ++ inner.text ++ stretched r st r'
    ⟨tag c!"mrow" (lookAttributes r outer) text, st, if delims.isSome then some .close else some .inner⟩
  | .script ty pos ops =>
    let inner := ops.markup P (scriptRoles ty) st prev next
    ⟨tag (scriptElement ty (P.above st pos)) (lookAttributes .free st) inner.text ++
      (if ops.function then application next else []), inner.st, inner.prev⟩
  | .visual v ops =>
    match v, ops.stroked with
    | .negation, some c =>
      -- the mistake: the content itself is taken for what comes next
      let next := if P.flawed then some (ahead c) else next
      ⟨P.content r st prev next true c, st, behind r prev next c⟩
    | _, _ =>
      let inner := ops.markup P (visualRoles v) st prev next
      let as := match v with
        | .negation => lookAttributes r st ++ classes [c!"mop-negated"]
        | .fraction (some d) => lookAttributes .free st ++ [(c!"linethickness", P.shown d)]
        | _ => lookAttributes .free st
      ⟨tag (visualElement v) as inner.text, inner.st, match v with
        | .fraction _ => inner.prev
        | .root => inner.prev
        | _ => some .inner⟩
  | .table (.equation b) ls rows =>
    -- the mistake: the lines of an equation are put into one cell
    ⟨tableElement (.equation b) (if P.flawed then linedRow [] (tableCell (.equation b) 0 (rows.joined P)) else rows.markup P (.equation b) (ls.getD [])),
      st, some .inner⟩
  | .table g ls rows => ⟨tableElement g (rows.markup P g (ls.getD [])), st, some .inner⟩
/-- The elements, in the given roles and then free. -/
def Nodes.markup (P : Printing) (rs : List Role) (st : RState) (prev next : Option Atom) : Nodes → Written
  | .nil => ⟨[], st, prev⟩
  | .cons n ns =>
    let a := n.markup P (rs.headD .free) st prev (ns.first next)
    let b := ns.markup P rs.tail a.st a.prev next
    ⟨a.text ++ b.text, b.st, b.prev⟩
/-- The rows below the given lines. -/
def Rows.markup (P : Printing) (g : Grouping) (ls : List Line) : Rows → Str
  | .last cs => linedRow ls (cs.markup P g 0 [] {} none)
  | .line cs sp ls' rest => linedRow ls (cs.markup P g 0 [] {} none) ++ spacingRow P g cs.length sp ++ rest.markup P g ls'
/-- The cells from column `i` on, where `t` is the start of the first one. Every cell starts from the initial state. -/
def Cells.markup (P : Printing) (g : Grouping) (i : Nat) (t : Str) (st : RState) (prev : Option Atom) : Cells → Str
  | .last b => tableCell g i (t ++ (b.markup P [] st prev none).text)
  | .cell b rest => tableCell g i (t ++ (b.markup P [] st prev none).text) ++ rest.markup P g (i + 1) [] {} none
  | .lost b _ rest =>
    let a := b.markup P [] st prev none
    rest.markup P g i (t ++ a.text) a.st a.prev
/-- What is in the lines, one after the other. -/
def Rows.joined (P : Printing) : Rows → Str
  | .last cs => cs.joined P {} none
  | .line cs _ _ rest => cs.joined P {} none ++ rest.joined P
/-- What is in the cells, one after the other. -/
def Cells.joined (P : Printing) (st : RState) (prev : Option Atom) : Cells → Str
  | .last b => (b.markup P [] st prev none).text
  | .cell b rest => (b.markup P [] st prev none).text ++ rest.joined P {} none
  | .lost b _ rest =>
    let a := b.markup P [] st prev none
    a.text ++ rest.joined P a.st a.prev
end

/-- The whole document. -/
def mathDocument (P : Printing) (xml : Bool) (annotation : Option Str) (ns : Nodes) : Str :=
  let body := (ns.markup P [] {} none none).text
  tag c!"math" ((c!"display", if P.block then c!"block" else c!"inline") ::
    (if xml then [(c!"xmlns", c!"http://www.w3.org/1998/Math/MathML")] else []))
    (match annotation with
      | none => body
      | some a => tag c!"semantics" [] (tag c!"mrow" [] body ++
          tag c!"annotation" [(c!"encoding", c!"application/x-tex")] a))

end PL.Spec
