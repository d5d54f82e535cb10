import Verif.Model.Font
import Verif.Model.Error
set_option autoImplicit false
/-!
# The MathML renderer

`src/mathml.rs`, `src/config.rs` and the `Display` of dimensions of `src/event.rs`.

The writer appends characters to `out`. With a budget of `k` bytes it accepts `k` more bytes and then
fails. Since Rust's `write_all` and `write!` pass their bytes on in order, how the text is divided into
calls does not matter.
-/
namespace PL
namespace Mathml

/-- `MathStyle`, config.rs 76-95 -/
inductive MathStyle where
  | tex | iso | french | upright
  deriving DecidableEq, Repr

/-- `RenderConfig`, config.rs 10-28, and three parameters: `fmt` is the `Display` of an `f32`, `isUpper`
is `char::is_uppercase`; `checks` says whether arithmetic overflow panics. -/
structure RCfg where
  block : Bool
  annotation : Option Str
  errorColor : Nat × Nat × Nat
  xml : Bool
  style : MathStyle
  fmt : Num → Str
  isUpper : Char → Bool
  checks : Bool

/-- `should_be_upright`, config.rs 104-111 -/
def shouldBeUpright (isUpper : Char → Bool) (s : MathStyle) (c : Char) : Bool :=
  match s with
  | .tex => isUpper c && !(65 ≤ c.toNat && c.toNat ≤ 90)
  | .iso => false
  | .french => !(97 ≤ c.toNat && c.toNat ≤ 122)
  | .upright => true

/-- Product with the fraction `a / b`. -/
def Num.scale (n : Num) (a b : Nat) : Num := ⟨n.num * a, n.den * b⟩

/-- `impl Display for Dimension`, event.rs 753-795: the value shown and the unit -/
def dimShown (d : Dim) : Num × Str :=
  match d.unit with
  | .em => (d.value, c!"em")
  | .mu => (Num.scale d.value 1 18, c!"mu")
  | .ex => (d.value, c!"ex")
  | .mm => (d.value, c!"mm")
  | .cm => (d.value, c!"cm")
  | .in_ => (d.value, c!"in")
  | .bp => (d.value, c!"pt")
  | .pt => (Num.scale d.value 7200 7227, c!"pt")
  | .pc => (Num.scale d.value 7200 7227, c!"pc")
  | .sp => (Num.scale d.value 7200 (65536 * 7227), c!"pt")
  | .dd => (Num.scale d.value (1238 * 7200) (1157 * 7227), c!"pt")
  | .cc => (Num.scale d.value (12 * 1238 * 7200) (1157 * 7227), c!"pt")

def dimStr (cfg : RCfg) (d : Dim) : Str := cfg.fmt (dimShown d).1 ++ (dimShown d).2

/-- `DelimiterSize::to_em`, event.rs 653-660, displayed -/
def emStr : DelimSize → Str
  | .big => c!"1.2"
  | .BIG => c!"1.8"
  | .bigg => c!"2.4"
  | .BIGG => c!"3"

/-- `Atom`, mathml.rs 1171-1180 -/
inductive Atom where
  | bin | op | rel | open_ | close | punct | ord | inner
  deriving DecidableEq, Repr

/-- `EnvGrouping`, mathml.rs 1182-1210 -/
inductive EnvG where
  | normal
  | leftRight (closing : Option Char)
  | array (cols : List ArrayCol) (idx : Nat)
  | matrix
  | cases (usedAlign left : Bool)
  | align
  | alignat (pairs used : Nat)
  | subArray
  | gather
  | multline
  | split (usedAlign : Bool)
  | equation
  deriving DecidableEq, Repr

/-- `Environment`, mathml.rs 1212-1225 -/
inductive EnvR where
  | group (g : EnvG)
  | visual (v : Visual) (count : Nat)
  | script (ty : ScriptType) (above : Bool) (count : Nat) (fnApp : Bool)
  deriving DecidableEq, Repr

/-- Number of operands of a script, mathml.rs 1233-1240 -/
def ScriptType.arity : ScriptType → Nat
  | .sub => 2
  | .sup => 2
  | .subSup => 3

/-- Number of operands of a visual, mathml.rs 1250-1257 -/
def Visual.arity : Visual → Nat
  | .squareRoot => 1
  | .root => 2
  | .fraction _ => 2
  | .negation => 1

/-- `script_tag`, mathml.rs 1260-1269 -/
def scriptTag : ScriptType → Bool → Str
  | .sub, false => c!"msub"
  | .sup, false => c!"msup"
  | .subSup, false => c!"msubsup"
  | .sub, true => c!"munder"
  | .sup, true => c!"mover"
  | .subSup, true => c!"munderover"

/-- `visual_tag`, mathml.rs 1271-1278 -/
def visualTag : Visual → Str
  | .root => c!"mroot"
  | .fraction _ => c!"mfrac"
  | .squareRoot => c!"msqrt"
  | .negation => c!"mrow"

/-- `State`, mathml.rs 1280-1287 -/
structure RState where
  font : Option Font := none
  text : Option (Nat × Nat × Nat) := none
  border : Option (Nat × Nat × Nat) := none
  background : Option (Nat × Nat × Nat) := none
  style : Option Style := none
  deriving DecidableEq, Repr

/-- An item given to the renderer: an event or the text of an error (`e.to_string()`). -/
inductive RItem where
  | ok (e : Event)
  | err (msg : Str)
  deriving DecidableEq, Repr

/-- `MathmlWriter`, mathml.rs 20-28. Stacks have their top first. `peeked` and `rest` are the
`ManyPeek` (1289-1292); `out` and `budget` the writer. -/
structure RSt where
  peeked : List RItem
  rest : List RItem
  out : Str
  budget : Option Nat
  env : List EnvR
  sts : List RState
  prev : Option Atom
  recov : Bool
  deriving DecidableEq, Repr

/-- Outcome of a renderer function. On an I/O error only the bytes written matter. -/
inductive WRes (α : Type) where
  | ok (a : α) (s : RSt)
  | io (written : List Nat)
  | panic (p : Panic)
  deriving DecidableEq, Repr

def W (α : Type) := RSt → WRes α

namespace W
variable {α β : Type}
@[inline] def pure (a : α) : W α := fun s => .ok a s
@[inline] def bind (m : W α) (f : α → W β) : W β := fun s =>
  match m s with
  | .ok a s' => f a s'
  | .io w => .io w
  | .panic p => .panic p

instance : Monad W where
  pure := pure
  bind := bind

@[inline] def boom (p : Panic) : W α := fun _ => .panic p
@[inline] def get : W RSt := fun s => .ok s s
@[inline] def modify (f : RSt → RSt) : W PUnit := fun s => .ok ⟨⟩ (f s)

/-- `write_all` -/
def out (t : Str) : W PUnit := fun s =>
  match s.budget with
  | none => .ok ⟨⟩ { s with out := s.out ++ t }
  | some k =>
    if blen t ≤ k then .ok ⟨⟩ { s with out := s.out ++ t, budget := some (k - blen t) }
    else .io (utf8 s.out ++ (utf8 t).take k)
end W
open W (boom get modify out)

/-! ## ManyPeek -/

/-- `peek_next`, mathml.rs 1302-1305 -/
def peekNext : W (Option RItem) := fun s =>
  match s.rest with
  | [] => .ok none s
  | i :: r => .ok (some i) { s with peeked := s.peeked ++ [i], rest := r }

/-- `peek_first`, mathml.rs 1311-1317 -/
def peekFirst : W (Option RItem) := do
  let s ← get
  match s.peeked with
  | [] => peekNext
  | i :: _ => return some i

/-- `next`, mathml.rs 1323-1325 -/
def next : W (Option RItem) := fun s =>
  match s.peeked with
  | i :: p => .ok (some i) { s with peeked := p }
  | [] =>
    match s.rest with
    | i :: r => .ok (some i) { s with rest := r }
    | [] => .ok none s

/-! ## Small writers -/

/-- Decimal display of an integer. -/
def decStr (n : Nat) : Str := Nat.toDigits 10 n
/-- `{:x}` -/
def hexStr (n : Nat) : Str := Nat.toDigits 16 n

/-- `rgb({r} {g} {b})` -/
def rgbStr (c : Nat × Nat × Nat) : Str :=
  c!"rgb(" ++ decStr c.1 ++ c!" " ++ decStr c.2.1 ++ c!" " ++ decStr c.2.2 ++ c!")"

/-- `state`, mathml.rs 898-900 -/
def state : W RState := do
  match (← get).sts with
  | [] => boom .explicit
  | s :: _ => return s

/-- `*self.state_stack.last_mut().expect(..) = f(..)` -/
def updState (f : RState → RState) : W PUnit := do
  match (← get).sts with
  | [] => boom .explicit
  | s :: r => modify fun st => { st with sts := f s :: r }

/-- Whether the innermost environment is a script in its last operands, mathml.rs 69-82 -/
def inScriptOperand : List EnvR → Bool
  | .script .subSup _ n _ :: _ => n = 0 || n = 1
  | .script _ _ n _ :: _ => n = 0
  | _ => false

/-- The style attributes of `open_tag`, mathml.rs 83-95 -/
def styleAttr : Style → Str
  | .display => c!" displaystyle=\"true\" scriptlevel=\"0\""
  | .text => c!" displaystyle=\"false\" scriptlevel=\"0\""
  | .script => c!" displaystyle=\"false\" scriptlevel=\"1\""
  | .scriptScript => c!" displaystyle=\"false\" scriptlevel=\"2\""

/-- The `style` attribute of `open_tag`, mathml.rs 98-127 -/
def colorAttr (s : RState) : Str :=
  let pre (w : Bool) : Str := if w then c!"; " else c!" style=\""
  (match s.text with
    | some c => c!" style=\"color: " ++ rgbStr c
    | none => []) ++
  (match s.border with
    | some c => pre s.text.isSome ++ c!"border: 0.06em solid " ++ rgbStr c
    | none => []) ++
  (match s.background with
    | some c => pre (s.text.isSome || s.border.isSome) ++ c!"background-color: " ++ rgbStr c
    | none => []) ++
  (if s.text.isSome || s.border.isSome || s.background.isSome then c!"\"" else [])

/-- What `open_tag` writes. -/
def openTagStr (st : RState) (env : List EnvR) (tag : Str) (classes : Option Str) : Str :=
  c!"<" ++ tag ++
  (match st.style with
    | some s => if inScriptOperand env then [] else styleAttr s
    | none => []) ++
  colorAttr st ++
  (match classes with
    | some c => c!" class=\"" ++ c ++ c!"\""
    | none => [])

/-- `open_tag`, mathml.rs 58-131 -/
def openTag (tag : Str) (classes : Option Str) : W PUnit := do
  let st ← state
  let env := (← get).env
  out (openTagStr st env tag classes)

/-- `handle_state_change`, mathml.rs 824-835 -/
def applyChange (sc : StateChange) (s : RState) : RState :=
  match sc with
  | .font f => { s with font := f }
  | .color c .text => { s with text := some c }
  | .color c .border => { s with border := some c }
  | .color c .background => { s with background := some c }
  | .style y => { s with style := some y }

def handleStateChange (sc : StateChange) : W PUnit := updState (applyChange sc)

/-- `set_previous_atom`, mathml.rs 837-857 -/
def setPrev (a : Atom) : W PUnit := modify fun s =>
  let skip := match s.env with
    | .visual .root 0 :: _ => true
    | .visual (.fraction _) 0 :: _ => true
    | env => inScriptOperand env
  if skip then s else { s with prev := some a }

def forcePrev (a : Option Atom) : W PUnit := modify fun s => { s with prev := a }

/-- The classification of the next item in `next_atom`, mathml.rs 870-894: `none` to continue. -/
def atomOf : RItem → Option (Option Atom)
  | .ok (.stateChange _) => none
  | .ok (.space _ _ _) => none
  | .ok (.visual .negation) => none
  | .ok (.script _ _) => none
  | .ok .end_ => some none
  | .ok (.flow _) => some none
  | .err _ => some none
  | .ok (.visual _) => some (some .inner)
  | .ok (.begin_ _) => some (some .inner)
  | .ok (.content c) =>
    match c with
    | .binaryOp _ _ => some (some .bin)
    | .largeOp _ _ => some (some .op)
    | .relation _ _ _ => some (some .rel)
    | .delimiter _ _ .open_ => some (some .open_)
    | .delimiter _ _ .close => some (some .close)
    | .punctuation _ => some (some .punct)
    | _ => some (some .ord)

/-- The loop of `next_atom`, mathml.rs 859-896. A freshly peeked item is looked at, and is then found
again among the peeked ones, before the index moves on. -/
def nextAtomLoop : Nat → Nat → W (Option Atom)
  | 0, _ => boom .fuel
  | n + 1, index => do
    match (← get).peeked[index]? with
    | some i =>
      match atomOf i with
      | none => nextAtomLoop n (index + 1)
      | some r => return r
    | none =>
      match ← peekNext with
      | none => return none
      | some i =>
        match atomOf i with
        | none => nextAtomLoop n index
        | some r => return r

/-- `next_atom`, mathml.rs 859-896 -/
def nextAtom : W (Option Atom) := do
  let s ← get
  nextAtomLoop (s.peeked.length + 2 * s.rest.length + 1) 0

/-- `write_escaped`, mathml.rs 1518-1538, on characters (see `escapeBytes` for the bytes) -/
def escapeChar (c : Char) : Str :=
  if c = '&' then c!"&amp;" else if c = '<' then c!"&lt;" else if c = '>' then c!"&gt;" else [c]

def escape (s : Str) : Str := s.flatMap escapeChar

/-- The loop of `write_escaped` on bytes: the chunks passed to the writer, where `acc` is the
reversed run `bytes[start..i]`. -/
def escapeBytesLoop : List Nat → List Nat → List (List Nat)
  | acc, [] => if acc.isEmpty then [] else [acc.reverse]
  | acc, b :: bs =>
    let rep (r : Str) := (if acc.isEmpty then [] else [acc.reverse]) ++ [utf8 r] ++ escapeBytesLoop [] bs
    if b = 38 then rep c!"&amp;"
    else if b = 60 then rep c!"&lt;"
    else if b = 62 then rep c!"&gt;"
    else escapeBytesLoop (b :: acc) bs

/-- `write_escaped`, mathml.rs 1518-1538 -/
def escapeBytes (bs : List Nat) : List (List Nat) := escapeBytesLoop [] bs

/-- `map_char` or a panic -/
def mapChar (f : Font) (c : Char) : W Char :=
  match f.mapChar c with
  | some d => pure d
  | none => boom .explicit

/-- A loop over characters. -/
def forChars (f : Char → W PUnit) : Str → W PUnit
  | [] => pure ⟨⟩
  | c :: s => do f c; forChars f s

/-! ## Arrays -/

/-- `cols.windows(2).map_while(..)`, mathml.rs 1022-1027: separators followed by a separator -/
def leadSeps : List ArrayCol → List Line
  | .separator l :: .separator m :: r => l :: leadSeps (.separator m :: r)
  | _ => []

/-- Leading separators of `cols[i..]`. -/
def seps : List ArrayCol → List Line
  | .separator l :: r => l :: seps r
  | _ => []

def solidDashed (l : Line) (a b : Str) : Str :=
  match l with
  | .solid => a
  | .dashed => b

/-- mathml.rs 1060-1071 and 1106-1117 -/
def colSepStr : ColAlign → Line → Str
  | .left, .solid => c!" class=\"cell-left menv-right-solid\">"
  | .left, .dashed => c!" class=\"cell-left menv-right-dashed\">"
  | .center, .solid => c!" class=\"menv-right-solid\">"
  | .center, .dashed => c!" class=\"menv-right-dashed\">"
  | .right, .solid => c!" class=\"cell-right menv-right-solid\">"
  | .right, .dashed => c!" class=\"cell-right menv-right-dashed\">"

/-- mathml.rs 1074-1078 and 1121-1125 -/
def colStr : ColAlign → Str
  | .left => c!" class=\"cell-left\">"
  | .center => c!">"
  | .right => c!" class=\"cell-right\">"

/-- mathml.rs 1038-1045 -/
def sepColStr : Line → ColAlign → Str
  | .solid, .left => c!" class=\"menv-left-solid cell-left"
  | .solid, .center => c!" class=\"menv-left-solid"
  | .solid, .right => c!" class=\"menv-left-solid cell-right"
  | .dashed, .left => c!" class=\"menv-left-dashed cell-left"
  | .dashed, .center => c!" class=\"menv-left-dashed"
  | .dashed, .right => c!" class=\"menv-left-dashed cell-right"

/-- `array_newline`, mathml.rs 1019-1084 -/
def arrayNewline (cols : List ArrayCol) : W Nat := do
  out c!"<mtd"
  let ls := leadSeps cols
  out (ls.flatMap fun l => solidDashed l c!" class=\"menv-left-solid menv-border-only\"></mtd><mtd"
    c!" class=\"menv-left-dashed menv-border-only\"></mtd><mtd")
  let index := ls.length
  match cols[index]?, cols[index + 1]? with
  | some (.separator l), some (.column a) =>
    out (sepColStr l a)
    match cols[index + 2]? with
    | some (.separator l') =>
      out (solidDashed l' c!" menv-right-solid\">" c!" menv-right-dashed\">")
      return index + 3
    | _ =>
      out c!"\">"
      return index + 2
  | some (.column a), some (.separator l) =>
    out (colSepStr a l)
    return index + 2
  | some (.column a), _ =>
    out (colStr a)
    return index + 1
  | none, none =>
    out c!">"
    return index
  | _, _ => boom .explicit

/-- `array_align`, mathml.rs 1086-1131 -/
def arrayAlign (cols : List ArrayCol) (idx : Nat) : W Nat := do
  out c!"</mtd><mtd"
  if idx > cols.length then boom .index
  else
    let ls := seps (cols.drop idx)
    out (ls.flatMap fun l => solidDashed l c!" class=\"menv-right-solid menv-border-only\"></mtd><mtd"
      c!" class=\"menv-right-dashed menv-border-only\"></mtd><mtd")
    let idx := idx + ls.length
    match cols[idx]?, cols[idx + 1]? with
    | none, _ => boom .index
    | some (.column a), some (.separator l) =>
      out (colSepStr a l)
      return idx + 2
    | some (.column a), _ =>
      out (colStr a)
      return idx + 1
    | some (.separator _), _ => boom .explicit

/-- The borders written at the end of a line, mathml.rs 367-381 and 1135-1147 -/
def closeSeps (ls : List Line) : Str :=
  ls.flatMap fun l => solidDashed l c!"<mtd class=\"menv-right-solid menv-border-only\"></mtd>"
    c!"<mtd class=\"menv-right-dashed menv-border-only\"></mtd>"

/-- `&cols[idx..]` and `array_close_line`, mathml.rs 480 and 1133-1148 -/
def arrayCloseLine (cols : List ArrayCol) (idx : Nat) : W PUnit := do
  if idx > cols.length then boom .index
  else
    out c!"</mtd>"
    out (closeSeps (seps (cols.drop idx)))
    out c!"</mtr><mtr"

/-- `env_horizontal_lines`, mathml.rs 1150-1169 -/
def hlinesStr : List Line → Str
  | [] => []
  | [l] => solidDashed l c!" class=\"menv-hline\"" c!" class=\"menv-hdashline\""
  | l :: ls =>
    solidDashed l c!" class=\"menv-hline\"><mtd class=\"menv-nonumber\"></mtd></mtr><mtr"
      c!" class=\"menv-hdashline\"><mtd class=\"menv-nonumber\"></mtd></mtr><mtr" ++ hlinesStr ls

/-! ## Contents -/

/-- `Some(Atom::Inner | Atom::Close | Atom::Ord)` -/
def isOrdLike : Option Atom → Bool
  | some .inner => true
  | some .close => true
  | some .ord => true
  | _ => false

/-- After a function, mathml.rs 668-674 and 944-951 -/
def applyFunction : W PUnit := do
  match ← nextAtom with
  | none => pure ⟨⟩
  | some a =>
    out c!"<mo>⁡</mo>"
    if a = .open_ || a = .punct || a = .close then pure ⟨⟩
    else out c!"<mspace width=\"0.1667em\" />"

/-- The environments in which a binary operator is an ordinary one, mathml.rs 733-742 -/
def binBlocked : List EnvR → Bool
  | .script _ _ _ _ :: _ => true
  | .visual .negation _ :: _ => false
  | .visual _ _ :: _ => true
  | _ => false

/-- The combining stroke of a negation. -/
def stroke (negate : Bool) : Str := if negate then c!"̸" else []

/-- `write_content`, mathml.rs 592-822 -/
def writeContent (cfg : RCfg) (negate : Bool) : Content → W PUnit
  | .text t => do
    openTag c!"mtext" none
    out c!">"
    if (t.head?.map isWs).getD false then out c!"&nbsp;"
    match (← state).font with
    | none => out (escape (trim t))
    | some f => forChars (fun c => do out (escapeChar (← mapChar f c))) (trim t)
    if (t.getLast?.map isWs).getD false then out c!"&nbsp;"
    setPrev .ord
    out c!"</mtext>"
  | .number t => do
    openTag c!"mn" none
    out c!">"
    forChars (fun c => do
      match (← state).font with
      | some .boldSymbol => out [← mapChar .bold c]
      | some f => out [← mapChar f c]
      | none => out [c]) t
    setPrev .ord
    out c!"</mn>"
  | .function t => do
    if isOrdLike (← get).prev then out c!"<mspace width=\"0.1667em\" />"
    openTag c!"mi" none
    out (if t.length = 1 then c!" mathvariant=\"normal\">" else c!">")
    out t
    setPrev .op
    out c!"</mi>"
    match (← get).env with
    | .script ty a n _ :: es => modify fun s => { s with env := .script ty a n true :: es }
    | _ => applyFunction
  | .ordinary c stretchy => do
    if stretchy then
      out c!"<mo stretchy=\"true\">"
      out [c]
      out c!"</mo>"
    else
      openTag c!"mi" none
      let up := shouldBeUpright cfg.isUpper cfg.style c
      match (← state).font with
      | some .upRight =>
        out c!" mathvariant=\"normal\">"
        out [c]
      | none =>
        if up then
          out c!" mathvariant=\"normal\">"
          out [c]
        else
          out c!">"
          out [c]
      | some f =>
        out c!">"
        let f := if f = .boldSymbol then (if up then .bold else .boldItalic) else f
        out [← mapChar f c]
      out (stroke negate)
      setPrev .ord
      out c!"</mi>"
  | .binaryOp c small => do
    let s ← get
    let isBin ← (if isOrdLike s.prev && !binBlocked s.env then do
        match ← nextAtom with
        | some .inner => return true
        | some .bin => return true
        | some .op => return true
        | some .ord => return true
        | some .open_ => return true
        | _ => return false
      else pure false : W Bool)
    let tag := if isBin then c!"mo" else c!"mi"
    setPrev (if isBin then .bin else .ord)
    openTag tag (if small then some c!"small" else none)
    out c!">"
    out [c]
    out (stroke negate)
    out (c!"</" ++ tag ++ c!">")
  | .relation c second small => do
    openTag c!"mo" (if small then some c!"small" else none)
    out c!">"
    out (c :: second.toList)
    out (stroke negate)
    setPrev .rel
    out c!"</mo>"
  | .largeOp c small => do
    openTag c!"mo" none
    if small then out c!" largeop=\"false\""
    out c!" movablelimits=\"false\">"
    out [c]
    out (stroke negate)
    setPrev .op
    out c!"</mo>"
  | .delimiter c size ty => do
    openTag c!"mo" none
    if ty = .fence || size.isSome then out c!" symmetric=\"true\" stretchy=\"true\""
    else out c!" symmetric=\"false\" stretchy=\"false\""
    match size with
    | some z => out (c!"minsize=\"" ++ emStr z ++ c!"em\" maxsize=\"" ++ emStr z ++ c!"em\"")
    | none => pure ⟨⟩
    out c!">"
    out [c]
    out (stroke negate)
    setPrev (match ty with
      | .open_ => .open_
      | .fence => .punct
      | .close => .close)
    out c!"</mo>"
  | .punctuation c => do
    openTag c!"mo" none
    out c!">"
    out [c]
    out (stroke negate)
    setPrev .punct
    out c!"</mo>"

/-! ## Events -/

/-- The loop over state changes at the start of a group, mathml.rs 152-156. Fuel: the number of items. -/
def groupChanges : Nat → W PUnit
  | 0 => boom .fuel
  | n + 1 => do
    match ← peekFirst with
    | some (.ok (.stateChange sc)) =>
      handleStateChange sc
      let _ ← next
      groupChanges n
    | _ => pure ⟨⟩

/-- The macro `env_horizontal_lines!`, mathml.rs 167-177 -/
def envLines : W PUnit := do
  match ← peekFirst with
  | some (.ok (.flow (.startLines ls))) =>
    out (hlinesStr ls)
    let _ ← next
  | _ => pure ⟨⟩

/-- `b"><mtr"`, lines, `b"><mtd>"` -/
def tableOpen (opening : Str) (g : EnvG) : W EnvG := do
  out opening
  envLines
  out c!"><mtd>"
  return g

/-- The delimiter of a left/right group, mathml.rs 182-189 and 347-354 -/
def writeDelim : Option Char → W PUnit
  | some c => do
    openTag c!"mo" none
    out c!" stretchy=\"true\">"
    out [c]
    out c!"</mo>"
  | none => pure ⟨⟩

/-- The environment pushed for a group, mathml.rs 179-325 -/
def openGroup : Grouping → W EnvG
  | .normal => return .normal
  | .leftRight l r => do
    writeDelim l
    forcePrev (some .open_)
    return .leftRight r
  | .align eq =>
    tableOpen (c!"<mtable class=\"menv-alignlike menv-align" ++ (if eq then c!" menv-with-eqn" else []) ++
      c!"\"><mtr") .align
  | .matrix a =>
    tableOpen (c!"<mtable class=\"menv-arraylike" ++
      (match a with
        | .left => c!" menv-cells-left\""
        | .center => c!"\""
        | .right => c!" menv-cells-right\"") ++ c!"><mtr") .matrix
  | .cases left =>
    tableOpen (c!"<mrow>" ++ (if left then c!"<mo stretchy=\"true\">{</mo>" else []) ++
      c!"<mtable class=\"menv-cells-left menv-cases\"><mtr") (.cases false left)
  | .array cols => do
    out c!"<mtable class=\"menv-arraylike\"><mtr"
    envLines
    out c!">"
    let i ← arrayNewline cols
    return .array cols i
  | .aligned => tableOpen c!"<mtable class=\"menv-alignlike menv-align\"><mtr" .align
  | .subArray a =>
    tableOpen (c!"<mtable" ++
      (match a with
        | .left => c!" class=\"menv-cells-left\""
        | .center => []
        | .right => c!" class=\"menv-cells-right\"") ++ c!"><mtr") .subArray
  | .alignat pairs eq =>
    tableOpen (c!"<mtable class=\"menv-alignlike" ++ (if eq then c!" menv-with-eqn" else []) ++ c!"\"><mtr")
      (.alignat pairs 0)
  | .alignedat pairs => tableOpen (c!"<mtable class=\"menv-alignlike\"" ++ c!"><mtr") (.alignat pairs 0)
  | .gather eq =>
    tableOpen (c!"<mtable" ++ (if eq then c!" class=\"menv-with-eqn\"" else []) ++ c!"><mtr") .gather
  | .gathered => tableOpen c!"<mtable><mtr" .gather
  | .multline => tableOpen c!"<mtable class=\"menv-multline\"><mtr" .multline
  | .split => tableOpen c!"<mtable class=\"menv-alignlike\"><mtr" (.split false)
  | .equation eq => do
    out (c!"<mtable" ++ (if eq then c!" class=\"menv-with-eqn\"" else []) ++ c!"><mtr><mtd>")
    return .equation

/-- `Event::Begin`, mathml.rs 136-328 -/
def writeBegin (g : Grouping) : W PUnit := do
  forcePrev none
  if g.isMathEnv then modify fun s => { s with sts := {} :: s.sts }
  else
    let last ← state
    modify fun s => { s with sts := last :: s.sts }
    let s ← get
    groupChanges (s.peeked.length + s.rest.length + 1)
    openTag c!"mrow" none
    out c!">"
    updState fun s => { font := s.font }
  let e ← openGroup g
  modify fun s => { s with env := .group e :: s.env }

/-- The tags written at the end of a group, mathml.rs 343-394 -/
def closeGroup : EnvG → W PUnit
  | .normal => out c!"</mrow>"
  | .leftRight closing => do
    writeDelim closing
    forcePrev (some .close)
    out c!"</mrow>"
  | .array cols idx => do
    out c!"</mtd>"
    if idx > cols.length then boom .index
    else
      out (closeSeps (seps (cols.drop idx)))
      out c!"</mtr></mtable>"
  | .cases _ left => do
    out c!"</mtd></mtr></mtable>"
    if !left then out c!"<mo stretchy=\"true\">}</mo>"
    out c!"</mrow>"
  | _ => out c!"</mtd></mtr></mtable>"

/-- `self.error_recovery = true` -/
def recover : W PUnit := modify fun s => { s with recov := true }

/-- `Event::End`, mathml.rs 330-396 -/
def writeEnd : W PUnit := do
  match (← get).env with
  | [] => recover
  | .group g :: es =>
    modify fun s => { s with env := es }
    match (← get).sts with
    | [] => boom .explicit
    | _ :: r =>
      modify fun s => { s with sts := r }
      forcePrev (some .inner)
      closeGroup g
  | _ :: _ => recover

/-- Contents that are negated by a stroke, mathml.rs 400-407 -/
def negatable : Content → Bool
  | .text _ => false
  | .number _ => false
  | .function _ => false
  | _ => true

/-- `Event::Visual`, mathml.rs 397-428 -/
def writeVisual (cfg : RCfg) (v : Visual) : W PUnit := do
  if v = .negation then
    match ← peekFirst with
    | some (.ok (.content c)) =>
      if negatable c then
        writeContent cfg true c
        let _ ← next
      else
        openTag c!"mrow" (some c!"mop-negated")
        out c!">"
        modify fun s => { s with env := .visual v (Visual.arity v) :: s.env }
    | _ =>
      openTag c!"mrow" (some c!"mop-negated")
      out c!">"
      modify fun s => { s with env := .visual v (Visual.arity v) :: s.env }
  else
    modify fun s => { s with env := .visual v (Visual.arity v) :: s.env }
    openTag (visualTag v) none
    match v with
    | .fraction (some d) => out (c!" linethickness=\"" ++ dimStr cfg d ++ c!"\"")
    | _ => pure ⟨⟩
    out c!">"

/-- `Event::Script`, mathml.rs 430-446 -/
def writeScript (cfg : RCfg) (ty : ScriptType) (pos : ScriptPos) : W PUnit := do
  let st ← state
  let above := match pos with
    | .right => false
    | .aboveBelow => true
    | .movable => st.style = some .display || (st.style.isNone && cfg.block)
  modify fun s => { s with env := .script ty above (ScriptType.arity ty) false :: s.env }
  openTag (scriptTag ty above) none
  out c!">"

/-- `Event::Space`, mathml.rs 448-466 -/
def writeSpace (cfg : RCfg) (w h d : Option Dim) : W PUnit := do
  match w with
  | some w =>
    out (c!"<mspace width=\"" ++ dimStr cfg w ++ c!"\"")
    if w.value.num < 0 then out (c!" style=\"margin-left: " ++ dimStr cfg w ++ c!"\"")
  | none => pure ⟨⟩
  match h with
  | some h => out (c!" height=\"" ++ dimStr cfg h ++ c!"\"")
  | none => pure ⟨⟩
  match d with
  | some d => out (c!" depth=\"" ++ dimStr cfg d ++ c!"\"")
  | none => pure ⟨⟩
  out c!" />"

/-- `while index < *cols_index { array_align(..) }`, mathml.rs 502-504. `arrayAlign` moves the index
forward, so `cols_index` iterations suffice. -/
def alignUpTo (cols : List ArrayCol) (target : Nat) : Nat → Nat → W Nat
  | 0, _ => boom .fuel
  | n + 1, i =>
    if i < target then do
      let i ← arrayAlign cols i
      alignUpTo cols target n i
    else return i

/-- Top environment. -/
def setTop (g : EnvG) : W PUnit := modify fun s => { s with env := .group g :: s.env.tail }

/-- The second part of a line break, mathml.rs 493-540 -/
def newLineRest (cfg : RCfg) (spacing : Option Dim) (lines : List Line) : W PUnit := do
  match spacing with
  | some d =>
    out (c!" style=\"height: " ++ dimStr cfg d ++ c!"\">")
    match (← get).env with
    | .group (.array cols idx) :: _ =>
      let i ← arrayNewline cols
      let i ← alignUpTo cols idx (idx + 1) i
      arrayCloseLine cols i
    | _ => out c!"<mtd class=\"menv-nonumber\"></mtd></mtr><mtr"
  | none => pure ⟨⟩
  out (hlinesStr lines)
  match (← get).env with
  | .group (.cases _ left) :: _ =>
    setTop (.cases false left)
    out c!"><mtd>"
  | .group (.split _) :: _ =>
    setTop (.split false)
    out c!"><mtd>"
  | .group .matrix :: _ => out c!"><mtd>"
  | .group .align :: _ => out c!"><mtd>"
  | .group .gather :: _ => out c!"><mtd>"
  | .group .subArray :: _ => out c!"><mtd>"
  | .group .multline :: _ => out c!"><mtd>"
  | .group (.array cols _) :: _ =>
    out c!">"
    let i ← arrayNewline cols
    setTop (.array cols i)
  | .group (.alignat pairs _) :: _ =>
    setTop (.alignat pairs 0)
    out c!"><mtd>"
  | _ => recover

/-- `EnvironmentFlow::NewLine`, mathml.rs 472-540 -/
def writeNewLine (cfg : RCfg) (spacing : Option Dim) (lines : List Line) : W PUnit := do
  updState fun _ => {}
  forcePrev none
  match (← get).env with
  | .group (.array cols idx) :: _ =>
    arrayCloseLine cols idx
    newLineRest cfg spacing lines
  | .group .equation :: _ => pure ⟨⟩
  | _ =>
    out c!"</mtd></mtr><mtr"
    newLineRest cfg spacing lines

/-- `EnvironmentFlow::Alignment`, mathml.rs 541-568. `columns_used` is a `u16`. -/
def writeAlignment (cfg : RCfg) : W PUnit := do
  updState fun _ => {}
  forcePrev none
  match (← get).env with
  | .group (.cases false _) :: _ => out c!"</mtd><mtd>"
  | .group (.split false) :: _ => out c!"</mtd><mtd>"
  | .group .align :: _ => out c!"</mtd><mtd>"
  | .group .matrix :: _ => out c!"</mtd><mtd>"
  | .group (.alignat pairs used) :: _ =>
    if used / 2 ≤ pairs then
      if used + 1 ≥ 2 ^ 16 && cfg.checks then boom .overflow
      else
        setTop (.alignat pairs ((used + 1) % 2 ^ 16))
        out c!"</mtd><mtd>"
    else recover
  | .group (.array cols idx) :: _ =>
    let i ← arrayAlign cols idx
    setTop (.array cols i)
  | _ => recover

/-- `write_event`, mathml.rs 133-590 -/
def writeEvent (cfg : RCfg) : RItem → W PUnit
  | .ok (.content c) => writeContent cfg false c
  | .ok (.begin_ g) => writeBegin g
  | .ok .end_ => writeEnd
  | .ok (.visual v) => writeVisual cfg v
  | .ok (.script ty pos) => writeScript cfg ty pos
  | .ok (.space w h d) => writeSpace cfg w h d
  | .ok (.stateChange sc) => handleStateChange sc
  | .ok (.flow (.newLine sp ls)) => writeNewLine cfg sp ls
  | .ok (.flow .alignment) => writeAlignment cfg
  | .ok (.flow (.startLines _)) => recover
  | .err msg => do
    recover
    out (c!"<merror style=\"border-color: #" ++ hexStr cfg.errorColor.1 ++ hexStr cfg.errorColor.2.1 ++
      hexStr cfg.errorColor.2.2 ++ c!"\"><mtext>")
    out msg
    out c!"</mtext></merror>"

/-- `</tag>` -/
def closeTag (tag : Str) : Str := c!"</" ++ tag ++ c!">"

/-- The loop that counts operands and closes scripts and visuals, mathml.rs 924-957. The argument is
the environment stack. -/
def closeLoop : List EnvR → W PUnit
  | [] => pure ⟨⟩
  | .group _ :: _ => pure ⟨⟩
  | .visual v n :: es =>
    if n ≠ 0 then modify fun s => { s with env := .visual v (n - 1) :: es }
    else do
      out (closeTag (visualTag v))
      setPrev .inner
      modify fun s => { s with env := es }
      closeLoop es
  | .script ty above n fn :: es =>
    if n ≠ 0 then modify fun s => { s with env := .script ty above (n - 1) fn :: es }
    else do
      out (closeTag (scriptTag ty above))
      setPrev .inner
      modify fun s => { s with env := es }
      if fn then applyFunction
      closeLoop es

/-- The main loop, mathml.rs 921-958. Fuel: the number of items. -/
def mainLoop (cfg : RCfg) : Nat → W PUnit
  | 0 => boom .fuel
  | n + 1 => do
    match ← next with
    | none => pure ⟨⟩
    | some i =>
      writeEvent cfg i
      closeLoop (← get).env
      mainLoop cfg n

/-- The two cleanup loops, mathml.rs 960-981 and 987-1003 -/
def cleanup : List EnvR → W PUnit
  | [] => modify fun s => { s with env := [] }
  | .group _ :: es => do
    modify fun s => { s with sts := s.sts.tail }
    cleanup es
  | .visual v _ :: es => do
    out (closeTag (visualTag v))
    cleanup es
  | .script ty above _ _ :: es => do
    out (closeTag (scriptTag ty above))
    cleanup es

/-- `write`, mathml.rs 902-1016 -/
def write (cfg : RCfg) : W PUnit := do
  out (c!"<math display=\"" ++ (if cfg.block then c!"block" else c!"inline") ++ c!"\"")
  if cfg.xml then out c!" xmlns=\"http://www.w3.org/1998/Math/MathML\""
  out c!">"
  if cfg.annotation.isSome then out c!"<semantics><mrow>"
  let s ← get
  mainLoop cfg (s.peeked.length + s.rest.length + 1)
  if (← get).recov then cleanup (← get).env
  let s ← get
  if !s.env.isEmpty || s.sts.length ≠ 1 then
    cleanup s.env
    modify fun s => { s with sts := s.sts.drop (s.sts.length - 1) }
  match cfg.annotation with
  | some a =>
    out c!"</mrow>"
    out (c!"<annotation encoding=\"application/x-tex\">" ++ a ++ c!"</annotation>")
    out c!"</semantics>"
  | none => pure ⟨⟩
  out c!"</math>"

/-- `MathmlWriter::new`, mathml.rs 36-56 -/
def initSt (items : List RItem) (target : Str) (budget : Option Nat) : RSt :=
  ⟨[], items, target, budget, [], [{}], none, false⟩

/-- Outcome of rendering, as seen by the caller. -/
inductive Out where
  /-- `Ok(())`; the characters in the target -/
  | ok (text : Str)
  /-- `Err(..)` of the writer; the bytes in the target -/
  | io (written : List Nat)
  | panic (p : Panic)
  deriving DecidableEq, Repr

def render (cfg : RCfg) (items : List RItem) (target : Str) (budget : Option Nat) : Out :=
  match write cfg (initSt items target budget) with
  | .ok _ s => .ok s.out
  | .io w => .io w
  | .panic p => .panic p

/-- `push_mathml`, mathml.rs 1492-1507: a `Vec` never fails -/
def pushMathml (cfg : RCfg) (items : List RItem) (target : Str) : Out := render cfg items target none

/-- `write_mathml`, mathml.rs 1513-1520, to an empty writer accepting `k` bytes -/
def writeMathml (cfg : RCfg) (items : List RItem) (k : Nat) : Out := render cfg items [] (some k)

end Mathml
end PL
