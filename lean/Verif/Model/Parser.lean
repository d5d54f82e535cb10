import Verif.Model.Primitives
import Verif.Model.Error
set_option autoImplicit false
/-!
# The parser

`src/parser.rs`.
-/
namespace PL
open Lex

/-- `MAX_EXPANSION_DEPTH`, parser.rs 30 -/
def maxExpansionDepth : Nat := 64
/-- `MAX_EXPANSION_BYTES`, parser.rs 31 -/
def maxExpansionBytes : Nat := 1024 * 1024

/-- State of `InnerParser` (parser.rs 184-192) including the span stack. -/
structure PSt where
  h : HSt
  sp : Spans
  deriving DecidableEq, Repr

abbrev P := M PSt

/-- A handler leaves the span stack alone. -/
def liftH {α : Type} (m : H α) : P α := fun s =>
  match m s.h with
  | .ok a h => .ok a { s with h := h }
  | .err e h => .err e { s with h := h }
  | .panic p => .panic p

/-- `ScriptDescriptor` with the script event, parser.rs 370-373 -/
structure Desc where
  event : Event
  sub : Nat
  sup : Nat
  deriving DecidableEq, Repr

/-- `lex::limit_modifiers` and its use, parser.rs 275-283 -/
def limits : H PUnit := do
  let s ← M.get
  if s.allowMods then
    match limitModifiers s.content.cs with
    | (some true, rest) => M.set { s with pos := .aboveBelow, content := { s.content with cs := rest } }
    | (some false, rest) => M.set { s with pos := .right, content := { s.content with cs := rest } }
    | (none, rest) => M.set { s with content := { s.content with cs := rest } }

/-- Step 2 of `parse`, parser.rs 270-357. `rec` is the token handler used for the arguments. -/
def scripts (rec : HTok → H PUnit) : H (Option Desc) := do
  let s ← M.get
  if s.skip then return none
  limits
  M.modify fun s => { s with content := { s.content with cs := trimStart s.content.cs } }
  let s ← M.get
  match s.content.cs with
  | c :: rest =>
    if c = '^' || c = '_' then
      let subFirst : Bool := c = '_'
      M.set { s with content := { s.content with cs := rest } }
      let first := s.buf.length
      let arg ← H.argument
      handleArgument rec arg
      let s ← M.get
      let second := s.buf.length
      let next := s.content.cs.head?
      if (next = some '_' && !subFirst) || (next = some '^' && subFirst) then
        M.set { s with content := { s.content with cs := s.content.cs.tail } }
        let arg ← H.argument
        handleArgument rec arg
        match (← M.get).content.cs.head? with
        | some '_' => M.fail .doubleSubscript
        | some '^' => M.fail .doubleSuperscript
        | _ => pure ⟨⟩
      else if next = some '_' || next = some '^' then
        M.fail (if subFirst then .doubleSubscript else .doubleSuperscript)
      let s ← M.get
      let stop := s.buf.length
      let sub := if subFirst then first else second
      let sup := if subFirst then second else first
      let ty : ScriptType := if second = stop then (if subFirst then .sub else .sup) else .subSup
      return some ⟨.script ty s.pos, sub, sup⟩
    else return none
  | [] => return none

/-- Fuel for the token handler: enough for the text that is left. -/
def tokenFuel (s : Sl) : Nat := s.cs.length + 3

/-- Handling of a token that is not a macro, then scripts, parser.rs 264-357 -/
def atom (cf : Cfg) (t : HTok) : H (Option Desc) := do
  let n := tokenFuel (← M.get).content
  handleToken cf n t
  let n := tokenFuel (← M.get).content
  scripts (handleToken cf n)

/-- `parse`, parser.rs 230-357. Macro calls recurse at most `maxExpansionDepth` times, so that the fuel
given by `parse` is never exhausted. -/
def parseLoop (cf : Cfg) : Nat → P (Option Desc)
  | 0 => M.boom .fuel
  | n + 1 => fun s =>
    let original : Sl := { s.h.content with cs := trimStart s.h.content.cs }
    match token s.h.content.cs with
    | .panic p => .panic p
    | .err e rest =>
      let s := { s with h := { s.h with content := { s.h.content with cs := rest } } }
      if e = .token then .ok none s else .err e s
    | .ok t rest =>
      let ht := HTok.ofTok s.h.content t
      let s := { s with h := { s.h with content := { s.h.content with cs := rest } } }
      match t with
      | .chr _ _ => liftH (atom cf ht) s
      | .cs name =>
        match Macros.tryExpand cf s.h.macros name rest with
        | none => liftH (atom cf ht) s
        | some (.panic p) => .panic p
        | some (.err e) =>
          if s.sp.exps.length ≥ maxExpansionDepth || s.sp.total ≥ maxExpansionBytes then
            .err .macroRecursionLimit s
          else .err e s
        | some (.ok new consumed) =>
          let id := s.sp.nalloc + 1
          let sp := { s.sp with nalloc := id, allocBytes := s.sp.allocBytes + blen new }
          if sp.exps.length ≥ maxExpansionDepth || sp.total ≥ maxExpansionBytes then
            .err .macroRecursionLimit { s with sp := sp }
          else
            match { sp with total := sp.total + blen new }.add cf id new original (blen name + consumed + 1) with
            | none => .panic .assertion
            | some sp => parseLoop cf n ⟨{ s.h with content := ⟨id, blen new, new⟩ }, sp⟩

/-- `parse`, parser.rs 230 -/
def parse (cf : Cfg) : P (Option Desc) := parseLoop cf (maxExpansionDepth + 2)

/-- `Parser`, parser.rs 42-68. The instruction stack has its top first. -/
structure State where
  stack : List Instr
  buf : List Instr
  macros : Macros.Ctx
  sp : Spans
  deriving DecidableEq, Repr

/-- `Parser::new`, parser.rs 72-89 -/
def State.init (input : Str) : State :=
  ⟨[.sub ⟨0, blen input, input⟩ none], [], [], .init input⟩

/-- The loop that writes a reversed list into slots, parser.rs 153-159. -/
def fillSlots : List Instr → Nat → List (Option Instr) → Option (List (Option Instr))
  | [], _, slots => some slots
  | e :: es, idx, slots =>
    let idx := if idx = slots.length then 0 else idx
    if idx < slots.length then fillSlots es (idx + 1) (slots.set idx (some e)) else none

/-- Moving the staged instructions to the instruction stack, parser.rs 141-176. The panics stand for
an index out of bounds and for reading an uninitialised slot. -/
def unstage (buf stack : List Instr) : Option Desc → Except Panic (List Instr)
  | none => .ok (buf ++ stack)
  | some d =>
    if d.sub > d.sup then
      if d.sup > buf.length then .error .index
      else
        let content := (buf.drop d.sup).reverse
        match fillSlots content (d.sub - d.sup) (List.replicate content.length none) with
        | none => .error .index
        | some slots =>
          match slots.mapM id with
          | none => .error .explicit
          | some added => .ok (.ev d.event :: buf.take d.sup ++ (added.reverse ++ stack))
    else if d.sub > buf.length then .error .index
    else .ok (.ev d.event :: buf.take d.sub ++ (buf.drop d.sub ++ stack))

/-- An item of the iterator: an event, or an error with its context. -/
inductive Item where
  | ok (e : Event)
  | err (e : ErrorKind) (context : Str)
  deriving DecidableEq, Repr

/-- One activation of `next`: it returns an item, calls itself again, returns `None`, or panics. -/
inductive Step where
  | item (i : Item) (s : State)
  | again (s : State)
  | done
  | panic (p : Panic)
  deriving DecidableEq, Repr

/-- Initial state of `parse` for a sub-group, parser.rs 114-130 and state.rs 31-41 -/
def startSt (s : State) (content : Sl) (align : Option AlignCount) : PSt :=
  ⟨⟨content, s.buf, false, .right, false, false, align, s.macros⟩, s.sp⟩

/-- `next`, parser.rs 95-181 -/
def step (cf : Cfg) (s : State) : Step :=
  match s.stack with
  | [] => .done
  | .ev e :: stack => .item (.ok e) { s with stack := stack }
  | .sub content align :: stack =>
    if (trimStart content.cs).isEmpty then .again { s with stack := stack }
    else
      match parse cf (startSt s content align) with
      | .panic p => .panic p
      | .err e st =>
        match errorContext cf st.sp (st.h.content.ptr cf) with
        | .error p => .panic p
        | .ok (ctx, sp) =>
          .item (.err e ctx) ⟨.sub st.h.content st.h.align :: stack, st.h.buf, st.h.macros, sp⟩
      | .ok desc st =>
        match unstage st.h.buf (.sub st.h.content st.h.align :: stack) desc with
        | .error p => .panic p
        | .ok stack => .again ⟨stack, [], st.h.macros, st.sp⟩

/-- How a run ended. -/
inductive Fin_ where
  | done
  | panic (p : Panic)
  /-- fuel exhausted: more items may follow -/
  | more (s : State)
  deriving DecidableEq, Repr

/-- Run at most `n` activations of `next`, collecting the items. -/
def run (cf : Cfg) : Nat → State → List Item × Fin_
  | 0, s => ([], .more s)
  | n + 1, s =>
    match step cf s with
    | .done => ([], .done)
    | .panic p => ([], .panic p)
    | .again s => run cf n s
    | .item i s => let (is, f) := run cf n s; (i :: is, f)

end PL
