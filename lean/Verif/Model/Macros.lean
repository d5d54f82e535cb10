import Verif.Model.Lex
set_option autoImplicit false
/-!
# Macros

`src/parser/macros.rs`. The table of definitions (a `HashMap`) is an association list in which the
first entry for a name counts.
-/
namespace PL
namespace Macros
open Lex

/-- `ReplacementToken`, macros.rs 366-370 -/
inductive RTok where
  | param (i : Nat)
  | str (s : Str)
  deriving DecidableEq, Repr

/-- `MacroDef`, macros.rs 350-356 -/
structure MacroDef where
  pre : Option Str
  params : List (Option Str)
  lastBrace : Bool
  repl : List RTok
  deriving DecidableEq, Repr

/-- `CommandDef`, macros.rs 358-363 -/
structure CommandDef where
  argCount : Nat
  default : Option Str
  repl : List RTok
  deriving DecidableEq, Repr

/-- `Definition`, macros.rs 372-377. Of an aliased character token only the character is ever used. -/
inductive Definition where
  | macro_ (d : MacroDef)
  | aliasChr (c : Char)
  | aliasCs (name : Str)
  | command (d : CommandDef)
  deriving DecidableEq, Repr

/-- `MacroContext`, macros.rs 8-10 -/
abbrev Ctx := List (Str × Definition)

/-- `definitions.get(name)` -/
def Ctx.get (m : Ctx) (name : Str) : Option Definition := m.lookup name
/-- `definitions.insert(name, d)` -/
def Ctx.insert (m : Ctx) (name : Str) (d : Definition) : Ctx := (name, d) :: m
/-- `contains`, macros.rs 89-91 -/
def Ctx.contains (m : Ctx) (name : Str) : Bool := (m.get name).isSome
/-- `assign`, macros.rs 94-96 -/
def Ctx.assign (m : Ctx) (name : Str) : Tok → Ctx
  | .cs n => m.insert name (.aliasCs n)
  | .chr c _ => m.insert name (.aliasChr c)

/-- `str::split_inclusive('#')` -/
def splitInclusive : Str → List Str
  | [] => []
  | c :: s =>
    if c = '#' then [c] :: splitInclusive s
    else match splitInclusive s with
      | [] => [[c]]
      | x :: xs => (c :: x) :: xs

/-- The loop of `parse_replacement_text`, macros.rs 242-299. `done` is the reversed list of tokens
pushed so far; `u8` values are naturals. Fuel bounds the number of iterations. -/
def replLoop (paramCount : Nat) : Nat → List RTok → List Str → Except (ErrorKind ⊕ Panic) (List RTok)
  | 0, _, _ => .error (.inr .fuel)
  | _ + 1, done, [] => .ok done.reverse
  | n + 1, done, split :: more =>
    match more with
    | [] =>
      if split.isEmpty then .ok done.reverse
      else if split.getLast? ≠ some '#' then .ok (.str split :: done).reverse
      else .error (.inl .standaloneHashSign)
    | next :: more' =>
      match next with
      | [] => .error (.inr .explicit)
      | first :: nextTail =>
        if first = '#' then replLoop paramCount n (.str split :: done) more'
        else if isDigit first then
          let i := digitVal first
          if i > paramCount || i = 0 then .error (.inl (.incorrectReplacementParams i paramCount))
          else
            -- drop the `#` at the end of the token pushed last
            let done' := if blen split = 1 then done else .str split.dropLast :: done
            replLoop paramCount n (.param i :: done') (nextTail :: more')
        else .error (.inl .standaloneHashSign)

/-- `parse_replacement_text`, macros.rs 235-303 -/
def parseReplacement (s : Str) (paramCount : Nat) : Except (ErrorKind ⊕ Panic) (List RTok) :=
  let splits := splitInclusive s
  replLoop paramCount (splits.length + 1) [] splits

/-- `str::split('#')` -/
def splitHash : Str → List Str
  | [] => [[]]
  | c :: s =>
    if c = '#' then [] :: splitHash s
    else match splitHash s with
      | [] => [[c]]
      | x :: xs => (c :: x) :: xs

/-- The parameter list of `define`, macros.rs 53-71; `i` is the expected number of the next one -/
def parseParams : Nat → List Str → Except ErrorKind (List (Option Str))
  | _, [] => .ok []
  | i, arg :: more =>
    match arg with
    | [] => .error .standaloneHashSign
    | c :: suffix =>
      if isDigit c then
        if digitVal c ≠ i % 256 then .error (.incorrectMacroParams (digitVal c) (i % 256))
        else
          match parseParams (i + 1) more with
          | .ok ps => .ok ((if suffix.isEmpty then none else some suffix) :: ps)
          | .error e => .error e
      else .error .standaloneHashSign

/-- `define`, macros.rs 28-87 -/
def define (m : Ctx) (name paramText replText : Str) : Except (ErrorKind ⊕ Panic) Ctx :=
  let lastBrace := paramText.getLast? = some '#'
  let paramText := if lastBrace then paramText.dropLast else paramText
  match splitHash paramText with
  | [] => .error (.inr .explicit)
  | pre :: args =>
    match parseParams 1 args with
    | .error e => .error (.inl e)
    | .ok params =>
      match parseReplacement replText (params.length % 256) with
      | .error e => .error e
      | .ok repl =>
        .ok (m.insert name (.macro_ ⟨if pre.isEmpty then none else some pre, params, lastBrace, repl⟩))

/-- `insert_command`, macros.rs 100-117 -/
def insertCommand (m : Ctx) (name : Str) (argCount : Nat) (default : Option Str) (replText : Str) :
    Except (ErrorKind ⊕ Panic) Ctx :=
  match parseReplacement replText argCount with
  | .error e => .error e
  | .ok repl => .ok (m.insert name (.command ⟨argCount, default, repl⟩))

/-- An argument of an expansion: `Result<Argument, &str>`, macros.rs 150 -/
inductive XArg where
  | arg (a : Arg)
  | raw (s : Str)
  deriving DecidableEq, Repr

/-- What is inserted for an argument, macros.rs 316-331 -/
def XArg.render : XArg → Str
  | .arg (.token (.chr c _)) => [c]
  | .arg (.token (.cs name)) => '\\' :: name
  | .arg (.group g) => '{' :: g ++ c!"}"
  | .raw s => s

/-- `expand_replacement`, macros.rs 305-343; `none` is the index panic -/
def expandReplacement (repl : List RTok) (args : List XArg) (rest : Str) : Option Str :=
  match repl with
  | [] => some rest
  | .str s :: more => (expandReplacement more args rest).map (s ++ ·)
  | .param i :: more =>
    match args[i - 1]? with
    | none => none
    | some a => (expandReplacement more args rest).map (a.render ++ ·)

/-- What ends the last argument before a brace, macros.rs 155-160 -/
def bracePat : Option Str → Str
  | some suffix => suffix ++ c!"{"
  | none => c!"{"

/-- The argument loop for `\def` macros, macros.rs 152-178. `lastBrace` applies to the last parameter. -/
def macroArgs (lastBrace : Bool) : List (Option Str) → M Str (List XArg)
  | [], s => .ok [] s
  | p :: ps, s =>
    if ps.isEmpty && lastBrace then
      match splitOnce (bracePat p) s with
      | none => .err .macroSuffixNotFound s
      | some (before, _) => .ok [.raw before] (s.drop before.length)
    else
      match p with
      | none =>
        (do let a ← argument
            let as ← macroArgs lastBrace ps
            return .arg a :: as : M Str (List XArg)) s
      | some suffix =>
        (do let t ← contentWithSuffix suffix
            let as ← macroArgs lastBrace ps
            return .raw t :: as : M Str (List XArg)) s

/-- `n` ordinary arguments, macros.rs 216-219 -/
def commandArgs : Nat → M Str (List XArg)
  | 0 => pure []
  | n + 1 => do
    let a ← argument
    let as ← commandArgs n
    return .arg a :: as

/-- Result of an expansion: the new text and the number of bytes of input consumed by arguments. -/
inductive XRes where
  | ok (expanded : Str) (consumed : Nat)
  | err (e : ErrorKind)
  | panic (p : Panic)
  deriving DecidableEq, Repr

/-- The end of both macro cases, macros.rs 180-183 and 221-224 -/
def finish (input : Str) (repl : List RTok) : Res Str (List XArg) → XRes
  | .panic p => .panic p
  | .err e _ => .err e
  | .ok args rest =>
    match expandReplacement repl args rest with
    | none => .panic .index
    | some t => .ok t (blen input - blen rest)

/-- `expand_definition_in`, macros.rs 135-232 -/
def expandDefinition (cf : Cfg) (d : Definition) (input : Str) : XRes :=
  match d with
  | .macro_ d =>
    match d.pre with
    | none => finish input d.repl (macroArgs d.lastBrace d.params input)
    | some p =>
      match stripPrefix p input with
      | none => .err .incorrectMacroPrefix
      | some rest => finish input d.repl (macroArgs d.lastBrace d.params rest)
  | .aliasChr c => .ok (c :: input) 0
  | .aliasCs name => .ok ('\\' :: name ++ input) 0
  | .command d =>
    match d.default with
    | none => finish input d.repl (commandArgs d.argCount input)
    | some def_ =>
      finish input d.repl
        ((do let o ← optionalArgument
             -- `*argument_count - 1` on `u8`
             if d.argCount = 0 && cf.overflowChecks then M.boom .overflow
             else
               let n := if d.argCount = 0 then 255 else d.argCount - 1
               let as ← commandArgs n
               return XArg.arg (.group (o.getD def_)) :: as : M Str (List XArg)) input)

/-- `try_expand_in`, macros.rs 124-131: `none` when the name is not a macro -/
def tryExpand (cf : Cfg) (m : Ctx) (name input : Str) : Option XRes :=
  (m.get name).map fun d => expandDefinition cf d input

end Macros
end PL
