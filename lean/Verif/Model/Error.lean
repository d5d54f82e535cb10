import Verif.Model.Macros
set_option autoImplicit false
/-!
# Span stack and construction of errors

`SpanStack` of `src/parser.rs` (448-527) and `src/parser/error.rs`.
-/
namespace PL

/-- UTF-8 encoding of a character, as numbers below 256. -/
def utf8Char (c : Char) : List Nat :=
  let n := c.toNat
  if n < 0x80 then [n]
  else if n < 0x800 then [0xC0 + n / 64, 0x80 + n % 64]
  else if n < 0x10000 then [0xE0 + n / 4096, 0x80 + n / 64 % 64, 0x80 + n % 64]
  else [0xF0 + n / 262144, 0x80 + n / 4096 % 64, 0x80 + n / 64 % 64, 0x80 + n % 64]

/-- `str::as_bytes` -/
def utf8 : Str → List Nat
  | [] => []
  | c :: s => utf8Char c ++ utf8 s

/-- `(*b as i8) >= -0x40`, error.rs 252 -/
def isBoundaryByte (b : Nat) : Bool := b < 128 || b ≥ 192

/-- `Iterator::rposition` -/
def rposition (p : Nat → Bool) (l : List Nat) : Option Nat :=
  match l.reverse.findIdx? p with
  | some i => some (l.length - 1 - i)
  | none => none

/-- `floor_char_boundary`, error.rs 245-259. `none` models `unwrap_unchecked` of `None` (undefined
behaviour). -/
def floorCharBoundary (s : Str) (index : Nat) : Option Nat :=
  if index ≥ blen s then some (blen s)
  else
    let lower := index - 3
    (rposition isBoundaryByte (((utf8 s).drop lower).take (index - lower + 1))).map (lower + ·)

/-- `&s[a..b]`; `none` is the panic -/
def sliceBytes (s : Str) (a b : Nat) : Option Str :=
  if a ≤ b then
    match splitBytes s b with
    | none => none
    | some (pre, _) => (splitBytes pre a).map (·.2)
  else none

/-- `ExpansionSpan`, parser.rs 512-527; `id` numbers the allocation of `full`. -/
structure ExpSpan where
  id : Nat
  full : Str
  expLen : Nat
  callStart : Nat
  callStop : Nat
  deriving DecidableEq, Repr

/-- `SpanStack`, parser.rs 452-459, with the expansions innermost first. `nalloc` and `allocBytes` count the
strings allocated by expansion and their bytes; they are not part of the Rust struct. -/
structure Spans where
  input : Str
  exps : List ExpSpan
  total : Nat
  nalloc : Nat
  allocBytes : Nat
  deriving DecidableEq, Repr

/-- `from_input`, parser.rs 462-468 -/
def Spans.init (input : Str) : Spans := ⟨input, [], 0, 0, 0⟩

/-- The loop of `reach_original_call_site`, parser.rs 486-501: the remaining stack and the offset;
`none` is the failing `assert!`. -/
def reachLoop (cf : Cfg) (input : Str) (ptr : Nat) : List ExpSpan → Option (Nat × List ExpSpan)
  | e :: es =>
    if cf.addr e.id ≤ ptr && ptr ≤ cf.addr e.id + blen e.full then some (ptr - cf.addr e.id, e :: es)
    else reachLoop cf input ptr es
  | [] =>
    if cf.addr 0 ≤ ptr && ptr ≤ cf.addr 0 + blen input then some (ptr - cf.addr 0, []) else none

/-- `reach_original_call_site`, parser.rs 486-505 -/
def Spans.reach (cf : Cfg) (sp : Spans) (ptr : Nat) : Option (Nat × Spans) :=
  (reachLoop cf sp.input ptr sp.exps).map fun (i, es) => (i, { sp with exps := es })

/-- `as_ptr` of a slice -/
def Sl.ptr (cf : Cfg) (s : Sl) : Nat := cf.addr s.src + s.start

/-- `add`, parser.rs 470-482. The length is computed in `isize` and cast to `usize`. -/
def Spans.add (cf : Cfg) (sp : Spans) (id : Nat) (full : Str) (callSite : Sl) (callLen : Nat) : Option Spans :=
  match sp.reach cf (callSite.ptr cf) with
  | none => none
  | some (start, sp) =>
    let len : Int := (callLen : Int) - ((blen callSite.cs : Int) - (blen full : Int))
    let e : ExpSpan := ⟨id, full, (len % (2 ^ 64 : Int)).toNat, start, start + callLen⟩
    some { sp with exps := e :: sp.exps }

/-- `str::lines` -/
def linesOf (s : Str) : List Str :=
  let stripCr (l : Str) : Str := if l.getLast? = some '\r' then l.dropLast else l
  let rec go (acc : Str) : Str → List Str
    | [] => if acc.isEmpty then [] else [acc.reverse]
    | c :: s => if c = '\n' then stripCr acc.reverse :: go [] s else go (c :: acc) s
  go [] s

/-- `write_context_str`, error.rs 97-126 -/
def writeContextStr (context : Str) (last hasPrev : Bool) : Str :=
  let lines := linesOf context
  let lastLen := blen (lines.getLast?.getD [])
  c!"│\n" ++
  (match lines with
    | [] => []
    | l :: ls =>
      '│' :: (if hasPrev then '…' else ' ') :: l ++ c!"\n" ++
        (ls.map fun l => c!"│ " ++ l ++ c!"\n").flatten) ++
  c!"│ " ++ List.replicate lastLen '^' ++ c!"\n" ++
  (if last then c!"╰─" ++ List.replicate lastLen '─' else c!"├")

/-- `CONTEXT_SIZE`, error.rs 27 -/
def contextSize : Nat := 12

/-- The loop over expansions of `ParserError::new`, error.rs 43-79, followed by the final slice of the
input. `lo`/`up` are the bounds. -/
def contextLoop (input : Str) : List ExpSpan → Nat → Nat → Str → Except Panic Str
  | [], lo, up, ctx =>
    match sliceBytes input lo up with
    | none => .error .sliceBoundary
    | some t => .ok (ctx ++ writeContextStr t true (lo > 0))
  | e :: es, lo, up, ctx =>
    let next := match es with
      | [] => input
      | e' :: _ => e'.full
    if lo > e.expLen then
      match floorCharBoundary next (lo + e.callStart), floorCharBoundary next (min (e.callStop + up) (blen next)) with
      | some lo', some up' => contextLoop input es lo' up' ctx
      | _, _ => .error .explicit
    else
      match sliceBytes e.full lo up with
      | none => .error .sliceBoundary
      | some t =>
        let ctx := ctx ++ writeContextStr t false (lo > 0) ++ c!"─► which was expanded from:\n"
        match floorCharBoundary next (e.callStart - contextSize), floorCharBoundary next (e.callStop + contextSize) with
        | some lo', some up' => contextLoop input es lo' up' ctx
        | _, _ => .error .explicit

/-- `ParserError::new`, error.rs 26-94: the context and the new span stack -/
def errorContext (cf : Cfg) (sp : Spans) (place : Nat) : Except Panic (Str × Spans) :=
  match sp.reach cf place with
  | none => .error .assertion
  | some (index, sp) =>
    let first := match sp.exps with
      | [] => sp.input
      | e :: _ => e.full
    match floorCharBoundary first (index - contextSize), floorCharBoundary first (index + contextSize) with
    | some lo, some up =>
      match contextLoop sp.input sp.exps lo up c!"╭─► context:\n" with
      | .ok ctx => .ok (ctx, sp)
      | .error p => .error p
    | _, _ => .error .explicit

end PL
