import Lean.Elab.Term
set_option autoImplicit false
/-!
# Strings, slices and results

Rust `&str` values are modelled as lists of characters (`Str`), together with the length in bytes.
`c!"..."` is a string literal that elaborates to an explicit list of characters, so that the kernel
can compute with it.
-/
namespace PL

/-- A Rust `str`: its characters. -/
abbrev Str := List Char

/-- `c!"abc"` is `['a', 'b', 'c']`. -/
syntax:max (name := charList) "c!" str : term

open Lean in
macro_rules
  | `(c!$s:str) => do
    let cs : Array (TSyntax `term) := (s.getString.toList.map fun c => (Syntax.mkCharLit c : TSyntax `term)).toArray
    `(([$cs,*] : List Char))

/-- Length in bytes (`str::len`). -/
def blen : Str → Nat
  | [] => 0
  | c :: s => c.utf8Size + blen s

/-- `char::is_whitespace`: the Unicode property `White_Space` (a fixed set of 25 code points). -/
def isWs (c : Char) : Bool :=
  let n := c.toNat
  (9 ≤ n && n ≤ 13) || n == 0x20 || n == 0x85 || n == 0xA0 || n == 0x1680 ||
    (0x2000 ≤ n && n ≤ 0x200A) || n == 0x2028 || n == 0x2029 || n == 0x202F || n == 0x205F ||
    n == 0x3000

/-- `char::is_ascii_digit` -/
def isDigit (c : Char) : Bool := 48 ≤ c.toNat && c.toNat ≤ 57

/-- `char::is_ascii_alphabetic` -/
def isLetter (c : Char) : Bool :=
  (65 ≤ c.toNat && c.toNat ≤ 90) || (97 ≤ c.toNat && c.toNat ≤ 122)

/-- Value of an ASCII digit, `c as u8 - b'0'`. -/
def digitVal (c : Char) : Nat := c.toNat - 48

/-- `str::trim_start` -/
def trimStart (s : Str) : Str := s.dropWhile isWs

/-- `str::trim_end` -/
def trimEnd (s : Str) : Str := (s.reverse.dropWhile isWs).reverse

/-- `str::trim` -/
def trim (s : Str) : Str := trimEnd (trimStart s)

/-- `str::starts_with` for a string pattern. -/
def startsWith (p s : Str) : Bool := p.isPrefixOf s

/-- `str::strip_prefix` for a string pattern. -/
def stripPrefix (p s : Str) : Option Str := if p.isPrefixOf s then some (s.drop p.length) else none

/-- `str::split_once` for a string pattern: text before and after the first occurrence. -/
def splitOnce (p : Str) : Str → Option (Str × Str)
  | [] => if p.isPrefixOf [] then some ([], []) else none
  | c :: s =>
    if p.isPrefixOf (c :: s) then some ([], (c :: s).drop p.length)
    else (splitOnce p s).map fun (a, b) => (c :: a, b)

/-- `str::split_at` at a byte position; `none` models the panic when the position is not a
character boundary (or out of range). -/
def splitBytes : Str → Nat → Option (Str × Str)
  | s, 0 => some ([], s)
  | [], _ + 1 => none
  | c :: s, n + 1 =>
    if c.utf8Size ≤ n + 1 then (splitBytes s (n + 1 - c.utf8Size)).map fun (a, b) => (c :: a, b)
    else none

/-- A `&str` that points into the input (`src = 0`) or into the `k`-th string allocated by macro
expansion (`src = k`). `stop` is the byte offset of its end in that allocation, so that taking a
suffix only changes `cs`. -/
structure Sl where
  src : Nat
  stop : Nat
  cs : Str
  deriving DecidableEq, Repr

/-- Byte offset of the start of the slice (what `as_ptr` observes, up to the allocation's base). -/
def Sl.start (s : Sl) : Nat := s.stop - blen s.cs

/-- The part `g` of `whole` which is followed by a closing string of `closeLen` bytes and `rest`,
where `rest` is a suffix of `whole`. -/
def Sl.part (whole : Sl) (g : Str) (closeLen : Nat) (rest : Str) : Sl :=
  ⟨whole.src, whole.stop - blen rest - closeLen, g⟩

end PL
