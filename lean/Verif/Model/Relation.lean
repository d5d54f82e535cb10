import Verif.Model.Error
set_option autoImplicit false
/-!
# Encoding of relation contents

`RelationContent::encode_utf8_to_buf`, `src/event.rs` 683-714.
-/
namespace PL

/-- `char::encode_utf8(buf)`: writes the encoding at the start of the buffer; `none` is the panic when the
buffer is too small. Result: the buffer and the length written. -/
def encodeUtf8 (c : Char) (buf : List Nat) : Option (List Nat × Nat) :=
  let bs := utf8Char c
  if bs.length ≤ buf.length then some (bs ++ buf.drop bs.length, bs.length) else none

/-- `encode_utf8_to_buf`, event.rs 707-713. The second character goes into `buf[len..]`. -/
def encodeToBuf (c : Char) (second : Option Char) (buf : List Nat) : Option (List Nat) :=
  match encodeUtf8 c buf with
  | none => none
  | some (buf, len) =>
    match second with
    | none => some (buf.take len)
    | some d =>
      match encodeUtf8 d (buf.drop len) with
      | none => none
      | some (tail, len2) => some ((buf.take len ++ tail).take (len + len2))

end PL
