import Verif.Model.Lex
set_option autoImplicit false
/-!
# Single precision numbers

The `f32` values that `floating_point` (lex.rs 386-415) and `impl Display for Dimension` (event.rs 752-805) compute, with the rounding of IEEE 754. The rest of the
model has exact numbers in their place (`Num`). Not modelled: how a float is written in decimals.
-/
namespace PL

/-- The magnitude of an `f32`: `fin k` is `k · 2⁻¹⁴⁹`. -/
inductive Mag where
  | nan | inf | fin (k : Nat)
  deriving DecidableEq, Repr

namespace Mag

/-- The nearest `f32` to `a / b` units of `2⁻¹⁴⁹`, the even one if two are nearest; infinite from `2¹²⁸` on. The unit of the last place is `2 ^ s`. -/
def round (a b : Nat) : Mag :=
  let s := Nat.log2 (a / b) - 23
  let c := b * 2 ^ s
  let m := a / c
  let r := a % c
  let m' := if c < 2 * r ∨ 2 * r = c ∧ m % 2 = 1 then m + 1 else m
  if m' * 2 ^ s < 2 ^ 277 then fin (m' * 2 ^ s) else inf

/-- `n as f32` -/
def ofNat (n : Nat) : Mag := round (n * 2 ^ 149) 1

/-- `x + y` -/
def add : Mag → Mag → Mag
  | nan, _ => nan
  | _, nan => nan
  | inf, _ => inf
  | _, inf => inf
  | fin a, fin b => round (a + b) 1

/-- `x * y` -/
def mul : Mag → Mag → Mag
  | nan, _ => nan
  | _, nan => nan
  | inf, fin 0 => nan
  | fin 0, inf => nan
  | inf, _ => inf
  | _, inf => inf
  | fin a, fin b => round (a * b) (2 ^ 149)

/-- `x / y` -/
def div : Mag → Mag → Mag
  | nan, _ => nan
  | _, nan => nan
  | inf, inf => nan
  | inf, fin _ => inf
  | fin _, inf => fin 0
  | fin 0, fin 0 => nan
  | fin _, fin 0 => inf
  | fin a, fin b => round (a * 2 ^ 149) b

end Mag

/-- The loops over digits, lex.rs 389-397 and 400-410: `number = number * 10. + (c as u8 - b'0') as f32` -/
def digits32 (x : Mag) (ds : Str) : Mag := ds.foldl (fun x c => (x.mul (.ofNat 10)).add (.ofNat (c.toNat - 48))) x

/-- `decimal_divisor *= 10.` for every digit, lex.rs 401, 405 -/
def divisor32 (ds : Str) : Mag := ds.foldl (fun x _ => x.mul (.ofNat 10)) (.ofNat 1)

/-- The magnitude that `floating_point` computes from the digits before and after the decimal point, lex.rs 389-412 -/
def floating32 (ip : Str) : Option Str → Mag
  | none => digits32 (.ofNat 0) ip
  | some fp => (digits32 (.ofNat 0) ip).add ((digits32 (.ofNat 0) fp).div (divisor32 fp))

/-- `floating_point`, lex.rs 386-415: the sign and the magnitude -/
def floatingPoint32 : Lex.L (Int × Mag) := do
  let sg ← Lex.signs
  let input ← M.get
  let ip := input.takeWhile isDigit
  let rest := input.dropWhile isDigit
  match rest with
  | c :: r =>
    if c = '.' || c = ',' then
      M.set (r.dropWhile isDigit)
      return (sg, floating32 ip (some (r.takeWhile isDigit)))
    else
      M.set rest
      return (sg, floating32 ip none)
  | [] =>
    M.set rest
    return (sg, floating32 ip none)

/-- `dimension`, lex.rs 264-268 -/
def dimension32 : Lex.L (Int × Mag × Unit_) := do
  let (sg, m) ← floatingPoint32
  let u ← Lex.dimensionUnit
  return (sg, m, u)

/-- `BP_PER_PT`, event.rs 754: `72. / 72.27` -/
def bpPerPt : Mag := (Mag.ofNat 72).div (.round (7227 * 2 ^ 149) 100)
/-- `BP_PER_SP`, event.rs 755: `1. / 65536. * BP_PER_PT` -/
def bpPerSp : Mag := ((Mag.ofNat 1).div (.ofNat 65536)).mul bpPerPt
/-- `BP_PER_DD`, event.rs 756: `1238. / 1157. * BP_PER_PT` -/
def bpPerDd : Mag := ((Mag.ofNat 1238).div (.ofNat 1157)).mul bpPerPt
/-- `BP_PER_CC`, event.rs 757: `12. * BP_PER_DD` -/
def bpPerCc : Mag := (Mag.ofNat 12).mul bpPerDd
/-- `EM_PER_MU`, event.rs 758: `1. / 18.` -/
def emPerMu : Mag := (Mag.ofNat 1).div (.ofNat 18)

/-- The value that is displayed, event.rs 759-803 -/
def shown32 (x : Mag) : Unit_ → Mag
  | .mu => x.mul emPerMu
  | .pt => x.mul bpPerPt
  | .pc => x.mul bpPerPt
  | .sp => x.mul bpPerSp
  | .dd => x.mul bpPerDd
  | .cc => x.mul bpPerCc
  | _ => x

end PL
