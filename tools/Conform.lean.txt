import Verif.Model.Parser
import Verif.Model.Mathml
import Lean.Data.Json
/-! Runs the model (parser and renderer) on the inputs recorded in `/repo/tests/out/*.html` and compares with
the output recorded there. Not part of the build; see `tools/conform.py`. -/
open PL PL.Mathml Lean

/-- Shortest decimal that reads back as the same `f32` (what Rust prints). -/
def showF32 (n : Num) : Str := Id.run do
  let v : Float32 := (Float.ofInt n.num / Float.ofNat n.den).toFloat32
  let neg := v < 0
  let a := if neg then -v else v
  for k in [0:12] do
    let scaled := (a.toFloat * Float.ofNat (10 ^ k)).round
    if (scaled / Float.ofNat (10 ^ k)).toFloat32 == a then
      let m := scaled.toUInt64.toNat
      let ip := m / 10 ^ k
      let fp := m % 10 ^ k
      let fs := toString fp
      let fs := String.ofList (List.replicate (k - fs.length) '0') ++ fs
      return ((if neg then "-" else "") ++ toString ip ++ (if k = 0 then "" else "." ++ fs)).toList
  return "?".toList

def isUp (c : Char) : Bool := ('A' ≤ c && c ≤ 'Z') || (0x391 ≤ c.toNat && c.toNat ≤ 0x3a9) ||
  (0x1D6E2 ≤ c.toNat && c.toNat ≤ 0x1D6FA) || "ℂℍℕℙℚℝℤℑℜℲℋℐℒℛℬℰℱℳⓈ".toList.contains c

def rcfg : RCfg := ⟨true, none, (178, 34, 34), false, .tex, showF32, isUp, true⟩
def pcfg : Cfg := ⟨true, fun k => k * 100000000⟩

def toR : Item → RItem
  | .ok e => .ok e
  | .err e _ => .err (toString (repr e)).toList

def main (args : List String) : IO Unit := do
  let txt ← IO.FS.readFile args[0]!
  let .ok (.arr cases) := Json.parse txt | throw (IO.userError "json")
  let mut good := 0
  for c in cases do
    let .ok i := c.getObjValAs? String "i" | throw (IO.userError "i")
    let .ok o := c.getObjValAs? String "o" | throw (IO.userError "o")
    let (items, fin) := run pcfg 1000000 (State.init i.toList)
    let r := pushMathml rcfg (items.map toR) []
    let s := match r with
      | .ok t => String.ofList t
      | .io _ => "IO"
      | .panic p => s!"PANIC {repr p}"
    let done := match fin with
      | .done => ""
      | _ => "NOTDONE "
    if done ++ s == o then good := good + 1
    else IO.println s!"---- {i}\nexp {o}\ngot {done}{s}"
  IO.println s!"{good} of {cases.size} agree"
