import Verif.Model.Mathml
set_option autoImplicit false
/-! # Sizes of what is rendered -/
namespace PL.Spec
open Mathml

/-- The size of an item: one, and the length of the texts and lists in it. -/
def itemSize : RItem → Nat
  | .err m => 1 + m.length
  | .ok (.content (.text t)) | .ok (.content (.number t)) | .ok (.content (.function t)) => 1 + t.length
  | .ok (.begin_ (.array cols)) => 1 + cols.length
  | .ok (.flow (.newLine _ ls)) | .ok (.flow (.startLines ls)) => 1 + ls.length
  | .ok _ => 1

def totalSize (its : List RItem) : Nat := (its.map itemSize).sum

/-- The three components of a colour are bytes. -/
def ByteColour (c : Nat × Nat × Nat) : Prop := c.1 < 256 ∧ c.2.1 < 256 ∧ c.2.2 < 256

/-- An item whose colours are bytes (they always are, in Rust), and whose arrays have at most `C` columns and separators. -/
def Within (C : Nat) : RItem → Prop
  | .ok (.stateChange (.color c _)) => ByteColour c
  | .ok (.begin_ (.array cols)) => cols.length ≤ C
  | _ => True

/-- Numbers are shown with at most 64 characters (`f32` needs at most 50). -/
def ShortNumbers (cfg : RCfg) : Prop := ∀ n, (cfg.fmt n).length ≤ 64

/-- An event whose texts are at most 16 characters longer than `B`, whose lists of columns and lines have at most `B` entries and whose colours are bytes. -/
def EventFits (B : Nat) : Event → Prop
  | .content (.text t) | .content (.number t) | .content (.function t) => t.length ≤ B + 16
  | .begin_ (.array cols) => cols.length ≤ B
  | .flow (.newLine _ ls) | .flow (.startLines ls) => ls.length ≤ B
  | .stateChange (.color c _) => ByteColour c
  | _ => True

end PL.Spec
