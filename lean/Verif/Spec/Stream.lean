import Verif.Model.Event
set_option autoImplicit false
/-!
# Specifications on streams of events
-/
namespace PL.Spec

/-- Operands documented for a script event. -/
def scriptOperands : ScriptType → Nat
  | .sub => 2
  | .sup => 2
  | .subSup => 3

/-- Operands documented for a visual event. -/
def visualOperands : Visual → Nat
  | .squareRoot => 1
  | .negation => 1
  | .root => 2
  | .fraction _ => 2

/-- Events that are elements by themselves. -/
def Simple : Event → Prop
  | .content _ => True
  | .space _ _ _ => True
  | .stateChange _ => True
  | _ => False

/-- What a list of events is read as. -/
inductive Form where
  /-- one element -/
  | elem
  /-- the given number of elements -/
  | elems (n : Nat)
  /-- the inside of a group: elements and alignment or line events -/
  | body

/-- Streams in which groups are closed and every script and visual event has its operands. -/
inductive WF : Form → List Event → Prop
  | simple {e} : Simple e → WF .elem [e]
  | group {g b} : WF .body b → WF .elem (.begin_ g :: (b ++ [.end_]))
  | script {ty p ds} : WF (.elems (scriptOperands ty)) ds → WF .elem (.script ty p :: ds)
  | visual {v ds} : WF (.elems (visualOperands v)) ds → WF .elem (.visual v :: ds)
  | nil : WF (.elems 0) []
  | cons {n a b} : WF .elem a → WF (.elems n) b → WF (.elems (n + 1)) (a ++ b)
  | empty : WF .body []
  | element {a b} : WF .elem a → WF .body b → WF .body (a ++ b)
  | flow {f b} : WF .body b → WF .body (.flow f :: b)

/-- Neither the start nor the end of a group. -/
def Plain : Event → Prop
  | .begin_ _ => False
  | .end_ => False
  | _ => True

/-- Streams in which the starts and ends of groups match. -/
inductive Balanced : List Event → Prop
  | nil : Balanced []
  | plain {e b} : Plain e → Balanced b → Balanced (e :: b)
  | group {g a b} : Balanced a → Balanced b → Balanced (.begin_ g :: (a ++ .end_ :: b))

/-- Number of `Begin` events. -/
def begins (es : List Event) : Nat := es.countP fun e => match e with | .begin_ _ => true | _ => false
/-- Number of `End` events. -/
def ends (es : List Event) : Nat := es.countP fun e => match e with | .end_ => true | _ => false

/-- A column of an array, not a separator. -/
def isColumn : ArrayCol → Bool
  | .column _ => true
  | .separator _ => false

/-- How many alignments a line of a group may have (the counters are 16 bits wide). -/
def alignments : Grouping → Nat
  | .array cols => cols.countP isColumn - 1
  | .matrix _ => 65535
  | .align _ => 65535
  | .aligned => 65535
  | .cases _ => 1
  | .split => 1
  | .alignat pairs _ => min 65535 (2 * pairs - 1)
  | .alignedat pairs => min 65535 (2 * pairs - 1)
  | _ => 0

/-- The open groups, innermost first, each with the number of alignments in its current line. With
`through`, an alignment or line break inside plain braces counts for the group around them. -/
def atLevel (through : Bool) (f : Grouping × Nat → Grouping × Nat) : List (Grouping × Nat) → List (Grouping × Nat)
  | [] => []
  | x :: xs => if through && x.1 = .normal then x :: atLevel through f xs else f x :: xs

/-- The innermost open group that counts. -/
def level (through : Bool) : List (Grouping × Nat) → Option (Grouping × Nat)
  | [] => none
  | x :: xs => if through && x.1 = .normal then level through xs else some x

/-- Effect of an event on the open groups. -/
def levelStep (through : Bool) (ls : List (Grouping × Nat)) : Event → List (Grouping × Nat)
  | .begin_ g => (g, 0) :: ls
  | .end_ => ls.tail
  | .flow .alignment => atLevel through (fun x => (x.1, x.2 + 1)) ls
  | .flow (.newLine _ _) => atLevel through (fun x => (x.1, 0)) ls
  | _ => ls

/-- The open groups after some events. -/
def levels (through : Bool) (es : List Event) : List (Grouping × Nat) := es.foldl (levelStep through) []

/-- Alignments and line breaks occur only in alignment environments, with at most the allowed number of
alignments in a line. -/
def FlowsAllowed (through : Bool) (es : List Event) : Prop :=
  (∀ pre post, es = pre ++ .flow .alignment :: post →
    ∃ g k, level through (levels through pre) = some (g, k) ∧ g.isMathEnv = true ∧ k < alignments g) ∧
  (∀ pre post sp ls, es = pre ++ .flow (.newLine sp ls) :: post →
    ∃ g k, level through (levels through pre) = some (g, k) ∧ g.isMathEnv = true) ∧
  (∀ pre post ls, es = pre ++ .flow (.startLines ls) :: post →
    ∃ g k, level false (levels through pre) = some (g, k) ∧ g.isMathEnv = true)

end PL.Spec
