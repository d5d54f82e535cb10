import Verif.Spec.Document
import Verif.Lemmas.Render.Doc
set_option autoImplicit false
/-! # The tree of a sequence of events -/
namespace PL.Mathml
open Spec

/-! ## Putting trees together -/

theorem strip : ∀ b : Nodes, b.regular = true → ∃ (cs : List StateChange) (b' : Nodes), b.events = cs.map Event.stateChange ++ Nodes.events b' ∧
    b'.startsWithChange = false ∧ b'.regular = true
  | .nil, h => ⟨[], .nil, rfl, rfl, h⟩
  | .cons n ns, h => by
    by_cases hn : ∃ sc, n = .change sc
    · obtain ⟨sc, rfl⟩ := hn
      rw [Nodes.regular, Bool.and_eq_true] at h
      obtain ⟨cs, b', h1, h2⟩ := strip ns h.2
      exact ⟨sc :: cs, b', by rw [Nodes.events, Node.events, h1]; rfl, h2⟩
    · refine ⟨[], .cons n ns, rfl, ?_, h⟩
      cases n with
      | change sc => exact absurd ⟨_, rfl⟩ hn
      | _ => rfl

def pushCells (n : Node) : Cells → Cells
  | .last b => .last (.cons n b)
  | .cell b rest => .cell (.cons n b) rest
  | .lost b ls rest => .lost (.cons n b) ls rest

def pushRows (n : Node) : Rows → Rows
  | .last cs => .last (pushCells n cs)
  | .line cs sp ls rest => .line (pushCells n cs) sp ls rest

def cellRows : Rows → Rows
  | .last cs => .last (.cell .nil cs)
  | .line cs sp ls rest => .line (.cell .nil cs) sp ls rest

def lostRows (l : List Line) : Rows → Rows
  | .last cs => .last (.lost .nil l cs)
  | .line cs sp ls rest => .line (.lost .nil l cs) sp ls rest

/-- The number of cells in the first row. -/
def width : Rows → Nat
  | .last cs => cs.length
  | .line cs _ _ _ => cs.length

theorem pushCells_ok (n : Node) (hn : n.regular = true) (cs : Cells) : (pushCells n cs).events = n.events ++ cs.events ∧
    (pushCells n cs).length = cs.length ∧ (pushCells n cs).regular = cs.regular := by
  cases cs <;> simp [pushCells, Cells.events, Nodes.events, Cells.length, Cells.regular, Nodes.regular, hn]

theorem pushRows_ok (n : Node) (hn : n.regular = true) (k : Nat) (rows : Rows) : (pushRows n rows).events = n.events ++ rows.events ∧
    width (pushRows n rows) = width rows ∧ (pushRows n rows).regular k = rows.regular k := by
  cases rows with
  | last cs =>
    obtain ⟨h1, h2, h3⟩ := pushCells_ok n hn cs
    simp [pushRows, Rows.events, width, Rows.regular, h1, h2, h3]
  | line cs sp ls rest =>
    obtain ⟨h1, h2, h3⟩ := pushCells_ok n hn cs
    simp [pushRows, Rows.events, width, Rows.regular, h1, h2, h3]

theorem cellRows_ok (k : Nat) (rows : Rows) (hk : width rows + 1 ≤ k) (h : rows.regular k = true) :
    (cellRows rows).events = .flow .alignment :: rows.events ∧ width (cellRows rows) = width rows + 1 ∧
    (cellRows rows).regular k = true := by
  cases rows with
  | last cs =>
    rw [Rows.regular, Bool.and_eq_true] at h
    have hk : cs.length + 1 ≤ k := hk
    simp [cellRows, Rows.events, Cells.events, Nodes.events, width, Cells.length, Rows.regular, Cells.regular, Nodes.regular, h.2, hk]
  | line cs sp ls rest =>
    rw [Rows.regular, Bool.and_eq_true, Bool.and_eq_true] at h
    have hk : cs.length + 1 ≤ k := hk
    simp [cellRows, Rows.events, Cells.events, Nodes.events, width, Cells.length, Rows.regular, Cells.regular, Nodes.regular, h.1.2, h.2, hk]

theorem lostRows_ok (l : List Line) (k : Nat) (rows : Rows) : (lostRows l rows).events = .flow (.startLines l) :: rows.events ∧
    width (lostRows l rows) = width rows ∧ (lostRows l rows).regular k = rows.regular k := by
  cases rows <;> simp [lostRows, Rows.events, Cells.events, Nodes.events, width, Cells.length, Rows.regular, Cells.regular, Nodes.regular] <;> rfl

/-- Lines at the start can be taken for the lines above an environment. -/
theorem lined_split (rows : Rows) (h : rows.lined = true) : ∃ l rows', rows = lostRows l rows' := by
  cases rows with
  | last cs =>
    cases cs with
    | lost b l rest =>
      cases b with
      | nil => exact ⟨l, .last rest, rfl⟩
      | cons => cases h
    | _ => cases h
  | line cs sp ls rest =>
    cases cs with
    | lost b l rest' =>
      cases b with
      | nil => exact ⟨l, .line rest' sp ls rest, rfl⟩
      | cons => cases h
    | _ => cases h

/-- The tree of a sequence of events. -/
def Tree : DForm → List Event → Prop
  | .elem, es => ∃ n : Node, n.events = es ∧ n.regular = true
  | .elems m, es => ∃ ns : Nodes, ns.events = es ∧ ns.length = m ∧ ns.regular = true
  | .body g k _, es => ((∀ g', g = some g' → g'.isMathEnv = false) → ∃ ns : Nodes, ns.events = es ∧ ns.regular = true) ∧
      ∀ g', g = some g' → g'.isMathEnv = true → k ≤ alignments g' → ∃ rows : Rows, rows.events = es ∧
        width rows + k ≤ alignments g' + 1 ∧ rows.regular (alignments g' + 1) = true

theorem tree_of {f : DForm} {es : List Event} (h : Doc false f es) : Tree f es := by
  induction h with
  | @simple e hs =>
    cases e with
    | content c => exact ⟨.content c, rfl, rfl⟩
    | space w h d => exact ⟨.space w h d, rfl, rfl⟩
    | stateChange sc => exact ⟨.change sc, rfl, rfl⟩
    | _ => exact hs.elim
  | @group g b k' hg hd ih =>
    cases hm : g.isMathEnv with
    | false =>
      obtain ⟨ns, h4, h5⟩ := ih.1 (by rintro _ ⟨⟩; exact hm)
      obtain ⟨cs, b', h6, h7, h8⟩ := strip ns h5
      cases g with
      | normal => exact ⟨.group none cs b', by rw [Node.events, ← h4, h6]; simp, by rw [Node.regular, h7, h8]; rfl⟩
      | leftRight l r => exact ⟨.group (some (l, r)) cs b', by rw [Node.events, ← h4, h6]; simp, by rw [Node.regular, h7, h8]; rfl⟩
      | _ => cases hm
    | true =>
      obtain ⟨rows, h4, h5, h6⟩ := ih.2 g rfl hm (Nat.zero_le _)
      by_cases hq : ∃ b, g = .equation b
      · obtain ⟨b', rfl⟩ := hq
        exact ⟨.table (.equation b') none rows, by rw [← h4, Node.events], by rw [Node.regular]; exact h6⟩
      · have ok : tableOk g = true := by cases g <;> first | exact hm | exact hg
        cases hl : rows.lined with
        | false =>
          refine ⟨.table g none rows, by rw [← h4, Node.events], ?_⟩
          rw [Node.regular]
          · rw [ok, hl, h6]; rfl
          · rintro b rfl; exact hq ⟨b, rfl⟩
        | true =>
          obtain ⟨l, rows', rfl⟩ := lined_split rows hl
          obtain ⟨h7, -, h8⟩ := lostRows_ok l (alignments g + 1) rows'
          refine ⟨.table g (some l) rows', by rw [← h4, h7, Node.events]; rfl, ?_⟩
          rw [Node.regular]
          · rw [ok, ← h8, h6]; rfl
          · rintro b rfl; exact hq ⟨b, rfl⟩
  | @script ty p ds hd ih =>
    obtain ⟨ns, h1, h2, h3⟩ := ih
    exact ⟨.script ty p ns, by rw [Node.events, h1], by rw [Node.regular, h2, h3]; simp⟩
  | @visual v ds hd ih =>
    obtain ⟨ns, h1, h2, h3⟩ := ih
    exact ⟨.visual v ns, by rw [Node.events, h1], by rw [Node.regular, h2, h3]; simp⟩
  | nil => exact ⟨.nil, rfl, rfl, rfl⟩
  | cons _ _ _ ih ih' =>
    obtain ⟨n, h1, h2⟩ := ih
    obtain ⟨ns, h4, h5, h6⟩ := ih'
    exact ⟨.cons n ns, by rw [Nodes.events, h1, h4], by rw [Nodes.length, h5], by rw [Nodes.regular, h2, h6]; rfl⟩
  | @empty g k =>
    refine ⟨fun _ => ⟨.nil, rfl, rfl⟩, fun g' _ _ hk => ⟨.last (.last .nil), rfl, ?_, ?_⟩⟩
    · show 1 + k ≤ _; omega
    · simp [Rows.regular, Cells.regular, Nodes.regular, Cells.length]
  | @element g k k' a b _ _ ih ih' =>
    obtain ⟨n, h1, h2⟩ := ih
    obtain ⟨h4, h5⟩ := ih'
    refine ⟨fun hg => ?_, fun g' e hg hk => ?_⟩
    · obtain ⟨ns, h7, h8⟩ := h4 hg
      exact ⟨.cons n ns, by rw [Nodes.events, h1, h7], by rw [Nodes.regular, h2, h8]; rfl⟩
    · obtain ⟨rows, h7, h8, h9⟩ := h5 g' e hg hk
      obtain ⟨k1, k2, k3⟩ := pushRows_ok n h2 (alignments g' + 1) rows
      exact ⟨pushRows n rows, by rw [k1, ← h7, ← h1], by rw [k2]; exact h8, by rw [k3]; exact h9⟩
  | @align g k k' b hg hk _ ih =>
    refine ⟨fun h => (by rw [h g rfl] at hg; cases hg), ?_⟩
    rintro _ ⟨⟩ _ _
    obtain ⟨rows, h7, h8, h9⟩ := ih.2 g rfl hg hk
    obtain ⟨k1, k2, k3⟩ := cellRows_ok (alignments g + 1) rows (by omega) h9
    exact ⟨cellRows rows, by rw [k1, ← h7], by omega, k3⟩
  | @line g k k' b sp l hg _ ih =>
    refine ⟨fun h => (by rw [h g rfl] at hg; cases hg), ?_⟩
    rintro _ ⟨⟩ _ hk
    obtain ⟨rows, h7, h8, h9⟩ := ih.2 g rfl hg (Nat.zero_le _)
    refine ⟨.line (.last .nil) sp l rows, by rw [← h7]; rfl, ?_, ?_⟩
    · show 1 + k ≤ _; omega
    · rw [Rows.regular, h9]; simp [Cells.regular, Nodes.regular, Cells.length]
  | @lines g k k' b l hg _ ih =>
    refine ⟨fun h => (by rw [h g rfl] at hg; cases hg), ?_⟩
    rintro _ ⟨⟩ _ hk
    obtain ⟨rows, h7, h8, h9⟩ := ih.2 g rfl hg hk
    obtain ⟨k1, k2, k3⟩ := lostRows_ok l (alignments g + 1) rows
    exact ⟨lostRows l rows, by rw [k1, ← h7], by rw [k2]; exact h8, by rw [k3]; exact h9⟩

/-- Well-formed sequences are trees. -/
theorem tree_of_doc {es : List Event} {k' : Nat} (h : Doc false (.body none 0 k') es) :
    ∃ ns : Nodes, ns.events = es ∧ ns.regular = true :=
  (tree_of h).1 (by rintro _ ⟨⟩)

end PL.Mathml
