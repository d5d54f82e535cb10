import Verif.Spec.Formula
import Verif.Spec.Counts
set_option autoImplicit false
/-!
# Trees of the grammar
-/
namespace PL.Spec

/-! ## Operands -/

mutual
theorem Node.wf : ∀ (n : Node), n.complete = true → WF .elem n.events
  | .content _, _ => .simple trivial
  | .space _ _ _, _ => .simple trivial
  | .change _, _ => .simple trivial
  | .group none cs b, h => by
    rw [Node.events, ← List.append_assoc]
    exact .group (changes_wf cs (Nodes.wf b h))
  | .group (some (l, r)) cs b, h => by
    rw [Node.events, ← List.append_assoc]
    exact .group (changes_wf cs (Nodes.wf b h))
  | .script ty p ops, h => by
    simp only [Node.complete, Bool.and_eq_true, beq_iff_eq] at h
    exact .script (h.1 ▸ Nodes.wfs ops h.2)
  | .visual v ops, h => by
    simp only [Node.complete, Bool.and_eq_true, beq_iff_eq] at h
    exact .visual (h.1 ▸ Nodes.wfs ops h.2)
  | .table g none rows, h => .group (Rows.wf rows h)
  | .table g (some ls) rows, h => .group (b := _ :: _) (.flow (Rows.wf rows h))
theorem Nodes.wf : ∀ (ns : Nodes), ns.complete = true → WF .body ns.events
  | .nil, _ => .empty
  | .cons n ns, h => by
    simp only [Nodes.complete, Bool.and_eq_true] at h
    exact .element (Node.wf n h.1) (Nodes.wf ns h.2)
theorem Nodes.wfs : ∀ (ns : Nodes), ns.complete = true → WF (.elems ns.length) ns.events
  | .nil, _ => .nil
  | .cons n ns, h => by
    simp only [Nodes.complete, Bool.and_eq_true] at h
    exact .cons (Node.wf n h.1) (Nodes.wfs ns h.2)
theorem Rows.wf : ∀ (rs : Rows), rs.complete = true → WF .body rs.events
  | .last cs, h => by
    have := Cells.wf cs h .empty
    rwa [List.append_nil] at this
  | .line cs sp ls rest, h => by
    simp only [Rows.complete, Bool.and_eq_true] at h
    exact Cells.wf cs h.1 (.flow (Rows.wf rest h.2))
theorem Cells.wf : ∀ (cs : Cells) {b : List Event}, cs.complete = true → WF .body b → WF .body (cs.events ++ b)
  | .last b, _, h, hb => Nodes.wf_append b h hb
  | .cell b rest, _, h, hb => by
    simp only [Cells.complete, Bool.and_eq_true] at h
    rw [Cells.events, List.append_assoc]
    exact Nodes.wf_append b h.1 (.flow (Cells.wf rest h.2 hb))
  | .lost b ls rest, _, h, hb => by
    simp only [Cells.complete, Bool.and_eq_true] at h
    rw [Cells.events, List.append_assoc]
    exact Nodes.wf_append b h.1 (.flow (Cells.wf rest h.2 hb))
theorem Nodes.wf_append : ∀ (ns : Nodes) {b : List Event}, ns.complete = true → WF .body b → WF .body (ns.events ++ b)
  | .nil, _, _, hb => hb
  | .cons n ns, _, h, hb => by
    simp only [Nodes.complete, Bool.and_eq_true] at h
    rw [Nodes.events, List.append_assoc]
    exact .element (Node.wf n h.1) (Nodes.wf_append ns h.2 hb)
theorem changes_wf : ∀ (cs : List StateChange) {b : List Event}, WF .body b → WF .body (cs.map .stateChange ++ b)
  | [], _, h => h
  | _ :: cs, _, h => .element (a := [_]) (.simple trivial) (changes_wf cs h)
end

/-! ## Alignments -/

mutual
/-- Environments are environments, arrays have a column, and lines have at most the allowed number of cells. -/
def Node.sound : Node → Bool
  | .group _ _ b => b.sound
  | .script _ _ ops => ops.sound
  | .visual _ ops => ops.sound
  | .table g _ rows => g.isMathEnv && tableOk g && rows.sound (alignments g)
  | _ => true
def Nodes.sound : Nodes → Bool
  | .nil => true
  | .cons n ns => n.sound && ns.sound
def Rows.sound (m : Nat) : Rows → Bool
  | .last cs => cs.sound m
  | .line cs _ _ rest => cs.sound m && rest.sound m
def Cells.sound : Nat → Cells → Bool
  | _, .last b => b.sound
  | 0, .cell _ _ => false
  | m + 1, .cell b rest => b.sound && rest.sound m
  | m, .lost b _ rest => b.sound && rest.sound m
end

/-- The open groups after some events, if alignments and line breaks are where they belong. -/
def chk : List (Grouping × Nat) → List Event → Option (List (Grouping × Nat))
  | ls, [] => some ls
  | ls, .begin_ g :: es => chk ((g, 0) :: ls) es
  | ls, .end_ :: es => chk ls.tail es
  | (g, k) :: ls, .flow .alignment :: es => if g.isMathEnv && decide (k < alignments g) then chk ((g, k + 1) :: ls) es else none
  | (g, _) :: ls, .flow (.newLine _ _) :: es => if g.isMathEnv then chk ((g, 0) :: ls) es else none
  | (g, k) :: ls, .flow (.startLines _) :: es => if g.isMathEnv then chk ((g, k) :: ls) es else none
  | [], .flow _ :: _ => none
  | ls, _ :: es => chk ls es

theorem chk_cons (ls : List (Grouping × Nat)) (e : Event) (es : List Event) : chk ls (e :: es) = (chk ls [e]).bind fun ls => chk ls es := by
  cases e with
  | flow f => cases ls with
    | nil => simp [chk]
    | cons x ls => cases f <;> simp only [chk] <;> split <;> rfl
  | _ => simp [chk]

theorem chk_append : ∀ (a b : List Event) (ls : List (Grouping × Nat)), chk ls (a ++ b) = (chk ls a).bind fun ls => chk ls b
  | [], _, _ => by simp [chk]
  | e :: a, b, ls => by
    rw [List.cons_append, chk_cons, chk_cons (es := a)]
    cases chk ls [e] with
    | none => rfl
    | some ls' => exact chk_append a b ls'

theorem chk_one {ls ls' : List (Grouping × Nat)} {e : Event} (h : chk ls [e] = some ls') : levelStep false ls e = ls' := by
  cases e with
  | flow f => cases ls with
    | nil => simp [chk] at h
    | cons x ls =>
      cases f <;> simp only [chk] at h <;> split at h <;> simp_all [levelStep, atLevel]
  | _ => simp_all [chk, levelStep]

theorem chk_levels : ∀ {es : List Event} {ls ls' : List (Grouping × Nat)}, chk ls es = some ls' → es.foldl (levelStep false) ls = ls'
  | [], _, _, h => by simpa [chk] using h
  | e :: es, ls, ls', h => by
    rw [chk_cons] at h
    cases h1 : chk ls [e] with
    | none => simp [h1] at h
    | some l =>
      rw [h1] at h
      rw [List.foldl_cons, chk_one h1]
      exact chk_levels h

theorem chk_flows {es : List Event} (h : chk [] es ≠ none) : FlowsAllowed false es := by
  have key : ∀ pre e post, es = pre ++ e :: post → chk (levels false pre) [e] ≠ none := by
    intro pre e post he hn
    rw [he, chk_append] at h
    cases h1 : chk [] pre with
    | none => simp [h1] at h
    | some l =>
      have := chk_levels h1
      rw [h1, Option.bind_some, chk_cons] at h
      rw [levels, this] at hn
      simp [hn] at h
  refine ⟨fun pre post he => ?_, fun pre post sp l he => ?_, fun pre post l he => ?_⟩ <;>
    have := key _ _ _ he <;> cases hl : levels false pre with
    | nil => simp [hl, chk] at this
    | cons x xs => obtain ⟨g, k⟩ := x; simp only [hl, chk] at this; exact ⟨g, k, by simpa [level] using this⟩

mutual
theorem Node.chk : ∀ (n : Node), n.sound = true → ∀ ls, Spec.chk ls n.events = some ls
  | .content _, _, _ => by simp [Node.events, Spec.chk]
  | .space _ _ _, _, _ => by simp [Node.events, Spec.chk]
  | .change _, _, _ => by simp [Node.events, Spec.chk]
  | .group none cs b, h, ls => by simp [Node.events, Spec.chk, chk_append, changes_chk, Nodes.chk b h]
  | .group (some (l, r)) cs b, h, ls => by simp [Node.events, Spec.chk, chk_append, changes_chk, Nodes.chk b h]
  | .script ty p ops, h, ls => by simp [Node.events, Spec.chk, Nodes.chk ops h]
  | .visual v ops, h, ls => by simp [Node.events, Spec.chk, Nodes.chk ops h]
  | .table g none rows, h, ls => by
    simp only [Node.sound, Bool.and_eq_true] at h
    obtain ⟨k, hk⟩ := Rows.chk rows h.2 h.1.1 ls
    simp [Node.events, Spec.chk, chk_append, hk]
  | .table g (some l) rows, h, ls => by
    simp only [Node.sound, Bool.and_eq_true] at h
    obtain ⟨k, hk⟩ := Rows.chk rows h.2 h.1.1 ls
    simp [Node.events, Spec.chk, chk_append, hk, h.1.1]
theorem Nodes.chk : ∀ (ns : Nodes), ns.sound = true → ∀ ls, Spec.chk ls ns.events = some ls
  | .nil, _, _ => by simp [Nodes.events, Spec.chk]
  | .cons n ns, h, ls => by
    simp only [Nodes.sound, Bool.and_eq_true] at h
    simp [Nodes.events, chk_append, Node.chk n h.1, Nodes.chk ns h.2]
theorem Rows.chk : ∀ (rs : Rows) {g : Grouping}, rs.sound (alignments g) = true → g.isMathEnv = true → ∀ ls, ∃ k,
    Spec.chk ((g, 0) :: ls) rs.events = some ((g, k) :: ls)
  | .last cs, g, h, hg, ls => Cells.chk cs (m := alignments g) h hg 0 (by omega) ls
  | .line cs sp l rest, g, h, hg, ls => by
    simp only [Rows.sound, Bool.and_eq_true] at h
    obtain ⟨k, hk⟩ := Cells.chk cs h.1 hg 0 (by omega) ls
    obtain ⟨k', hk'⟩ := Rows.chk rest h.2 hg ls
    exact ⟨k', by simp [Rows.events, chk_append, hk, Spec.chk, hg, hk']⟩
theorem Cells.chk : ∀ (cs : Cells) {g : Grouping} {m : Nat}, cs.sound m = true → g.isMathEnv = true → ∀ i, i + m = alignments g → ∀ ls, ∃ k,
    Spec.chk ((g, i) :: ls) cs.events = some ((g, k) :: ls)
  | .last b, g, m, h, hg, i, _, ls => ⟨i, by
      have : b.sound = true := by cases m <;> exact h
      simp [Cells.events, Nodes.chk b this]⟩
  | .cell b rest, g, 0, h, _, _, _, _ => by cases h
  | .cell b rest, g, m + 1, h, hg, i, hi, ls => by
    simp only [Cells.sound, Bool.and_eq_true] at h
    obtain ⟨k, hk⟩ := Cells.chk rest h.2 hg (i + 1) (by omega) ls
    have : i < alignments g := by omega
    exact ⟨k, by simp [Cells.events, chk_append, Nodes.chk b h.1, Spec.chk, hg, this, hk]⟩
  | .lost b l rest, g, m, h, hg, i, hi, ls => by
    simp only [Cells.sound, Bool.and_eq_true] at h
    obtain ⟨k, hk⟩ := Cells.chk rest h.2 hg i hi ls
    exact ⟨k, by simp [Cells.events, chk_append, Nodes.chk b h.1, Spec.chk, hg, hk]⟩
theorem changes_chk : ∀ (cs : List StateChange) (ls : List (Grouping × Nat)), Spec.chk ls (cs.map .stateChange) = some ls
  | [], _ => by simp [Spec.chk]
  | _ :: cs, ls => by simp [Spec.chk, changes_chk cs]
end

/-! ## Columns -/

mutual
theorem Node.columns : ∀ (n : Node), n.sound = true → ∀ cols, .begin_ (.array cols) ∈ n.events → ∃ c ∈ cols, isColumn c = true
  | .content _, _, _, hm => by simp [Node.events] at hm
  | .space _ _ _, _, _, hm => by simp [Node.events] at hm
  | .change _, _, _, hm => by simp [Node.events] at hm
  | .group none cs b, h, cols, hm => Nodes.columns b h cols (by simpa [Node.events] using hm)
  | .group (some (l, r)) cs b, h, cols, hm => Nodes.columns b h cols (by simpa [Node.events] using hm)
  | .script ty p ops, h, cols, hm => Nodes.columns ops h cols (by simpa [Node.events] using hm)
  | .visual v ops, h, cols, hm => Nodes.columns ops h cols (by simpa [Node.events] using hm)
  | .table g none rows, h, cols, hm => by
    simp only [Node.sound, Bool.and_eq_true] at h
    simp [Node.events] at hm
    rcases hm with rfl | hm
    · simpa [tableOk] using h.1.2
    · exact Rows.columns rows h.2 cols hm
  | .table g (some l) rows, h, cols, hm => by
    simp only [Node.sound, Bool.and_eq_true] at h
    simp [Node.events] at hm
    rcases hm with rfl | hm
    · simpa [tableOk] using h.1.2
    · exact Rows.columns rows h.2 cols hm
theorem Nodes.columns : ∀ (ns : Nodes), ns.sound = true → ∀ cols, .begin_ (.array cols) ∈ ns.events → ∃ c ∈ cols, isColumn c = true
  | .nil, _, _, hm => by simp [Nodes.events] at hm
  | .cons n ns, h, cols, hm => by
    simp only [Nodes.sound, Bool.and_eq_true] at h
    rw [Nodes.events, List.mem_append] at hm
    exact hm.elim (Node.columns n h.1 cols) (Nodes.columns ns h.2 cols)
theorem Rows.columns : ∀ (rs : Rows) {m : Nat}, rs.sound m = true → ∀ cols, .begin_ (.array cols) ∈ rs.events → ∃ c ∈ cols, isColumn c = true
  | .last cs, _, h, cols, hm => Cells.columns cs h cols hm
  | .line cs sp l rest, m, h, cols, hm => by
    simp only [Rows.sound, Bool.and_eq_true] at h
    simp [Rows.events] at hm
    exact hm.elim (Cells.columns cs h.1 cols) (Rows.columns rest h.2 cols)
theorem Cells.columns : ∀ (cs : Cells) {m : Nat}, cs.sound m = true → ∀ cols, .begin_ (.array cols) ∈ cs.events → ∃ c ∈ cols, isColumn c = true
  | .last b, m, h, cols, hm => Nodes.columns b (by cases m <;> exact h) cols hm
  | .cell b rest, 0, h, _, _ => by cases h
  | .cell b rest, m + 1, h, cols, hm => by
    simp only [Cells.sound, Bool.and_eq_true] at h
    simp [Cells.events] at hm
    exact hm.elim (Nodes.columns b h.1 cols) (Cells.columns rest h.2 cols)
  | .lost b l rest, m, h, cols, hm => by
    simp only [Cells.sound, Bool.and_eq_true] at h
    simp [Cells.events] at hm
    exact hm.elim (Nodes.columns b h.1 cols) (Cells.columns rest h.2 cols)
end

end PL.Spec
