import Verif.Lemmas.Formula.Shape
set_option autoImplicit false
/-!
# What the grammar reads
-/
namespace PL.Spec

theorem Nodes.sound_append : ∀ {ns ms : Nodes}, ns.sound = true → ms.sound = true → (ns.append ms).sound = true
  | .nil, _, _, h => h
  | .cons n ns, ms, h, h' => by
    simp only [Nodes.sound, Nodes.append, Bool.and_eq_true] at h ⊢
    exact ⟨h.1, Nodes.sound_append h.2 h'⟩

theorem Nodes.sound_body : ∀ {ns : Nodes}, ns.sound = true → ns.body.sound = true
  | .nil, h => h
  | .cons (.change _) ns, h => by
    simp only [Nodes.sound, Bool.and_eq_true] at h
    exact Nodes.sound_body (ns := ns) h.2
  | .cons (.content _) _, h => h
  | .cons (.space _ _ _) _, h => h
  | .cons (.group _ _ _) _, h => h
  | .cons (.script _ _ _) _, h => h
  | .cons (.visual _ _) _, h => h
  | .cons (.table _ _ _) _, h => h

theorem sound_block {d : Option (Option Char × Option Char)} {cs : List StateChange} {ns : Nodes} (h : ns.sound = true) : (block d cs ns).sound = true := by
  simp only [block, Node.sound]
  exact Nodes.sound_body h

theorem sound_one {n : Node} (h : n.sound = true) : (Nodes.one n).sound = true := by simp [Nodes.one, Nodes.sound, h]

theorem sound_fraction {l r : Option Char} {bar : Option Dim} {style : Option Style} {num den : Nodes} (h : num.sound = true) (h' : den.sound = true) :
    (fractionNode l r bar style num den).sound = true := by
  have := Nodes.sound_append h h'
  unfold fractionNode
  split
  · simpa [Node.sound]
  · simpa [Node.sound, Nodes.one, Nodes.sound]

theorem Cells.sound_inStyle {st : Style} : ∀ {cs : Cells} {m : Nat}, cs.sound m = true → (cs.inStyle st).sound m = true
  | .last b, m, h => by cases m <;> simpa [Cells.inStyle, Cells.sound, Nodes.sound, Node.sound] using h
  | .cell b cs, 0, h => by cases h
  | .cell b cs, m + 1, h => by simpa [Cells.inStyle, Cells.sound, Nodes.sound, Node.sound] using h
  | .lost b ls cs, m, h => by simpa [Cells.inStyle, Cells.sound, Nodes.sound, Node.sound] using h

theorem Rows.sound_inStyle {st : Style} {rs : Rows} {m : Nat} (h : rs.sound m = true) : (rs.inStyle st).sound m = true := by
  cases rs with
  | last cs => exact Cells.sound_inStyle (cs := cs) h
  | line cs sp ls rs =>
    simp only [Rows.sound, Rows.inStyle, Bool.and_eq_true] at h ⊢
    exact ⟨Cells.sound_inStyle h.1, h.2⟩

theorem Rows.sound_losing {b : Nodes} {ls : List Line} {rs : Rows} {m : Nat} (hb : b.sound = true) (h : rs.sound m = true) : (rs.losing b ls).sound m = true := by
  cases rs with
  | last cs =>
    simp only [Rows.sound, Rows.losing, Cells.sound, Bool.and_eq_true] at h ⊢
    exact ⟨hb, h⟩
  | line cs sp l rs =>
    simp only [Rows.sound, Rows.losing, Cells.sound, Bool.and_eq_true] at h ⊢
    exact ⟨⟨hb, h.1⟩, h.2⟩

theorem Selects.sound {name s r : Str} {sh : EnvShape} (h : Selects name s sh r) :
    sh.group.isMathEnv = true ∧ tableOk sh.group = true ∧ sh.alignments = Spec.alignments sh.group := by
  cases h with
  | plain h =>
    have : ∀ p ∈ plainEnvironments, p.2.group.isMathEnv = true ∧ tableOk p.2.group = true ∧ p.2.alignments = Spec.alignments p.2.group := by decide +kernel
    exact this _ h
  | default => exact ⟨rfl, rfl, rfl⟩
  | aligned => exact ⟨rfl, rfl, rfl⟩
  | @array _ _ _ _ cols _ h h1 h2 h3 h4 =>
    have e : columnCount cols = cols.countP isColumn := by
      rw [columnCount, List.countP_eq_length_filter]
      exact congrArg (fun f => (cols.filter f).length) (funext fun c => by cases c <;> rfl)
    rw [e] at h3 ⊢
    refine ⟨rfl, ?_, rfl⟩
    simpa [tableOk, List.countP_pos_iff] using h3
  | pairs h h1 h2 h3 =>
    simp only [pairEnvironments, List.mem_cons, Prod.mk.injEq, List.not_mem_nil, or_false] at h
    rcases h with ⟨-, rfl⟩ | ⟨-, rfl⟩ | ⟨-, rfl⟩ <;> exact ⟨rfl, rfl, by simp only [Spec.alignments]; omega⟩
  | subarray => exact ⟨rfl, rfl, rfl⟩

theorem sound_table {name s r : Str} {sh : EnvShape} {ls : List Line} {rows : Rows} (h : Selects name s sh r) (hr : rows.sound sh.alignments = true) :
    (tableNode sh ls rows).sound = true := by
  obtain ⟨h1, h2, h3⟩ := h.sound
  rw [h3] at hr
  have key : (linedTable sh ls rows).sound = true := by
    have one : ∀ {l rs}, Rows.sound (Spec.alignments sh.group) rs = true → (Node.table sh.group l rs).sound = true := by
      intro l rs h
      simp only [Node.sound, h1, h2, Bool.true_and]
      exact h
    unfold linedTable
    cases sh.style with
    | none =>
      dsimp only
      split
      · exact one hr
      · split
        · exact one (Rows.sound_losing rfl hr)
        · exact one hr
    | some st =>
      dsimp only
      split
      · exact one (Rows.sound_inStyle hr)
      · exact one (Rows.sound_losing (by simp [Nodes.one, Nodes.sound, Node.sound]) hr)
  unfold tableNode
  cases sh.around with
  | none => exact key
  | some x => exact sound_one key

/-- The trees of a judgement are sound. -/
def Judgement.sound : Judgement → Prop
  | .means _ _ _ ns _ _ => ns.sound = true
  | .operand _ ns _ _ => ns.sound = true
  | .elements _ ns _ => ns.sound = true
  | .formula _ ns => ns.sound = true
  | .cells m _ cs _ => cs.sound m = true
  | .rows m _ rs => rs.sound m = true

theorem Reads.sound {Δ : Known} {j : Judgement} (h : Reads Δ j) : j.sound := by
  induction h <;> simp only [Judgement.sound] at *
  all_goals first
    | assumption
    | rfl
    | exact sound_one (sound_block ‹_›)
    | exact sound_one (sound_fraction ‹_› ‹_›)
    | (apply Nodes.sound_append <;> assumption)
    | (simp_all [Nodes.one, Nodes.two, Nodes.three, Nodes.sound, Node.sound, Nodes.sound_append, sound_block, Rows.sound, Cells.sound]; done)
    | skip
  case substack h => exact sound_one (by simpa [Node.sound, tableOk, Grouping.isMathEnv, alignments] using h)
  case environment hs _ _ _ h => exact sound_one (sound_table hs h)

theorem Document.sound {Δ : Known} {s : Str} {ns : Nodes} (h : Document Δ s ns) : ns.sound = true := by
  induction h with
  | formula h => exact h.sound
  | define h _ _ ih => exact Nodes.sound_append h.sound ih

end PL.Spec
