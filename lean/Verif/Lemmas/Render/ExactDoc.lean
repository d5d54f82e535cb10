import Verif.Lemmas.Render.ExactTree
set_option autoImplicit false
/-! # What the renderer writes for groups and tables, exactly -/
namespace PL.Mathml
open Spec

/-! ## Rows -/

/-- What stands before the first cell of a row below some lines. -/
def rowOpen (ls : List Line) : Str := c!"<mtr" ++ hlinesStr ls ++ c!">"

theorem linedRow_eq : ∀ (ls : List Line) (inner : Str), linedRow ls inner = rowOpen ls ++ inner ++ c!"</mtr>"
  | [], inner => by simp [linedRow, rowOpen, hlinesStr, tag]
  | [l], inner => by cases l <;> simp [linedRow, rowOpen, hlinesStr, tag, solidDashed, lineClass, classes, attr, joined]
  | l :: m :: ls, inner => by
    have e : hlinesStr (l :: m :: ls) = solidDashed l c!" class=\"menv-hline\"><mtd class=\"menv-nonumber\"></mtd></mtr><mtr"
        c!" class=\"menv-hdashline\"><mtd class=\"menv-nonumber\"></mtd></mtr><mtr" ++ hlinesStr (m :: ls) := by
      rw [hlinesStr]; simp
    rw [linedRow, linedRow_eq (m :: ls) inner, rowOpen, rowOpen, e]
    · cases l <;> simp [blankCell, tag, solidDashed, lineClass, classes, attr, joined]
    · simp

/-- The cells from inside the first one to inside the last one. -/
def cellsInner (P : Printing) (g : Grouping) (i : Nat) (st : RState) (pv : Option Atom) : Cells → Str
  | .last b => (b.markup P [] st pv none).text
  | .cell b rest => (b.markup P [] st pv none).text ++ (closeCell g i ++ openCell g (i + 1) ++ cellsInner P g (i + 1) {} none rest)
  | .lost b _ rest => (b.markup P [] st pv none).text ++ cellsInner P g i (b.markup P [] st pv none).st (b.markup P [] st pv none).prev rest

def rowsInner (P : Printing) (g : Grouping) : Rows → Str
  | .last cs => cellsInner P g 0 {} none cs
  | .line cs sp ls rest => cellsInner P g 0 {} none cs ++ (closeCell g (cs.length - 1) ++ c!"</mtr>" ++ spacingRow P g cs.length sp ++
      rowOpen ls ++ openCell g 0 ++ rowsInner P g rest)

/-- The column of the last cell. -/
def lastColumn : Rows → Nat
  | .last cs => cs.length - 1
  | .line _ _ _ rest => lastColumn rest

theorem cells_pos : ∀ cs : Cells, 0 < cs.length
  | .last b => by simp [Cells.length]
  | .cell b rest => by simp [Cells.length]
  | .lost b ls rest => by rw [Cells.length]; exact cells_pos rest

theorem cells_eq (P : Printing) (g : Grouping) : ∀ (cs : Cells) (i : Nat) (t : Str) (st : RState) (pv : Option Atom),
    (∀ j, j < cs.length → hasCell g (i + j)) →
    cs.markup P g i t st pv = openCell g i ++ (t ++ cellsInner P g i st pv cs) ++ closeCell g (i + (cs.length - 1))
  | .last b, i, t, st, pv, h => by
    rw [Cells.markup, cellsInner, cell_eq (show hasCell g i from h 0 (cells_pos _))]
    rfl
  | .lost b ls rest, i, t, st, pv, h => by
    rw [Cells.markup, cellsInner, cells_eq P g rest i _ _ _ (by simpa only [Cells.length] using h), Cells.length]
    simp
  | .cell b rest, i, t, st, pv, h => by
    have e : i + 1 + (rest.length - 1) = i + ((Cells.cell b rest).length - 1) := by
      have := cells_pos rest
      rw [Cells.length]; omega
    rw [Cells.markup, cellsInner, cell_eq (show hasCell g i from h 0 (cells_pos _)), cells_eq P g rest (i + 1) [] {} none, e]
    · simp
    · intro j hj
      have := h (j + 1) (by rw [Cells.length]; omega)
      rwa [show i + 1 + j = i + (j + 1) by omega]

/-- All lines have at most `k` cells. -/
def fits (k : Nat) : Rows → Prop
  | .last cs => cs.length ≤ k
  | .line cs _ _ rest => cs.length ≤ k ∧ fits k rest

theorem rows_eq (P : Printing) (g : Grouping) (k : Nat) (hc : ∀ j, j < k → hasCell g j) : ∀ (rows : Rows) (ls : List Line), fits k rows →
    rows.markup P g ls = rowOpen ls ++ openCell g 0 ++ rowsInner P g rows ++ closeCell g (lastColumn rows) ++ c!"</mtr>"
  | .last cs, ls, h => by
    rw [Rows.markup, rowsInner, linedRow_eq, cells_eq P g cs 0 [] {} none (fun j hj => by
      rw [Nat.zero_add]; exact hc j (Nat.lt_of_lt_of_le hj h)), lastColumn, Nat.zero_add]
    simp
  | .line cs sp ls' rest, ls, h => by
    rw [Rows.markup, rowsInner, linedRow_eq, cells_eq P g cs 0 [] {} none (fun j hj => by
      rw [Nat.zero_add]; exact hc j (Nat.lt_of_lt_of_le hj h.1)), rows_eq P g k hc rest ls' h.2, lastColumn, Nat.zero_add]
    simp

section
variable {cfg : RCfg} {L : RSt → Prop}
variable {pk rt : List RItem} {o : Str} {env : List EnvR} {st : RState} {ss : List RState} {pv : Option Atom} {rc : Bool}

/-! ## Alignments and line breaks -/

theorem wp_align_eq {Q : PUnit → RSt → Prop} (cfg : RCfg) {g : Grouping} {k : Nat} {e : EnvG} (hr : InTable g k e)
    (hk : k < alignments g)
    (h : ∀ e', InTable g (k + 1) e' →
      Q ⟨⟩ ⟨pk, rt, o ++ (closeCell g k ++ openCell g (k + 1)), none, .group e' :: env, {} :: ss, none, rc⟩) :
    wp (writeAlignment cfg) Q ⟨pk, rt, o, none, .group e :: env, st :: ss, pv, rc⟩ := by
  rw [writeAlignment]
  simp only [wp_bind, wp_get, wp_updState, wp_forcePrev]
  have alat : ∀ p k, k < min 65535 (2 * p - 1) → k / 2 ≤ p ∧ ¬ (k + 1 ≥ 2 ^ 16) ∧ (k + 1) % 2 ^ 16 = k + 1 := by
    intro p k hk; omega
  cases g with
  | array cols =>
    obtain ⟨i, i0, rfl, ha, h0, hw⟩ := hr
    have hk' : k + 1 < (ruledColumns cols).length := by
      rw [ruled_length]
      have : k < cols.countP isColumn - 1 := hk
      unfold ncols
      omega
    obtain ⟨i', h1, h2, h3⟩ := align_ex ha hk'
    simp only [wp_bind]
    refine h1.wp.2 ?_
    rw [setTop, wp_modify]
    refine h _ ⟨i', i0, rfl, h2, h0, ?_⟩
    rw [← Nat.zero_add k] at h1
    exact hw.snoc h1 h3
  | matrix => cases hr; exact (wp_out' ..).2 (h _ rfl)
  | align => cases hr; exact (wp_out' ..).2 (h _ rfl)
  | aligned => cases hr; exact (wp_out' ..).2 (h _ rfl)
  | split => cases hr; exact (wp_out' ..).2 (h _ rfl)
  | cases l => cases hr; exact (wp_out' ..).2 (h _ rfl)
  | alignat p b =>
    cases hr
    obtain ⟨h1, h2, h3⟩ := alat p k hk
    simp only [h1, h2, h3, if_true, decide_false, Bool.false_and, Bool.false_eq_true, if_false]
    rw [wp_bind, setTop, wp_modify, wp_out']
    exact h _ rfl
  | alignedat p =>
    cases hr
    obtain ⟨h1, h2, h3⟩ := alat p k hk
    simp only [h1, h2, h3, if_true, decide_false, Bool.false_and, Bool.false_eq_true, if_false]
    rw [wp_bind, setTop, wp_modify, wp_out']
    exact h _ rfl
  | _ => exact absurd hk (Nat.not_lt_zero _)

/-- The entry for the start of a line. -/
theorem inTable_start {g : Grouping} (hg : tableOk g = true) {cols : List ArrayCol} (he : g = .array cols) :
    ∃ i, Writes (arrayNewline cols) i (openCell g 0) ∧ InTable g 0 (.array cols i) := by
  subst he
  have hc : 0 < (ruledColumns cols).length := by
    rw [ruled_length]
    exact List.countP_pos_iff.2 (List.any_eq_true.1 hg)
  obtain ⟨i, h1, h2⟩ := newline_ex hc
  exact ⟨i, h1, i, i, rfl, h2, h1, .zero⟩

/-- The tail of a line break. -/
theorem wp_rest_eq {Q : PUnit → RSt → Prop} {g : Grouping} {k : Nat} {e : EnvG} (hr : InTable g k e) (hg : tableOk g = true)
    (he : ∀ b, g ≠ .equation b) (ls : List Line)
    (h : ∀ e', InTable g 0 e' → Q ⟨⟩ ⟨pk, rt, o ++ (hlinesStr ls ++ c!">" ++ openCell g 0), none, .group e' :: env, ss, pv, rc⟩) :
    wp (do
      W.out (hlinesStr ls)
      match (← W.get).env with
      | .group (.cases _ left) :: _ => do
        setTop (.cases false left)
        W.out c!"><mtd>"
      | .group (.split _) :: _ => do
        setTop (.split false)
        W.out c!"><mtd>"
      | .group .matrix :: _ => W.out c!"><mtd>"
      | .group .align :: _ => W.out c!"><mtd>"
      | .group .gather :: _ => W.out c!"><mtd>"
      | .group .subArray :: _ => W.out c!"><mtd>"
      | .group .multline :: _ => W.out c!"><mtd>"
      | .group (.array cols _) :: _ => do
        W.out c!">"
        let i ← arrayNewline cols
        setTop (.array cols i)
      | .group (.alignat pairs _) :: _ => do
        setTop (.alignat pairs 0)
        W.out c!"><mtd>"
      | _ => recover) Q ⟨pk, rt, o, none, .group e :: env, ss, pv, rc⟩ := by
  rw [wp_bind, wp_out', wp_bind, wp_get]
  have fin : ∀ e', InTable g 0 e' → openCell g 0 = c!"<mtd>" →
      Q ⟨⟩ ⟨pk, rt, o ++ hlinesStr ls ++ c!"><mtd>", none, .group e' :: env, ss, pv, rc⟩ := by
    intro e' h1 h2
    have := h e' h1
    rw [h2] at this
    simpa using this
  cases g with
  | normal => cases hg
  | leftRight => cases hg
  | equation b => exact absurd rfl (he b)
  | array cols =>
    obtain ⟨i, i0, rfl, -⟩ := hr
    obtain ⟨j, h1, h2⟩ := inTable_start hg rfl
    simp only [wp_bind, wp_out']
    refine h1.wp.2 ?_
    rw [setTop, wp_modify]
    have := h _ h2
    simp only [List.append_assoc] at this ⊢
    exact this
  | cases l => cases hr; simp only [wp_bind, setTop, wp_modify, wp_out']; exact fin _ rfl rfl
  | split => cases hr; simp only [wp_bind, setTop, wp_modify, wp_out']; exact fin _ rfl rfl
  | alignat p b => cases hr; simp only [wp_bind, setTop, wp_modify, wp_out']; exact fin _ rfl rfl
  | alignedat p => cases hr; simp only [wp_bind, setTop, wp_modify, wp_out']; exact fin _ rfl rfl
  | _ => cases hr; exact (wp_out' ..).2 (fin _ rfl rfl)

theorem inTable_has {g : Grouping} {k : Nat} {e : EnvG} (hr : InTable g k e) : hasCell g k := by
  cases g with
  | array cols =>
    obtain ⟨i, i0, rfl, ha, -⟩ := hr
    obtain ⟨a, rs, h, -⟩ := ha.col
    exact (List.getElem?_eq_some_iff.1 h).1
  | _ => trivial

theorem wp_line_eq {Q : PUnit → RSt → Prop} {g : Grouping} {k : Nat} {e : EnvG} (hr : InTable g k e) (hg : tableOk g = true)
    (he : ∀ b, g ≠ .equation b) (sp : Option Dim) (ls : List Line)
    (h : ∀ e', InTable g 0 e' → Q ⟨⟩ ⟨pk, rt, o ++ (closeCell g k ++ c!"</mtr>" ++ spacingRow (printing cfg) g (k + 1) sp ++
      rowOpen ls ++ openCell g 0), none, .group e' :: env, {} :: ss, none, rc⟩) :
    wp (writeNewLine cfg sp ls) Q ⟨pk, rt, o, none, .group e :: env, st :: ss, pv, rc⟩ := by
  rw [writeNewLine]
  simp only [wp_bind, wp_get, wp_updState, wp_forcePrev]
  -- after the end of the line
  have rest : wp (newLineRest cfg sp ls) Q
      ⟨pk, rt, o ++ (closeCell g k ++ c!"</mtr><mtr"), none, .group e :: env, {} :: ss, none, rc⟩ := by
    unfold newLineRest
    cases sp with
    | none =>
      dsimp only
      refine (wp_bind ..).2 ((wp_pure ..).2 ?_)
      refine wp_rest_eq hr hg he ls fun e' h1 => ?_
      have := h e' h1
      simpa [spacingRow, rowOpen] using this
    | some x =>
      dsimp only
      rw [wp_bind, wp_out', wp_bind, wp_get]
      by_cases ha : ∃ cols, g = .array cols
      · obtain ⟨cols, rfl⟩ := ha
        obtain ⟨i, i0, rfl, ha, h0, hw⟩ := id hr
        have hs := spacer_ex ha h0 hw (inTable_has hr)
        have := (hs.wp (Q := fun _ s => wp _ Q s)).2 (wp_rest_eq (o := o ++ (closeCell (.array cols) k ++ c!"</mtr><mtr") ++
          (c!" style=\"height: " ++ dimStr cfg x ++ c!"\">") ++ (emptyCells (.array cols) 0 (k + 1) ++ c!"</mtr><mtr"))
          (pk := pk) (rt := rt) (env := env) (ss := {} :: ss) (pv := none) (rc := rc) (Q := Q) hr hg he ls fun e' h1 => by
            have := h e' h1
            simpa [spacingRow, rowOpen, tag, attr, printing] using this)
        simp only [wp_bind] at this ⊢
        exact this
      · have key : ∀ m : EnvG, (∀ cols i, m ≠ .array cols i) → ∀ (A : List ArrayCol → Nat → W PUnit) (B : W PUnit) (s : RSt),
            wp B Q s → wp (match (EnvR.group m :: env) with
              | .group (.array cols idx) :: _ => A cols idx
              | _ => B) Q s := by
          intro m hm A B s hB
          cases m <;> first | exact hB | exact absurd rfl (hm _ _)
        have hne : ∀ cols i, e ≠ .array cols i := by
          rintro cols i rfl
          cases g <;> first | exact ha ⟨_, rfl⟩ | cases hr
        refine key e hne _ _ _ ?_
        rw [wp_bind, wp_out']
        refine wp_rest_eq hr hg he ls fun e' h1 => ?_
        have := h e' h1
        have e2 : spacingRow (printing cfg) g (k + 1) (some x) = tag c!"mtr" [(c!"style", c!"height: " ++ dimStr cfg x)] blankCell := by
          cases g <;> first | rfl | exact absurd ⟨_, rfl⟩ ha
        rw [e2] at this
        simpa [rowOpen, tag, attr, blankCell, classes, joined] using this
  have tbl : closeCell g k = c!"</mtd>" →
      wp (do W.out c!"</mtd></mtr><mtr"; newLineRest cfg sp ls) Q ⟨pk, rt, o, none, .group e :: env, {} :: ss, none, rc⟩ := by
    intro hc
    rw [wp_bind, wp_out']
    rw [hc] at rest
    exact rest
  cases g with
  | normal => cases hg
  | leftRight => cases hg
  | equation b => exact absurd rfl (he b)
  | array cols =>
    obtain ⟨i, i0, rfl, ha, h0, hw⟩ := id hr
    simp only [wp_bind]
    exact (closeLine_ex ha).wp.2 rest
  | _ => cases hr; exact tbl rfl

/-! ## Groups -/

/-- The changes of state at the start of a group. -/
theorem wp_changes {Q : PUnit → RSt → Prop} {q : List RItem} (hq : ∀ c r, q ≠ .ok (.stateChange c) :: r) :
    ∀ (cs : List StateChange) (pk rt : List RItem) (st : RState) (n : Nat), cs.length < n →
    pk ++ rt = cs.map (fun c => RItem.ok (.stateChange c)) ++ q →
    (∀ p r, p ++ r = q → Q ⟨⟩ ⟨p, r, o, none, env, cs.foldl changed st :: ss, pv, rc⟩) →
    wp (groupChanges n) Q ⟨pk, rt, o, none, env, st :: ss, pv, rc⟩
  | _, _, _, _, 0, hn, _, _ => by omega
  | [], pk, rt, st, n + 1, _, he, h => by
    rw [groupChanges, wp_bind]
    apply wp_peekFirst
    intro p r hp
    simp only [List.map_nil, List.nil_append] at he
    split
    · rename_i sc hh
      rw [he] at hh
      cases hc : q with
      | nil => rw [hc] at hh; cases hh
      | cons x r => rw [hc] at hh; cases hh; exact absurd hc (hq _ _)
    · exact (wp_pure _ _ _).2 (h _ _ (by rw [hp, he]))
  | c :: cs, pk, rt, st, n + 1, hn, he, h => by
    rw [groupChanges, wp_bind]
    apply wp_peekFirst
    intro p r hp
    rw [he]
    show wp (do handleStateChange c; let _ ← next; groupChanges n) Q _
    rw [wp_bind, handleStateChange, wp_updState, wp_bind, applyChange_eq]
    refine wp_next _ _ _ _ _ _ _ (hp.trans he) fun p r hp => ?_
    exact wp_changes hq cs p r _ n (by simp at hn; omega) hp h

theorem node_head (n : Node) : ∃ e b, n.events = e :: b ∧ ((∀ sc, n ≠ .change sc) → ∀ sc, e ≠ .stateChange sc) := by
  cases n with
  | content c => exact ⟨_, _, by rw [Node.events], fun _ sc h => by cases h⟩
  | space w h d => exact ⟨_, _, by rw [Node.events], fun _ sc h => by cases h⟩
  | change sc => exact ⟨_, _, by rw [Node.events], fun h => absurd rfl (h sc)⟩
  | group d cs b => rcases d with _ | ⟨l, r⟩ <;> exact ⟨_, _, by rw [Node.events], fun _ sc h => by cases h⟩
  | script ty p ops => exact ⟨_, _, by rw [Node.events], fun _ sc h => by cases h⟩
  | visual v ops => exact ⟨_, _, by rw [Node.events], fun _ sc h => by cases h⟩
  | table g ls rows => cases ls <;> exact ⟨_, _, by rw [Node.events], fun _ sc h => by cases h⟩

theorem no_change {b : Nodes} (h : b.startsWithChange = false) (q : List RItem) (c : StateChange) (r : List RItem) :
    b.events.map .ok ++ .ok .end_ :: q ≠ .ok (.stateChange c) :: r := by
  cases b with
  | nil => rw [Nodes.events]; simp
  | cons n ns =>
    obtain ⟨e, b, he, h1⟩ := node_head n
    rw [Nodes.events, he]
    intro hh
    cases hh
    refine h1 ?_ c rfl
    rintro sc rfl
    cases h

theorem wp_delim {Q : PUnit → RSt → Prop} (c : Option Char)
    (h : Q ⟨⟩ ⟨pk, rt, o ++ stretched (roleOf env) st c, none, env, st :: ss, pv, rc⟩) :
    wp (writeDelim c) Q ⟨pk, rt, o, none, env, st :: ss, pv, rc⟩ := by
  cases c with
  | none =>
    rw [stretched, List.append_nil] at h
    exact (wp_pure ..).2 h
  | some c =>
    rw [writeDelim]
    simp only [wp_bind, wp_openTag, wp_out', openTag_eq]
    have e : o ++ (c!"<" ++ c!"mo" ++ (lookAttributes (roleOf env) st ++
        (Option.map (fun c => (c!"class", c)) (none : Option Str)).toList).flatMap attr) ++ c!" stretchy=\"true\">" ++ [c] ++ c!"</mo>" =
        o ++ stretched (roleOf env) st (some c) := by
      simp [stretched, tag, attr]
    rw [e]
    exact h

/-- The kind of a group. -/
def groupKind : Option (Option Char × Option Char) → Grouping
  | none => .normal
  | some (l, r) => .leftRight l r

theorem nodeX_group {delims : Option (Option Char × Option Char)} {cs : List StateChange} {b : Nodes} (hb : BodyX cfg b)
    (hc : b.startsWithChange = false) : NodeX cfg (.group delims cs b) := by
  intro L _ q pk rt o env st ss pv rc hq h
  obtain ⟨g, hg, hq⟩ : ∃ g, g = groupKind delims ∧
      pk ++ rt = .ok (.begin_ g) :: (cs.map (fun c => RItem.ok (.stateChange c)) ++ (b.events.map .ok ++ .ok .end_ :: q)) := by
    rcases delims with _ | ⟨l, r⟩ <;> exact ⟨_, rfl, by rw [hq, Node.events]; simp [groupKind]⟩
  have hne : g.isMathEnv = false := by subst hg; rcases delims with _ | ⟨l, r⟩ <;> rfl
  refine WL.step hq fun p r hp => ?_
  show wp (writeBegin g) _ _
  unfold writeBegin
  rw [wp_bind, wp_forcePrev, hne]
  simp only [Bool.false_eq_true, if_false, wp_bind, wp_state, wp_modify, wp_get]
  refine wp_changes (no_change hc q) cs p r st _ ?_ hp fun p1 r1 hp1 => ?_
  · have := congrArg List.length hp
    simp at this ⊢
    omega
  simp only [wp_openTag, wp_out', wp_updState, openTag_eq]
  have hl : ∀ p r, p ++ r = b.events.map RItem.ok ++ .ok .end_ :: q → ∀ {o' : Str} {b' : Option Nat} {e' : List EnvR} {s' : List RState}
      {v' : Option Atom} {c' : Bool}, qlen ⟨p, r, o', b', e', s', v', c'⟩ ≤
      (cs.map (fun c => RItem.ok (.stateChange c)) ++ (b.events.map RItem.ok ++ RItem.ok .end_ :: q)).length := by
    intro p r hp o' b' e' s' v' c'
    simp only [qlen, hp]
    simp
  have hfirst : firstAtom (.ok .end_ :: q) = none := rfl
  subst hg
  rcases delims with _ | ⟨l, r'⟩ <;> unfold groupKind
  · dsimp only
    rw [openGroup]
    wps
    refine ⟨hl _ _ hp1, WC.flat (.inr ⟨_, _, rfl⟩) ?_⟩
    refine hb L _ _ _ _ _ _ _ _ _ (.inr ⟨_, _, rfl⟩) hp1 fun p2 r2 rc hp2 => ?_
    refine WL.step hp2 fun p3 r3 hp3 => ?_
    show wp writeEnd _ _
    rw [writeEnd]
    simp only [wp_bind, wp_get, wp_modify, wp_forcePrev]
    rw [closeGroup, wp_out']
    refine ⟨len_of hp3, ?_⟩
    have := h p3 r3 rc hp3
    rw [Node.markup] at this
    rw [hfirst]
    simpa [tag, mark] using this
  · dsimp only
    rw [openGroup, wp_bind]
    apply wp_delim
    wps
    refine ⟨hl _ _ hp1, WC.flat (.inr ⟨_, _, rfl⟩) ?_⟩
    refine hb L _ _ _ _ _ _ _ _ _ (.inr ⟨_, _, rfl⟩) hp1 fun p2 r2 rc hp2 => ?_
    refine WL.step hp2 fun p3 r3 hp3 => ?_
    show wp writeEnd _ _
    rw [writeEnd]
    simp only [wp_bind, wp_get, wp_modify, wp_forcePrev]
    rw [closeGroup, wp_bind]
    apply wp_delim
    simp only [wp_bind, wp_forcePrev, wp_out']
    refine ⟨len_of hp3, ?_⟩
    have := h p3 r3 rc hp3
    rw [Node.markup] at this
    rw [hfirst]
    have e : ∀ f, stretched (roleOf env) { font := f } l = stretched (roleOf env) {} l := by
      intro f; cases l <;> rfl
    rw [e]
    simpa [tag, mark] using this

/-! ## Tables -/

/-- What stands before the rows. -/
def tableHead (g : Grouping) : Str :=
  match g with
  | .cases left => c!"<mrow>" ++ (if left then c!"<mo stretchy=\"true\">{</mo>" else []) ++ c!"<mtable class=\"menv-cells-left menv-cases\">"
  | _ => c!"<mtable" ++ (classes (tableClasses g)).flatMap attr ++ c!">"

/-- What stands after the rows. -/
def tableTail (g : Grouping) : Str :=
  match g with
  | .cases left => c!"</mtable>" ++ (if left then [] else c!"<mo stretchy=\"true\">}</mo>") ++ c!"</mrow>"
  | _ => c!"</mtable>"

theorem table_eq (g : Grouping) (rows : Str) : tableElement g rows = tableHead g ++ rows ++ tableTail g := by
  cases g with
  | cases left => cases left <;> simp [tableElement, tableHead, tableTail, tag, attr, classes, tableClasses, joined]
  | _ => simp [tableElement, tableHead, tableTail, tag]

/-- Rendering cells from inside the first one. -/
def CellsX (cfg : RCfg) (cs : Cells) : Prop := ∀ (L : RSt → Prop) [Goes cfg L] g i e E q pk rt o st ss pv rc,
  InTable g i e → i + (cs.length - 1) ≤ alignments g → firstAtom q = none → pk ++ rt = cs.events.map .ok ++ q →
  (∀ p r e' st' pv' c, p ++ r = q → InTable g (i + (cs.length - 1)) e' →
    L ⟨p, r, o ++ cellsInner (printing cfg) g i st pv cs, none, .group e' :: E, st' :: ss, pv', c⟩) →
  L ⟨pk, rt, o, none, .group e :: E, st :: ss, pv, rc⟩

/-- Rendering rows from inside the first cell of the first one. -/
def RowsX (cfg : RCfg) (rows : Rows) : Prop := ∀ (L : RSt → Prop) [Goes cfg L] g e E q pk rt o ss rc,
  InTable g 0 e → tableOk g = true → (∀ b, g ≠ .equation b) → fits (alignments g + 1) rows → firstAtom q = none →
  pk ++ rt = rows.events.map .ok ++ q →
  (∀ p r e' st' pv' c, p ++ r = q → InTable g (lastColumn rows) e' →
    L ⟨p, r, o ++ rowsInner (printing cfg) g rows, none, .group e' :: E, st' :: ss, pv', c⟩) →
  L ⟨pk, rt, o, none, .group e :: E, {} :: ss, none, rc⟩

theorem cellsX_last {b : Nodes} (hb : BodyX cfg b) : CellsX cfg (.last b) := by
  intro L _ g i e E q pk rt o st ss pv rc hi hl hq0 hq h
  rw [Cells.events] at hq
  refine hb L _ _ _ _ _ _ _ _ _ (.inr ⟨_, _, rfl⟩) hq fun p r rc hp => ?_
  rw [hq0]
  have := h p r e (b.markup (printing cfg) [] st pv none).st (b.markup (printing cfg) [] st pv none).prev rc hp hi
  rw [cellsInner] at this
  exact this

theorem cellsX_cell {b : Nodes} {rest : Cells} (hb : BodyX cfg b) (hr : CellsX cfg rest) : CellsX cfg (.cell b rest) := by
  intro L _ g i e E q pk rt o st ss pv rc hi hl hq0 hq h
  have hpos := cells_pos rest
  rw [Cells.length] at hl h
  rw [Cells.events, List.map_append, List.append_assoc] at hq
  refine hb L _ _ _ _ _ _ _ _ _ (.inr ⟨_, _, rfl⟩) hq fun p r rc hp => ?_
  refine WL.step hp fun p1 r1 hp1 => ?_
  show wp (writeAlignment cfg) _ _
  refine wp_align_eq cfg hi (by omega) fun e' hi' => ?_
  refine ⟨len_of hp1, WC.flat (.inr ⟨_, _, rfl⟩) ?_⟩
  refine hr L g (i + 1) e' E q _ _ _ _ _ _ _ hi' (by omega) hq0 hp1 fun p2 r2 e2 st2 pv2 rc hp2 hi2 => ?_
  have e1 : i + 1 + (rest.length - 1) = i + (rest.length + 1 - 1) := by omega
  rw [e1] at hi2
  have := h p2 r2 e2 st2 pv2 rc hp2 hi2
  rw [cellsInner] at this
  simp only [List.append_assoc] at this ⊢
  exact this

theorem cellsX_lost {b : Nodes} {ls : List Line} {rest : Cells} (hb : BodyX cfg b) (hr : CellsX cfg rest) : CellsX cfg (.lost b ls rest) := by
  intro L _ g i e E q pk rt o st ss pv rc hi hl hq0 hq h
  rw [Cells.length] at hl h
  rw [Cells.events, List.map_append, List.append_assoc] at hq
  refine hb L _ _ _ _ _ _ _ _ _ (.inr ⟨_, _, rfl⟩) hq fun p r rc hp => ?_
  refine WL.step hp fun p1 r1 hp1 => ?_
  show wp recover _ _
  rw [recover, wp_modify]
  refine ⟨len_of hp1, WC.flat (.inr ⟨_, _, rfl⟩) ?_⟩
  refine hr L g i e E q _ _ _ _ _ _ _ hi hl hq0 hp1 fun p2 r2 e2 st2 pv2 rc hp2 hi2 => ?_
  have := h p2 r2 e2 st2 pv2 rc hp2 hi2
  rw [cellsInner] at this
  simp only [List.append_assoc] at this ⊢
  exact this

theorem rowsX_last {cs : Cells} (hc : CellsX cfg cs) : RowsX cfg (.last cs) := by
  intro L _ g e E q pk rt o ss rc hi hg hs hl hq0 hq h
  rw [Rows.events] at hq
  have hpos := cells_pos cs
  have hl : cs.length ≤ alignments g + 1 := hl
  refine hc L g 0 e E q _ _ _ _ _ _ _ hi (by omega) hq0 hq fun p r e' st' pv' rc hp hi' => ?_
  rw [Nat.zero_add] at hi'
  exact h p r e' st' pv' rc hp hi'

theorem rowsX_line {cs : Cells} {sp : Option Dim} {ls : List Line} {rest : Rows} (hc : CellsX cfg cs) (hr : RowsX cfg rest) :
    RowsX cfg (.line cs sp ls rest) := by
  intro L _ g e E q pk rt o ss rc hi hg hne hl hq0 hq h
  have hpos := cells_pos cs
  obtain ⟨hl, hl'⟩ := hl
  rw [Rows.events, List.map_append, List.append_assoc] at hq
  refine hc L g 0 e E _ _ _ _ _ _ _ _ hi (by omega) rfl hq fun p r e' st' pv' rc hp hi' => ?_
  rw [Nat.zero_add] at hi'
  refine WL.step hp fun p1 r1 hp1 => ?_
  show wp (writeNewLine cfg sp ls) _ _
  refine wp_line_eq hi' hg hne sp ls fun e2 hi2 => ?_
  refine ⟨len_of hp1, WC.flat (.inr ⟨_, _, rfl⟩) ?_⟩
  refine hr L g e2 E q _ _ _ _ _ hi2 hg hne hl' hq0 hp1 fun p3 r3 e3 st3 pv3 rc hp3 hi3 => ?_
  have := h p3 r3 e3 st3 pv3 rc hp3 hi3
  rw [rowsInner] at this
  rw [show cs.length - 1 + 1 = cs.length by omega]
  simp only [List.append_assoc] at this ⊢
  exact this

/-- Rendering the lines of an equation from inside its cell. -/
def LinesX (cfg : RCfg) (rows : Rows) : Prop := ∀ (L : RSt → Prop) [Goes cfg L] b E q pk rt o ss rc,
  fits 1 rows → firstAtom q = none → pk ++ rt = rows.events.map .ok ++ q →
  (∀ p r st' pv' c, p ++ r = q → L ⟨p, r, o ++ rows.joined (printing cfg), none, .group .equation :: E, st' :: ss, pv', c⟩) →
  InTable (.equation b) 0 .equation → L ⟨pk, rt, o, none, .group .equation :: E, {} :: ss, none, rc⟩

theorem inner_joined (P : Printing) (g : Grouping) (i : Nat) : ∀ (cs : Cells) (st : RState) (pv : Option Atom), cs.length ≤ 1 →
    cellsInner P g i st pv cs = cs.joined P st pv
  | .last b, st, pv, _ => by rw [cellsInner, Cells.joined]
  | .cell b rest, st, pv, h => by
    have := cells_pos rest
    rw [Cells.length] at h
    omega
  | .lost b ls rest, st, pv, h => by
    rw [cellsInner, Cells.joined, inner_joined P g i rest _ _ (by simpa only [Cells.length] using h)]

theorem linesX_last {cs : Cells} (hc : CellsX cfg cs) : LinesX cfg (.last cs) := by
  intro L _ b E q pk rt o ss rc hl hq0 hq h hi
  rw [Rows.events] at hq
  have hl : cs.length ≤ 1 := hl
  refine hc L (.equation b) 0 .equation E q _ _ _ _ _ _ _ hi (by omega) hq0 hq fun p r e' st' pv' rc hp hi' => ?_
  have := h p r st' pv' rc hp
  rw [Rows.joined, ← inner_joined _ (.equation b) 0 cs _ _ hl] at this
  cases hi'
  exact this

theorem linesX_line {cs : Cells} {sp : Option Dim} {ls : List Line} {rest : Rows} (hc : CellsX cfg cs) (hr : LinesX cfg rest) :
    LinesX cfg (.line cs sp ls rest) := by
  intro L _ b E q pk rt o ss rc hl hq0 hq h hi
  obtain ⟨hl, hl'⟩ := hl
  rw [Rows.events, List.map_append, List.append_assoc] at hq
  refine hc L (.equation b) 0 .equation E _ _ _ _ _ _ _ _ hi (by omega) rfl hq fun p r e' st' pv' rc hp hi' => ?_
  cases hi'
  refine WL.step hp fun p1 r1 hp1 => ?_
  show wp (writeNewLine cfg sp ls) _ _
  rw [writeNewLine]
  simp only [wp_bind, wp_get, wp_updState, wp_forcePrev]
  refine (wp_pure ..).2 ?_
  refine ⟨len_of hp1, WC.flat (.inr ⟨_, _, rfl⟩) ?_⟩
  refine hr L b E q _ _ _ _ _ hl' hq0 hp1 (fun p3 r3 st3 pv3 rc hp3 => ?_) hi
  have := h p3 r3 st3 pv3 rc hp3
  rw [Rows.joined, ← inner_joined _ (.equation b) 0 cs _ _ hl] at this
  simp only [List.append_assoc] at this ⊢
  exact this

/-- The lines at the start of a table. -/
theorem wp_lines {Q : PUnit → RSt → Prop} {ls : Option (List Line)} {q : List RItem} (hn : ls = none → ∀ l r, q ≠ .ok (.flow (.startLines l)) :: r)
    (hq : pk ++ rt = (ls.map fun l => RItem.ok (.flow (.startLines l))).toList ++ q)
    (h : ∀ p r, p ++ r = q → Q ⟨⟩ ⟨p, r, o ++ hlinesStr (ls.getD []), none, env, ss, pv, rc⟩) :
    wp envLines Q ⟨pk, rt, o, none, env, ss, pv, rc⟩ := by
  rw [envLines, wp_bind]
  apply wp_peekFirst
  intro p r hp
  cases ls with
  | none =>
    have hq : pk ++ rt = q := hq
    split
    · rename_i l hh
      rw [hq] at hh
      cases hc : q with
      | nil => rw [hc] at hh; cases hh
      | cons x r => rw [hc] at hh; cases hh; exact absurd hc (hn rfl _ _)
    · have := h p r (hp.trans hq)
      simp only [Option.getD_none, hlinesStr, List.append_nil] at this
      exact (wp_pure ..).2 this
  | some l =>
    rw [hq]
    show wp (do W.out (hlinesStr l); let _ ← next) Q _
    rw [wp_bind, wp_out', wp_bind]
    refine wp_next _ _ _ _ _ _ _ (hp.trans hq) fun p r hp => ?_
    exact (wp_pure ..).2 (h p r hp)

mutual
theorem nodes_noLines : ∀ (b : Nodes) (q : List RItem), (∀ l r, q ≠ .ok (.flow (.startLines l)) :: r) →
    ∀ l r, b.events.map .ok ++ q ≠ .ok (.flow (.startLines l)) :: r
  | .nil, q, h, l, r => by rw [Nodes.events]; exact h l r
  | .cons n ns, q, h, l, r => by
    rw [Nodes.events]
    intro hh
    cases n with
    | group d cs b => rcases d with _ | ⟨l, r⟩ <;> rw [Node.events] at hh <;> cases hh
    | table g ls rows => cases ls <;> rw [Node.events] at hh <;> cases hh
    | _ => rw [Node.events] at hh; cases hh
end

theorem cells_noLines (cs : Cells) (q : List RItem) (h : ∀ l r, q ≠ .ok (.flow (.startLines l)) :: r) (hc : cs.lined = false) (l : List Line)
    (r : List RItem) : cs.events.map .ok ++ q ≠ .ok (.flow (.startLines l)) :: r := by
  cases cs with
  | last b => rw [Cells.events]; exact nodes_noLines b q h l r
  | cell b rest =>
    rw [Cells.events, List.map_append, List.append_assoc]
    exact nodes_noLines b _ (by rintro l r ⟨⟩) l r
  | lost b ls rest =>
    cases b with
    | nil => cases hc
    | cons n ns =>
      rw [Cells.events, Nodes.events]
      intro hh
      cases n with
      | group d cs b => rcases d with _ | ⟨l, r⟩ <;> rw [Node.events] at hh <;> cases hh
      | table g ls rows => cases ls <;> rw [Node.events] at hh <;> cases hh
      | _ => rw [Node.events] at hh; cases hh

theorem rows_noLines (rows : Rows) (q : List RItem) (h : ∀ l r, q ≠ .ok (.flow (.startLines l)) :: r) (hc : rows.lined = false) (l : List Line)
    (r : List RItem) : rows.events.map .ok ++ q ≠ .ok (.flow (.startLines l)) :: r := by
  cases rows with
  | last cs => rw [Rows.events]; exact cells_noLines cs q h hc l r
  | line cs sp ls rest =>
    rw [Rows.events, List.map_append, List.append_assoc]
    exact cells_noLines cs _ (by rintro l r ⟨⟩) hc l r

/-- The start of a table. -/
theorem wp_openTable {Q : PUnit → RSt → Prop} {g : Grouping} (hg : tableOk g = true) {ls : Option (List Line)} {q : List RItem}
    (hn : (∀ b, g ≠ .equation b) → ls = none → ∀ l r, q ≠ .ok (.flow (.startLines l)) :: r) (he : (∃ b, g = .equation b) → ls = none)
    (hq : pk ++ rt = (ls.map fun l => RItem.ok (.flow (.startLines l))).toList ++ q)
    (h : ∀ p r e, p ++ r = q → InTable g 0 e →
      Q ⟨⟩ ⟨p, r, o ++ (tableHead g ++ rowOpen (ls.getD []) ++ openCell g 0), none, .group e :: env, ss, pv, rc⟩) :
    wp (do
      let e ← openGroup g
      W.modify fun s => { s with env := .group e :: s.env }) Q ⟨pk, rt, o, none, env, ss, pv, rc⟩ := by
  have tbl : ∀ (op : Str) (e : EnvG), (∀ b, g ≠ .equation b) → op = tableHead g ++ c!"<mtr" → openCell g 0 = c!"<mtd>" → InTable g 0 e → wp (do
      let e ← tableOpen op e
      W.modify fun s => { s with env := .group e :: s.env }) Q ⟨pk, rt, o, none, env, ss, pv, rc⟩ := by
    rintro op e hne rfl h1 h2
    rw [tableOpen, wp_bind, wp_bind, wp_out', wp_bind]
    refine wp_lines (hn hne) hq fun p r hp => ?_
    wps
    have := h p r e hp h2
    rw [h1] at this
    simpa [rowOpen] using this
  cases g with
  | normal => cases hg
  | leftRight => cases hg
  | align e => exact tbl _ _ (by rintro b ⟨⟩) (by cases e <;> rfl) rfl rfl
  | matrix e => exact tbl _ _ (by rintro b ⟨⟩) (by cases e <;> rfl) rfl rfl
  | cases l => exact tbl _ _ (by rintro b ⟨⟩) (by cases l <;> rfl) rfl rfl
  | subArray e => exact tbl _ _ (by rintro b ⟨⟩) (by cases e <;> rfl) rfl rfl
  | alignat p e => exact tbl _ _ (by rintro b ⟨⟩) (by cases e <;> rfl) rfl rfl
  | gather e => exact tbl _ _ (by rintro b ⟨⟩) (by cases e <;> rfl) rfl rfl
  | aligned => exact tbl _ _ (by rintro b ⟨⟩) rfl rfl rfl
  | alignedat p => exact tbl _ _ (by rintro b ⟨⟩) rfl rfl rfl
  | gathered => exact tbl _ _ (by rintro b ⟨⟩) rfl rfl rfl
  | multline => exact tbl _ _ (by rintro b ⟨⟩) rfl rfl rfl
  | split => exact tbl _ _ (by rintro b ⟨⟩) rfl rfl rfl
  | equation b =>
    cases he ⟨b, rfl⟩
    rw [openGroup]
    wps
    have := h pk rt .equation hq rfl
    have e : o ++ (tableHead (.equation b) ++ rowOpen ((none : Option (List Line)).getD []) ++ openCell (.equation b) 0) =
        o ++ (c!"<mtable" ++ (if b = true then c!" class=\"menv-with-eqn\"" else []) ++ c!"><mtr><mtd>") := by cases b <;> rfl
    rw [e] at this
    exact this
  | array cols =>
    obtain ⟨i, h1, h2⟩ := inTable_start hg rfl
    rw [openGroup, wp_bind, wp_bind, wp_out', wp_bind]
    refine wp_lines (hn (by rintro b ⟨⟩)) hq fun p r hp => ?_
    wps
    refine h1.wp.2 ?_
    have := h p r _ hp h2
    simpa [rowOpen, tableHead, classes, tableClasses, attr, joined] using this

theorem wp_closeTable {Q : PUnit → RSt → Prop} {g : Grouping} {k : Nat} {e : EnvG} (hr : InTable g k e)
    (h : Q ⟨⟩ ⟨pk, rt, o ++ (closeCell g k ++ c!"</mtr>" ++ tableTail g), none, env, st :: ss, some .inner, rc⟩) {st' : RState} :
    wp writeEnd Q ⟨pk, rt, o, none, .group e :: env, st' :: st :: ss, pv, rc⟩ := by
  rw [writeEnd]
  simp only [wp_bind, wp_get, wp_modify, wp_forcePrev]
  cases g with
  | normal => cases hr
  | leftRight l r => cases hr
  | array cols =>
    obtain ⟨i, i0, rfl, ha, -⟩ := hr
    rw [closeGroup, wp_bind, wp_out', if_neg (by have := ha.le; omega)]
    wps
    rw [← ha.close] at h
    simpa [tableTail] using h
  | cases l =>
    cases hr
    rw [closeGroup, wp_bind, wp_out']
    cases l
    · simp only [Bool.not_false, if_true]
      wps
      simpa [tableTail, closeCell] using h
    · simp only [Bool.not_true, Bool.false_eq_true, if_false]
      wps
      simpa [tableTail, closeCell] using h
  | _ => cases hr; exact (wp_out' ..).2 h

theorem hasCell_of {g : Grouping} (hg : tableOk g = true) (j : Nat) (hj : j < alignments g + 1) : hasCell g j := by
  cases g with
  | array cols =>
    show j < (ruledColumns cols).length
    have : 0 < cols.countP isColumn := List.countP_pos_iff.2 (List.any_eq_true.1 hg)
    have hj : j < cols.countP isColumn - 1 + 1 := hj
    rw [ruled_length]
    unfold ncols
    omega
  | _ => trivial

theorem nodeX_table {g : Grouping} {ls : Option (List Line)} {rows : Rows} (hg : tableOk g = true)
    (he : ∀ b, g ≠ .equation b) (hn : ls = none → rows.lined = false) (hf : fits (alignments g + 1) rows) (hr : RowsX cfg rows) :
    NodeX cfg (.table g ls rows) := by
  intro L _ q pk rt o env st ss pv rc hq h
  have hq : pk ++ rt = .ok (.begin_ g) :: ((ls.map fun l => RItem.ok (.flow (.startLines l))).toList ++
      (rows.events.map .ok ++ .ok .end_ :: q)) := by
    cases ls <;> (rw [hq, Node.events]; simp)
  refine WL.step hq fun p r hp => ?_
  show wp (writeBegin g) _ _
  have hme : g.isMathEnv = true := by cases g <;> first | rfl | cases hg
  unfold writeBegin
  rw [wp_bind, wp_forcePrev, if_pos hme, wp_bind, wp_modify]
  refine wp_openTable (q := rows.events.map .ok ++ .ok .end_ :: q) hg (fun _ hls => rows_noLines rows _ (by rintro l r ⟨⟩) (hn hls))
    (fun ⟨b, hb⟩ => absurd hb (he b)) hp fun p1 r1 e hp1 hi => ?_
  refine ⟨?_, WC.flat (.inr ⟨_, _, rfl⟩) ?_⟩
  · simp only [qlen, hp1]; simp
  refine hr L g e env _ _ _ _ _ _ hi hg he hf rfl hp1 fun p2 r2 e2 st2 pv2 rc hp2 hi2 => ?_
  refine WL.step hp2 fun p3 r3 hp3 => ?_
  show wp writeEnd _ _
  refine wp_closeTable hi2 ⟨len_of hp3, ?_⟩
  have := h p3 r3 rc hp3
  rw [Node.markup] at this
  · simp only [table_eq, rows_eq (printing cfg) g _ (fun j hj => hasCell_of hg j hj) rows _ hf] at this
    simp only [List.append_assoc, mark] at this ⊢
    exact this
  · rintro b rfl; exact he b rfl

theorem nodeX_equation {b : Bool} {rows : Rows} (hf : fits 1 rows) (hr : LinesX cfg rows) : NodeX cfg (.table (.equation b) none rows) := by
  intro L _ q pk rt o env st ss pv rc hq h
  have hq : pk ++ rt = .ok (.begin_ (.equation b)) :: (((none : Option (List Line)).map fun l => RItem.ok (.flow (.startLines l))).toList ++
      (rows.events.map .ok ++ .ok .end_ :: q)) := by
    rw [hq, Node.events]; simp
  refine WL.step hq fun p r hp => ?_
  show wp (writeBegin (.equation b)) _ _
  unfold writeBegin
  rw [wp_bind, wp_forcePrev, if_pos (show (Grouping.equation b).isMathEnv = true from rfl), wp_bind, wp_modify]
  refine wp_openTable (q := rows.events.map .ok ++ .ok .end_ :: q) rfl (fun hh => absurd rfl (hh b)) (fun _ => rfl) hp fun p1 r1 e hp1 hi => ?_
  refine ⟨?_, WC.flat (.inr ⟨_, _, rfl⟩) ?_⟩
  · simp only [qlen, hp1]; simp
  cases id hi
  refine hr L b env _ _ _ _ _ _ hf rfl hp1 (fun p2 r2 st2 pv2 rc hp2 => ?_) hi
  refine WL.step hp2 fun p3 r3 hp3 => ?_
  show wp writeEnd _ _
  refine wp_closeTable hi ⟨len_of hp3, ?_⟩
  have := h p3 r3 rc hp3
  rw [Node.markup, if_pos (show (printing cfg).flawed = true from rfl)] at this
  simp only [table_eq, linedRow_eq, cell_eq (show hasCell (.equation b) 0 from trivial)] at this
  simp only [List.append_assoc, mark] at this ⊢
  exact this

/-! ## Everything -/

theorem fits_of {k : Nat} : ∀ {rows : Rows}, rows.regular k = true → fits k rows
  | .last cs, h => by
    rw [Rows.regular, Bool.and_eq_true] at h
    have h1 : cs.length ≤ k := of_decide_eq_true h.1
    exact h1
  | .line cs sp ls rest, h => by
    rw [Rows.regular, Bool.and_eq_true, Bool.and_eq_true] at h
    exact ⟨of_decide_eq_true h.1.1, fits_of h.2⟩

mutual
theorem nodeX : ∀ n : Node, n.regular = true → NodeX cfg n
  | .content c, _ => nodeX_content
  | .space w h' d, _ => nodeX_space
  | .change sc, _ => nodeX_change sc
  | .group delims cs b, h => by
    rw [Node.regular, Bool.and_eq_true, Bool.not_eq_true'] at h
    exact nodeX_group (bodyX b h.2) h.1
  | .script ty p ops, h => by
    rw [Node.regular, Bool.and_eq_true, beq_iff_eq] at h
    exact nodeX_script h.1 (opsX ops h.2)
  | .visual v ops, h => by
    rw [Node.regular, Bool.and_eq_true, beq_iff_eq] at h
    exact nodeX_visual h.1 (opsX ops h.2)
  | .table g ls rows, h => by
    by_cases he : ∃ b, g = .equation b
    · obtain ⟨b, rfl⟩ := he
      rw [Node.regular, Bool.and_eq_true] at h
      have : ls = none := by simpa using h.1
      subst this
      exact nodeX_equation (fits_of h.2) (linesX rows h.2)
    · rw [Node.regular, Bool.and_eq_true, Bool.and_eq_true] at h
      · refine nodeX_table h.1.1 (fun b hb => he ⟨b, hb⟩) ?_ (fits_of h.2) (rowsX _ rows h.2)
        rintro rfl
        simpa using h.1.2
      · rintro b rfl; exact he ⟨b, rfl⟩
theorem opsX : ∀ ns : Nodes, ns.regular = true → OpsX cfg ns
  | .nil, _ => opsX_nil
  | .cons n ns, h => by
    rw [Nodes.regular, Bool.and_eq_true] at h
    exact opsX_cons (nodeX n h.1) (opsX ns h.2)
theorem bodyX : ∀ ns : Nodes, ns.regular = true → BodyX cfg ns
  | .nil, _ => bodyX_nil
  | .cons n ns, h => by
    rw [Nodes.regular, Bool.and_eq_true] at h
    exact bodyX_cons (nodeX n h.1) (bodyX ns h.2)
theorem rowsX (k : Nat) : ∀ rows : Rows, rows.regular k = true → RowsX cfg rows
  | .last cs, h => by
    rw [Rows.regular, Bool.and_eq_true] at h
    exact rowsX_last (cellsX cs h.2)
  | .line cs sp ls rest, h => by
    rw [Rows.regular, Bool.and_eq_true, Bool.and_eq_true] at h
    exact rowsX_line (cellsX cs h.1.2) (rowsX k rest h.2)
theorem linesX : ∀ rows : Rows, rows.regular 1 = true → LinesX cfg rows
  | .last cs, h => by
    rw [Rows.regular, Bool.and_eq_true] at h
    exact linesX_last (cellsX cs h.2)
  | .line cs sp ls rest, h => by
    rw [Rows.regular, Bool.and_eq_true, Bool.and_eq_true] at h
    exact linesX_line (cellsX cs h.1.2) (linesX rest h.2)
theorem cellsX : ∀ cs : Cells, cs.regular = true → CellsX cfg cs
  | .last b, h => by
    rw [Cells.regular] at h
    exact cellsX_last (bodyX b h)
  | .cell b rest, h => by
    rw [Cells.regular, Bool.and_eq_true] at h
    exact cellsX_cell (bodyX b h.1) (cellsX rest h.2)
  | .lost b ls rest, h => by
    rw [Cells.regular, Bool.and_eq_true] at h
    exact cellsX_lost (bodyX b h.1) (cellsX rest h.2)
end

end
end PL.Mathml
