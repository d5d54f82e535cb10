import Verif.Lemmas.Render.Exact
set_option autoImplicit false
/-! # What the renderer writes for tables, exactly -/
namespace PL.Mathml
open Spec

/-! ## Cells -/

/-- What stands before the inside of a cell. -/
def openCell (g : Grouping) (i : Nat) : Str :=
  match g with
  | .array cols =>
    let lead := if i = 0 then rules cols else []
    match (ruledColumns cols)[i]? with
    | none => []
    | some (a, rs) => lead.dropLast.flatMap (borderCell c!"left") ++
        (c!"<mtd" ++ (classes ((lead.getLast?.map (borderClass c!"left")).toList ++ alignClasses a ++
          (rs.head?.map (borderClass c!"right")).toList)).flatMap attr ++ c!">")
  | _ => c!"<mtd>"

/-- What stands after it. -/
def closeCell (g : Grouping) (i : Nat) : Str :=
  match g with
  | .array cols =>
    match (ruledColumns cols)[i]? with
    | none => []
    | some (_, rs) => c!"</mtd>" ++ rs.tail.flatMap (borderCell c!"right")
  | _ => c!"</mtd>"

theorem cell_array {cols : List ArrayCol} {i : Nat} (h : i < (ruledColumns cols).length) (inner : Str) :
    tableCell (.array cols) i inner = openCell (.array cols) i ++ inner ++ closeCell (.array cols) i := by
  simp only [tableCell, openCell, closeCell, List.getElem?_eq_getElem h, tag, List.append_assoc]
  rfl

/-- There is such a cell. -/
def hasCell (g : Grouping) (i : Nat) : Prop :=
  match g with
  | .array cols => i < (ruledColumns cols).length
  | _ => True

theorem cell_eq {g : Grouping} {i : Nat} (h : hasCell g i) (inner : Str) :
    tableCell g i inner = openCell g i ++ inner ++ closeCell g i := by
  cases g with
  | array cols => exact cell_array h inner
  | _ => simp [tableCell, openCell, closeCell, tag]

/-! ## Arrays -/

theorem ruled_length : ∀ cols : List ArrayCol, (ruledColumns cols).length = ncols cols
  | [] => rfl
  | .separator l :: cs => by rw [ruledColumns, ruled_length cs]; simp [ncols, isColumn]
  | .column a :: cs => by rw [ruledColumns, List.length_cons, ruled_length cs, ncols, ncols, List.countP_cons_of_pos (by rfl)]

theorem split_cols : ∀ cols : List ArrayCol, 0 < (ruledColumns cols).length →
    ∃ (ls : List Line) (a : ColAlign) (r : List ArrayCol), cols = ls.map .separator ++ .column a :: r
  | [], h => by cases h
  | .separator l :: cs, h => by
    obtain ⟨ls, a, r, e⟩ := split_cols cs h
    exact ⟨l :: ls, a, r, by rw [e]; rfl⟩
  | .column a :: cs, _ => ⟨[], a, cs, rfl⟩

section
variable (a : ColAlign) (r : List ArrayCol)
theorem rules_split : ∀ ls : List Line, rules (ls.map .separator ++ .column a :: r) = ls
  | [] => rfl
  | l :: ls => by rw [List.map_cons, List.cons_append, rules, rules_split ls]
theorem ruled_split : ∀ ls : List Line, ruledColumns (ls.map .separator ++ .column a :: r) = (a, rules r) :: ruledColumns r
  | [] => rfl
  | l :: ls => by rw [List.map_cons, List.cons_append, ruledColumns, ruled_split ls]
theorem seps_split : ∀ ls : List Line, seps (ls.map .separator ++ .column a :: r) = ls
  | [] => by rw [List.map_nil, List.nil_append, seps]; rintro l r ⟨⟩
  | l :: ls => by rw [List.map_cons, List.cons_append, seps, seps_split ls]
theorem leadSeps_split : ∀ ls : List Line, leadSeps (ls.map .separator ++ .column a :: r) = ls.dropLast
  | [] => by rw [List.map_nil, List.nil_append, leadSeps]; rfl; rintro l m r ⟨⟩
  | [l] => by
    rw [List.map_cons, List.map_nil, List.cons_append, List.nil_append, leadSeps]
    · rfl
    · rintro l m r ⟨⟩
  | l :: m :: ls => by
    have := leadSeps_split (m :: ls)
    rw [List.map_cons, List.map_cons, List.cons_append, List.cons_append, leadSeps]
    rw [List.map_cons, List.cons_append] at this
    rw [this]; rfl
end

theorem seps_rules : ∀ cols : List ArrayCol, seps cols = rules cols
  | [] => rfl
  | .separator l :: cs => by rw [seps, rules, seps_rules cs]
  | .column a :: cs => by rw [seps, rules] <;> rintro l r ⟨⟩

/-- Cells written with the start of the next one. -/
theorem rotate (ls : List Line) (f : Line → Str) :
    c!"<mtd" ++ ls.flatMap (fun l => f l ++ c!"></mtd><mtd") = ls.flatMap (fun l => c!"<mtd" ++ f l ++ c!"></mtd>") ++ c!"<mtd" := by
  induction ls with
  | nil => rfl
  | cons l ls ih =>
    rw [List.flatMap_cons, List.flatMap_cons, List.append_assoc, List.append_assoc, List.append_assoc, ← ih]
    simp

theorem left_cells (ls : List Line) :
    c!"<mtd" ++ (ls.flatMap fun l => solidDashed l c!" class=\"menv-left-solid menv-border-only\"></mtd><mtd"
      c!" class=\"menv-left-dashed menv-border-only\"></mtd><mtd") = ls.flatMap (borderCell c!"left") ++ c!"<mtd" := by
  have h1 : (fun l => solidDashed l c!" class=\"menv-left-solid menv-border-only\"></mtd><mtd"
      c!" class=\"menv-left-dashed menv-border-only\"></mtd><mtd") =
      fun l => solidDashed l c!" class=\"menv-left-solid menv-border-only\"" c!" class=\"menv-left-dashed menv-border-only\"" ++
        c!"></mtd><mtd" := by
    funext l; cases l <;> rfl
  rw [h1, rotate]
  congr 2
  funext l; cases l <;> rfl

theorem right_cells (ls : List Line) :
    c!"<mtd" ++ (ls.flatMap fun l => solidDashed l c!" class=\"menv-right-solid menv-border-only\"></mtd><mtd"
      c!" class=\"menv-right-dashed menv-border-only\"></mtd><mtd") = ls.flatMap (borderCell c!"right") ++ c!"<mtd" := by
  have h1 : (fun l => solidDashed l c!" class=\"menv-right-solid menv-border-only\"></mtd><mtd"
      c!" class=\"menv-right-dashed menv-border-only\"></mtd><mtd") =
      fun l => solidDashed l c!" class=\"menv-right-solid menv-border-only\"" c!" class=\"menv-right-dashed menv-border-only\"" ++
        c!"></mtd><mtd" := by
    funext l; cases l <;> rfl
  rw [h1, rotate]
  congr 2
  funext l; cases l <;> rfl

theorem closeSeps_eq (ls : List Line) : closeSeps ls = ls.flatMap (borderCell c!"right") := by
  unfold closeSeps
  congr 1
  funext l; cases l <;> rfl

/-- The index is behind column `k` and the first rule after it. -/
structure AtX (cols : List ArrayCol) (k i : Nat) : Prop where
  le : i ≤ cols.length
  col : ∃ a rs, (ruledColumns cols)[k]? = some (a, rs) ∧ rules (cols.drop i) = rs.tail
  rest : ruledColumns (cols.drop i) = (ruledColumns cols).drop (k + 1)

theorem Writes.out_eq {t u : Str} (h : t = u) : Writes (W.out t) ⟨⟩ u := h ▸ Writes.out t

theorem Writes.cast {α : Type} {m : W α} {a : α} {t u : Str} (h : Writes m a t) (e : t = u) : Writes m a u := e ▸ h

theorem newline_ex {cols : List ArrayCol} (hc : 0 < (ruledColumns cols).length) :
    ∃ i, Writes (arrayNewline cols) i (openCell (.array cols) 0) ∧ AtX cols 0 i := by
  obtain ⟨ls, a, r, e⟩ := split_cols cols hc
  have hr : rules cols = ls := by rw [e, rules_split]
  have hcol : ruledColumns cols = (a, rules r) :: ruledColumns r := by rw [e, ruled_split]
  have hlead : leadSeps cols = ls.dropLast := by rw [e, leadSeps_split]
  have hopen : openCell (.array cols) 0 = ls.dropLast.flatMap (borderCell c!"left") ++
      (c!"<mtd" ++ (classes ((ls.getLast?.map (borderClass c!"left")).toList ++ alignClasses a ++
        ((rules r).head?.map (borderClass c!"right")).toList)).flatMap attr ++ c!">") := by
    simp only [openCell, hcol, hr]; rfl
  have atx : ∀ i, i ≤ cols.length → rules (cols.drop i) = (rules r).tail → ruledColumns (cols.drop i) = ruledColumns r → AtX cols 0 i :=
    fun i h1 h2 h3 => ⟨h1, ⟨a, rules r, by rw [hcol]; rfl, h2⟩, by rw [h3, hcol]; rfl⟩
  have tail_len : ∀ (x : ArrayCol) (r' : List ArrayCol), r = x :: r' → ls.length + 2 ≤ cols.length := by
    rintro x r' rfl; rw [e]; simp
  have len1 : ls.length + 1 ≤ cols.length := by rw [e]; simp
  have drop1 : cols.drop (ls.length + 1) = r := by
    rw [e, ← List.drop_drop, List.drop_left' (by simp)]; rfl
  have drop2 : ∀ (x : ArrayCol) (r' : List ArrayCol), r = x :: r' → cols.drop (ls.length + 2) = r' := by
    intro x r' h
    have : cols.drop (ls.length + 1 + 1) = (cols.drop (ls.length + 1)).drop 1 := by rw [List.drop_drop]
    rw [show ls.length + 2 = ls.length + 1 + 1 from rfl, this, drop1, h]; rfl
  have hnc : ls = [] ∨ ∃ ls' l, ls = ls' ++ [l] := by
    rcases List.eq_nil_or_concat ls with h | ⟨ls', l, h⟩
    · exact .inl h
    · exact .inr ⟨ls', l, by rw [h, List.concat_eq_append]⟩
  rcases hnc with rfl | ⟨ls', l, rfl⟩
  · have h0 : leadSeps cols = [] := hlead
    have hopen0 : openCell (.array cols) 0 = c!"<mtd" ++ ((classes (alignClasses a ++
        ((rules r).head?.map (borderClass c!"right")).toList)).flatMap attr ++ c!">") := by
      rw [hopen]; simp
    have plain : (∀ l r', r ≠ .separator l :: r') → ∃ i, Writes (arrayNewline cols) i (openCell (.array cols) 0) ∧ AtX cols 0 i := by
      intro hs
      have hrr : rules r = [] := by
        cases r with
        | nil => rfl
        | cons x r' => cases x with
          | separator l => exact absurd rfl (hs l r')
          | column b => rfl
      refine ⟨1, Writes.cast ?_ hopen0.symm, atx 1 len1 (by rw [show cols.drop 1 = r from drop1, hrr]; rfl) (by rw [show cols.drop 1 = r from drop1])⟩
      rw [hrr]
      unfold arrayNewline
      apply Writes.bind (Writes.out _)
      rw [h0]
      refine Writes.cast (Writes.bind (u := colStr a ++ []) (Writes.out _) ?_) ?_
      · subst e
        cases r with
        | nil => exact Writes.bind (Writes.out _) (Writes.pure _)
        | cons x r' => cases x with
          | separator l => exact absurd rfl (hs l r')
          | column b => exact Writes.bind (Writes.out _) (Writes.pure _)
      · cases a <;> rfl
    cases r with
    | nil => exact plain (by rintro l r' ⟨⟩)
    | cons x r' =>
      cases x with
      | column b => exact plain (by rintro l r' ⟨⟩)
      | separator m =>
        refine ⟨2, Writes.cast ?_ hopen0.symm, atx 2 (tail_len _ _ rfl) ?_ ?_⟩
        · unfold arrayNewline
          apply Writes.bind (Writes.out _)
          rw [h0]
          refine Writes.cast (Writes.bind (u := colSepStr a m ++ []) (Writes.out _) ?_) ?_
          · subst e
            exact Writes.bind (Writes.out _) (Writes.pure _)
          · cases a <;> cases m <;> rfl
        · have := drop2 _ _ rfl
          rw [show ([] : List Line).length + 2 = 2 from rfl] at this
          rw [this]; rfl
        · have := drop2 _ _ rfl
          rw [show ([] : List Line).length + 2 = 2 from rfl] at this
          rw [this]; rfl
  · rw [List.dropLast_concat] at hlead hopen
    rw [List.getLast?_concat] at hopen
    have g0 : cols[ls'.length]? = some (.separator l) := by rw [e]; simp
    have g1 : cols[ls'.length + 1]? = some (.column a) := by rw [e]; simp
    have g2 : cols[ls'.length + 2]? = r[0]? := by rw [e]; simp [List.getElem?_append_right]
    have len : (ls' ++ [l]).length = ls'.length + 1 := by simp
    rw [len] at drop1 drop2 tail_len len1
    have key : ∀ i u, Writes (match cols[ls'.length + 2]? with
        | some (.separator l') => do
          W.out (solidDashed l' c!" menv-right-solid\">" c!" menv-right-dashed\">")
          return ls'.length + 3
        | _ => do
          W.out c!"\">"
          return ls'.length + 2) i u →
        sepColStr l a ++ u = (classes ([borderClass c!"left" l] ++ alignClasses a ++
          ((rules r).head?.map (borderClass c!"right")).toList)).flatMap attr ++ c!">" →
        Writes (arrayNewline cols) i (openCell (.array cols) 0) := by
      intro i u h1 h2
      rw [hopen]
      unfold arrayNewline
      rw [hlead]
      simp only [g0, g1]
      refine Writes.cast (Writes.bind (Writes.out _) (Writes.bind (Writes.out _) (Writes.bind (Writes.out _) h1))) ?_
      rw [h2, ← List.append_assoc, left_cells]
      simp
    have plain : (∀ l r', r ≠ .separator l :: r') → ∃ i, Writes (arrayNewline cols) i (openCell (.array cols) 0) ∧ AtX cols 0 i := by
      intro hs
      have hrr : rules r = [] := by
        cases r with
        | nil => rfl
        | cons x r' => cases x with
          | separator l => exact absurd rfl (hs l r')
          | column b => rfl
      refine ⟨ls'.length + 2, key _ (c!"\">" ++ []) ?_ ?_, atx _ len1 (by rw [drop1, hrr]; rfl) (by rw [drop1])⟩
      · rw [g2]
        cases r with
        | nil => exact Writes.bind (Writes.out _) (Writes.pure _)
        | cons x r' => cases x with
          | separator l => exact absurd rfl (hs l r')
          | column b => exact Writes.bind (Writes.out _) (Writes.pure _)
      · rw [hrr]; cases l <;> cases a <;> rfl
    cases r with
    | nil => exact plain (by rintro l r' ⟨⟩)
    | cons x r' =>
      cases x with
      | column b => exact plain (by rintro l r' ⟨⟩)
      | separator m =>
        refine ⟨ls'.length + 3, key _ (solidDashed m c!" menv-right-solid\">" c!" menv-right-dashed\">" ++ []) ?_ ?_,
          atx _ (tail_len _ _ rfl) (by rw [show ls'.length + 3 = ls'.length + 1 + 2 from rfl, drop2 _ _ rfl]; rfl)
            (by rw [show ls'.length + 3 = ls'.length + 1 + 2 from rfl, drop2 _ _ rfl]; rfl)⟩
        · rw [g2]
          exact Writes.bind (Writes.out _) (Writes.pure _)
        · cases l <;> cases a <;> cases m <;> rfl

theorem align_ex {cols : List ArrayCol} {k i : Nat} (h : AtX cols k i) (hk : k + 1 < (ruledColumns cols).length) :
    ∃ i', Writes (arrayAlign cols i) i' (closeCell (.array cols) k ++ openCell (.array cols) (k + 1)) ∧ AtX cols (k + 1) i' ∧ i < i' := by
  obtain ⟨a0, rs, hcol, hrs⟩ := h.col
  have hpos : 0 < (ruledColumns (cols.drop i)).length := by rw [h.rest, List.length_drop]; omega
  obtain ⟨ls, a, r, e⟩ := split_cols _ hpos
  have hls : rs.tail = ls := by rw [← hrs, e, rules_split]
  have hc2 : (ruledColumns cols).drop (k + 1) = (a, rules r) :: ruledColumns r := by rw [← h.rest, e, ruled_split]
  have hget : (ruledColumns cols)[k + 1]? = some (a, rules r) := by
    have := congrArg List.head? hc2
    rw [List.head?_drop] at this
    exact this
  have hdrop : (ruledColumns cols).drop (k + 1 + 1) = ruledColumns r := by
    rw [← List.drop_drop, hc2]; rfl
  have ge : ∀ j, cols[i + j]? = (cols.drop i)[j]? := fun j => by rw [List.getElem?_drop]
  have g0 : cols[i + ls.length]? = some (.column a) := by rw [ge, e]; simp
  have g1 : cols[i + ls.length + 1]? = r[0]? := by rw [Nat.add_assoc, ge, e]; simp [List.getElem?_append_right]
  have hlen : cols.length = i + ls.length + 1 + r.length := by
    have h1 := congrArg List.length e
    have h2 := h.le
    simp at h1
    omega
  have drop1 : cols.drop (i + ls.length + 1) = r := by
    have : cols.drop (i + (ls.length + 1)) = (cols.drop i).drop (ls.length + 1) := by rw [List.drop_drop]
    rw [Nat.add_assoc, this, e, ← List.drop_drop, List.drop_left' (by simp)]; rfl
  have drop2 : ∀ (x : ArrayCol) (r' : List ArrayCol), r = x :: r' → cols.drop (i + ls.length + 2) = r' := by
    intro x r' h
    have : cols.drop (i + ls.length + 1 + 1) = (cols.drop (i + ls.length + 1)).drop 1 := by rw [List.drop_drop]
    rw [show i + ls.length + 2 = i + ls.length + 1 + 1 from rfl, this, drop1, h]; rfl
  have hclose : closeCell (.array cols) k = c!"</mtd>" ++ ls.flatMap (borderCell c!"right") := by
    simp only [closeCell, hcol, hls]
  have hopen : openCell (.array cols) (k + 1) = c!"<mtd" ++ ((classes (alignClasses a ++
        ((rules r).head?.map (borderClass c!"right")).toList)).flatMap attr ++ c!">") := by
    simp [openCell, hget]
  have atx : ∀ i', i' ≤ cols.length → rules (cols.drop i') = (rules r).tail → ruledColumns (cols.drop i') = ruledColumns r →
      AtX cols (k + 1) i' := fun i' h1 h2 h3 => ⟨h1, ⟨a, rules r, hget, h2⟩, by rw [h3, hdrop]⟩
  have key : ∀ i' u, Writes (match cols[i + ls.length]?, cols[i + ls.length + 1]? with
      | none, _ => W.boom .index
      | some (.column a), some (.separator l) => do
        W.out (colSepStr a l)
        return i + ls.length + 2
      | some (.column a), _ => do
        W.out (colStr a)
        return i + ls.length + 1
      | some (.separator _), _ => W.boom .explicit) i' u →
      u = (classes (alignClasses a ++ ((rules r).head?.map (borderClass c!"right")).toList)).flatMap attr ++ c!">" →
      Writes (arrayAlign cols i) i' (closeCell (.array cols) k ++ openCell (.array cols) (k + 1)) := by
    intro i' u h1 h2
    have hle := h.le
    unfold arrayAlign
    rw [if_neg (by omega), seps_rules, hrs, hls]
    refine Writes.cast (Writes.bind (Writes.out _) (Writes.bind (Writes.out _) h1)) ?_
    rw [hclose, hopen, h2]
    have := right_cells ls
    rw [show (c!"</mtd><mtd" : Str) = c!"</mtd>" ++ c!"<mtd" from rfl, List.append_assoc, ← List.append_assoc c!"<mtd", this]
    simp
  have plain : (∀ l r', r ≠ .separator l :: r') →
      ∃ i', Writes (arrayAlign cols i) i' (closeCell (.array cols) k ++ openCell (.array cols) (k + 1)) ∧ AtX cols (k + 1) i' ∧ i < i' := by
    intro hs
    have hrr : rules r = [] := by
      cases r with
      | nil => rfl
      | cons x r' => cases x with
        | separator l => exact absurd rfl (hs l r')
        | column b => rfl
    refine ⟨i + ls.length + 1, key _ (colStr a ++ []) ?_ ?_, atx _ (by omega) (by rw [drop1, hrr]; rfl) (by rw [drop1]), by omega⟩
    · rw [g0, g1]
      cases r with
      | nil => exact Writes.bind (Writes.out _) (Writes.pure _)
      | cons x r' => cases x with
        | separator l => exact absurd rfl (hs l r')
        | column b => exact Writes.bind (Writes.out _) (Writes.pure _)
    · rw [hrr]; cases a <;> rfl
  cases r with
  | nil => exact plain (by rintro l r' ⟨⟩)
  | cons x r' =>
    cases x with
    | column b => exact plain (by rintro l r' ⟨⟩)
    | separator m =>
      refine ⟨i + ls.length + 2, key _ (colSepStr a m ++ []) ?_ ?_, atx _ (by rw [hlen]; simp; omega)
        (by rw [drop2 _ _ rfl]; rfl) (by rw [drop2 _ _ rfl]; rfl), by omega⟩
      · rw [g0, g1]
        exact Writes.bind (Writes.out _) (Writes.pure _)
      · cases a <;> cases m <;> rfl

theorem AtX.close {cols : List ArrayCol} {k i : Nat} (h : AtX cols k i) :
    c!"</mtd>" ++ closeSeps (seps (cols.drop i)) = closeCell (.array cols) k := by
  obtain ⟨a, rs, h1, h2⟩ := h.col
  rw [closeSeps_eq, seps_rules, h2]
  simp only [closeCell, h1]

theorem closeLine_ex {cols : List ArrayCol} {k i : Nat} (h : AtX cols k i) :
    Writes (arrayCloseLine cols i) ⟨⟩ (closeCell (.array cols) k ++ c!"</mtr><mtr") := by
  have := h.le
  unfold arrayCloseLine
  rw [if_neg (by omega), ← h.close]
  exact Writes.cast (Writes.bind (Writes.out _) (Writes.bind (Writes.out _) (Writes.out _))) (by simp)

/-- `n` alignments from column `k` on. -/
inductive Walk (cols : List ArrayCol) : Nat → Nat → Nat → Nat → Prop
  | zero {k i} : Walk cols 0 k i i
  | succ {n k i i' j} : Writes (arrayAlign cols i) i' (closeCell (.array cols) k ++ openCell (.array cols) (k + 1)) → i < i' →
      Walk cols n (k + 1) i' j → Walk cols (n + 1) k i j

theorem Walk.le {cols : List ArrayCol} {n k i j : Nat} (h : Walk cols n k i j) : i + n ≤ j := by
  induction h with
  | zero => omega
  | succ _ h _ ih => omega

theorem Walk.snoc {cols : List ArrayCol} {n k i j j' : Nat} (h : Walk cols n k i j)
    (h1 : Writes (arrayAlign cols j) j' (closeCell (.array cols) (k + n) ++ openCell (.array cols) (k + n + 1))) (h2 : j < j') :
    Walk cols (n + 1) k i j' := by
  induction h with
  | zero => exact .succ h1 h2 .zero
  | @succ n k i i' j a b _ ih =>
    refine .succ a b (ih ?_ h2)
    have e : k + 1 + n = k + (n + 1) := by omega
    rw [e]; exact h1

/-- The text between the first and the last cell. -/
def between (g : Grouping) : Nat → Nat → Str
  | _, 0 => []
  | k, n + 1 => closeCell g k ++ openCell g (k + 1) ++ between g (k + 1) n

theorem Walk.run {cols : List ArrayCol} {n k i j : Nat} (h : Walk cols n k i j) : ∀ m, j < m + i →
    Writes (alignUpTo cols j m i) j (between (.array cols) k n) := by
  induction h with
  | @zero k i =>
    intro m hm
    cases m with
    | zero => omega
    | succ m =>
      rw [alignUpTo, if_neg (by omega)]
      exact .pure _
  | @succ n k i i' j h1 h2 h3 ih =>
    intro m hm
    have := h3.le
    cases m with
    | zero => omega
    | succ m =>
      rw [alignUpTo, if_pos (by omega)]
      exact h1.bind (ih m (by omega))

theorem emptyCells_eq (g : Grouping) : ∀ n k, (∀ j, j ≤ n → hasCell g (k + j)) →
    emptyCells g k (n + 1) = openCell g k ++ between g k n ++ closeCell g (k + n)
  | 0, k, h => by
    simp only [emptyCells, between]
    rw [cell_eq (show hasCell g k from h 0 (Nat.le_refl _))]
    simp
  | n + 1, k, h => by
    rw [emptyCells, emptyCells_eq g n (k + 1) (fun j hj => by have := h (j + 1) (by omega); rwa [show k + 1 + j = k + (j + 1) by omega]),
      cell_eq (show hasCell g k from h 0 (by omega)), between]
    have e : k + 1 + n = k + (n + 1) := by omega
    rw [e]
    simp

/-- The stack entry for a table after `k` alignments in a line. -/
def InTable (g : Grouping) (k : Nat) (e : EnvG) : Prop :=
  match g with
  | .array cols => ∃ i i0, e = .array cols i ∧ AtX cols k i ∧ Writes (arrayNewline cols) i0 (openCell (.array cols) 0) ∧ Walk cols k 0 i0 i
  | .matrix _ => e = .matrix
  | .cases l => e = .cases false l
  | .align _ => e = .align
  | .aligned => e = .align
  | .alignat p _ => e = .alignat p k
  | .alignedat p => e = .alignat p k
  | .subArray _ => e = .subArray
  | .gather _ => e = .gather
  | .gathered => e = .gather
  | .multline => e = .multline
  | .split => e = .split false
  | .equation _ => e = .equation
  | .normal => False
  | .leftRight _ _ => False

/-- The row that makes space in an array. -/
theorem spacer_ex {cols : List ArrayCol} {k i i0 : Nat} (h : AtX cols k i) (h0 : Writes (arrayNewline cols) i0 (openCell (.array cols) 0))
    (hw : Walk cols k 0 i0 i) (hk : k < (ruledColumns cols).length) :
    Writes (do let j ← arrayNewline cols; let j ← alignUpTo cols i (i + 1) j; arrayCloseLine cols j) ⟨⟩
      (emptyCells (.array cols) 0 (k + 1) ++ c!"</mtr><mtr") := by
  refine Writes.cast (h0.bind ((hw.run (i + 1) (by omega)).bind (closeLine_ex h))) ?_
  rw [emptyCells_eq _ _ _ (fun j hj => by show 0 + j < _; omega)]
  simp

end PL.Mathml
