import Verif.Lemmas.Render.Content
import Verif.Spec.Stream
set_option autoImplicit false
/-! # The columns of arrays in the renderer -/
namespace PL.Mathml
open Spec

/-- `m` only writes `t` and returns `a`. -/
def Writes {α : Type} (m : W α) (a : α) (t : Str) : Prop :=
  ∀ pk rt o env ss pv rc, m ⟨pk, rt, o, none, env, ss, pv, rc⟩ = .ok a ⟨pk, rt, o ++ t, none, env, ss, pv, rc⟩

theorem Writes.out (t : Str) : Writes (W.out t) ⟨⟩ t := fun _ _ _ _ _ _ _ => rfl

theorem Writes.pure {α : Type} (a : α) : Writes (Pure.pure a) a [] := by
  intro pk rt o env ss pv rc
  rw [List.append_nil]; rfl

theorem Writes.bind {α β : Type} {m : W α} {f : α → W β} {a : α} {b : β} {t u : Str} (h : Writes m a t)
    (h' : Writes (f a) b u) : Writes (m >>= f) b (t ++ u) := by
  intro pk rt o env ss pv rc
  rw [run_bind, h]
  simp only
  rw [h', List.append_assoc]

theorem Writes.wp {α : Type} {m : W α} {a : α} {t : Str} (h : Writes m a t) {pk rt o env ss pv rc} {Q : α → RSt → Prop} :
    wp m Q ⟨pk, rt, o, none, env, ss, pv, rc⟩ ↔ Q a ⟨pk, rt, o ++ t, none, env, ss, pv, rc⟩ := by
  constructor
  · rintro ⟨_, _, e, hq⟩
    rw [h] at e; cases e; exact hq
  · intro hq; exact ⟨_, _, h .., hq⟩

theorem Writes.det {α : Type} {m : W α} {a b : α} {t u : Str} (h : Writes m a t) (h' : Writes m b u) : a = b := by
  have := (h [] [] [] [] [] none false).symm.trans (h' [] [] [] [] [] none false)
  cases this; rfl

theorem Writes.ex {α : Type} {m : W α} {a : α} {t : Str} {P : Str → Prop} (h : Writes m a t) (hp : P t) :
    ∃ t, Writes m a t ∧ P t := ⟨t, h, hp⟩

/-- Number of columns in a list. -/
abbrev ncols (cs : List ArrayCol) : Nat := cs.countP isColumn

theorem leadSeps_len : ∀ cols : List ArrayCol, cols.any isColumn = true →
    (leadSeps cols = [] ∧ ∃ a r, cols = .column a :: r) ∨
    (∃ a r p l, cols = p ++ .separator l :: .column a :: r ∧ p.length = (leadSeps cols).length ∧ ncols p = 0)
  | [], h => by cases h
  | .column a :: r, _ => .inl ⟨by unfold leadSeps; rfl, a, r, rfl⟩
  | [.separator l], h => by cases h
  | .separator l :: .column a :: r, _ => .inr ⟨a, r, [], l, rfl, by unfold leadSeps; rfl, rfl⟩
  | .separator l :: .separator m :: r, h => by
    rcases leadSeps_len (.separator m :: r) h with ⟨_, a, r', e⟩ | ⟨a, r', p, l', e, h1, h2⟩
    · cases e
    · refine .inr ⟨a, r', .separator l :: p, l', by rw [e]; rfl, ?_, ?_⟩
      · rw [leadSeps]; simp [h1]
      · simpa [ncols, isColumn] using h2

/-- A new cell is open. -/
def OpensCell (t : Str) : Prop := ∀ d S x, ∃ y, Sc d .text ((c!"mtr", x) :: S) t .text ((c!"mtd", 0) :: (c!"mtr", y) :: S)

theorem lead_sc (d : Bool) (S : Open) (ls : List Line) : ∀ x, ∃ y, Sc d (.name c!"dtm") ((c!"mtr", x) :: S)
    (ls.flatMap fun l => solidDashed l c!" class=\"menv-left-solid menv-border-only\"></mtd><mtd"
      c!" class=\"menv-left-dashed menv-border-only\"></mtd><mtd") (.name c!"dtm") ((c!"mtr", y) :: S) := by
  induction ls with
  | nil => exact fun x => ⟨x, rfl⟩
  | cons l ls ih =>
    intro x
    obtain ⟨y, h⟩ := ih (x + 1)
    refine ⟨y, ?_⟩
    rw [List.flatMap_cons]
    refine Sc.append (m' := .name c!"dtm") (S' := (c!"mtr", x + 1) :: S) ?_ h
    cases l <;> rfl

theorem align_sc (d : Bool) (S : Open) (ls : List Line) : ∀ x, ∃ y, Sc d (.name c!"dtm") ((c!"mtr", x) :: S)
    (ls.flatMap fun l => solidDashed l c!" class=\"menv-right-solid menv-border-only\"></mtd><mtd"
      c!" class=\"menv-right-dashed menv-border-only\"></mtd><mtd") (.name c!"dtm") ((c!"mtr", y) :: S) := by
  induction ls with
  | nil => exact fun x => ⟨x, rfl⟩
  | cons l ls ih =>
    intro x
    obtain ⟨y, h⟩ := ih (x + 1)
    refine ⟨y, ?_⟩
    rw [List.flatMap_cons]
    refine Sc.append (m' := .name c!"dtm") (S' := (c!"mtr", x + 1) :: S) ?_ h
    cases l <;> rfl

theorem closeSeps_sc (d : Bool) (S : Open) (ls : List Line) : ∀ x, ∃ y, Sc d .text ((c!"mtr", x) :: S)
    (closeSeps ls) .text ((c!"mtr", y) :: S) := by
  unfold closeSeps
  induction ls with
  | nil => exact fun x => ⟨x, rfl⟩
  | cons l ls ih =>
    intro x
    obtain ⟨y, h⟩ := ih (x + 1)
    refine ⟨y, ?_⟩
    rw [List.flatMap_cons]
    refine Sc.append (m' := .text) (S' := (c!"mtr", x + 1) :: S) ?_ h
    cases l <;> rfl

theorem arrayNewline_ok (cols : List ArrayCol) (hc : cols.any isColumn = true) :
    ∃ i t, Writes (arrayNewline cols) i t ∧ 1 ≤ i ∧ i ≤ cols.length ∧ ncols (cols.take i) = 1 ∧ OpensCell t := by
  have fin : ∀ ls : List Line, ∀ u, (∀ d S, Sc d (.name c!"dtm") S u .text ((c!"mtd", 0) :: S)) →
      OpensCell (c!"<mtd" ++ ((ls.flatMap fun l => solidDashed l c!" class=\"menv-left-solid menv-border-only\"></mtd><mtd"
        c!" class=\"menv-left-dashed menv-border-only\"></mtd><mtd") ++ u)) := by
    intro ls u hu d S x
    obtain ⟨y, h⟩ := lead_sc d S ls x
    exact ⟨y, Sc.append (m' := .name c!"dtm") (S' := (c!"mtr", x) :: S) rfl (h.append (hu _ _))⟩
  rcases leadSeps_len cols hc with ⟨h0, a, r, rfl⟩ | ⟨a, r, p, l, e, hp, hn⟩
  · cases r with
    | nil =>
      refine ⟨1, ?_⟩
      apply Writes.ex
      · unfold arrayNewline
        apply Writes.bind (Writes.out _)
        apply Writes.bind (Writes.out _)
        rw [h0]
        exact Writes.bind (Writes.out _) (Writes.pure _)
      refine ⟨by simp, by simp, rfl, ?_⟩
      · rw [List.append_nil]
        exact fin _ _ fun d S => by cases a <;> rfl
    | cons b r =>
      cases b with
      | separator l =>
        refine ⟨2, ?_⟩
        apply Writes.ex
        · unfold arrayNewline
          apply Writes.bind (Writes.out _)
          apply Writes.bind (Writes.out _)
          rw [h0]
          exact Writes.bind (Writes.out _) (Writes.pure _)
        refine ⟨by simp, by simp, rfl, ?_⟩
        · rw [List.append_nil]
          exact fin _ _ fun d S => by cases a <;> cases l <;> rfl
      | column b =>
        refine ⟨1, ?_⟩
        apply Writes.ex
        · unfold arrayNewline
          apply Writes.bind (Writes.out _)
          apply Writes.bind (Writes.out _)
          rw [h0]
          exact Writes.bind (Writes.out _) (Writes.pure _)
        refine ⟨by simp, by simp, rfl, ?_⟩
        · rw [List.append_nil]
          exact fin _ _ fun d S => by cases a <;> rfl
  · have g0 : cols[p.length]? = some (.separator l) := by rw [e]; simp
    have g1 : cols[p.length + 1]? = some (.column a) := by rw [e]; simp
    have g2 : cols[p.length + 2]? = r[0]? := by rw [e]; simp [List.getElem?_append_right]
    have hlen : cols.length = p.length + 2 + r.length := by rw [e]; simp; omega
    have tk : ∀ j, ncols (cols.take (p.length + 2 + j)) = 1 + ncols (r.take j) := by
      intro j
      rw [e, List.take_append]
      have : p.length + 2 + j - p.length = j + 2 := by omega
      rw [this, List.take_of_length_le (by omega), ncols, List.countP_append]
      simp only [List.take_succ_cons, List.countP_cons, isColumn]
      have : List.countP isColumn p = 0 := hn
      rw [this]
      simp [ncols]; omega
    have k2 : (∀ l', r[0]? ≠ some (.separator l')) →
        ∃ i t, Writes (arrayNewline cols) i t ∧ 1 ≤ i ∧ i ≤ cols.length ∧ ncols (cols.take i) = 1 ∧ OpensCell t := by
      intro hr
      refine ⟨p.length + 2, ?_⟩
      apply Writes.ex
      · unfold arrayNewline
        apply Writes.bind (Writes.out _)
        apply Writes.bind (Writes.out _)
        rw [← hp]
        dsimp only
        rw [g0, g1]
        dsimp only
        apply Writes.bind (Writes.out _)
        rw [g2]
        split
        · rename_i h; exact absurd h (hr _)
        · exact Writes.bind (Writes.out _) (Writes.pure _)
      refine ⟨by omega, by omega, tk 0, ?_⟩
      · rw [List.append_nil]
        exact fin _ _ fun d S => by cases a <;> cases l <;> rfl
    cases hr : r with
    | nil => exact k2 (by rw [hr]; rintro l' ⟨⟩)
    | cons b r' =>
      cases b with
      | column b => exact k2 (by rw [hr]; rintro l' ⟨⟩)
      | separator l' =>
        refine ⟨p.length + 3, ?_⟩
        apply Writes.ex
        · unfold arrayNewline
          apply Writes.bind (Writes.out _)
          apply Writes.bind (Writes.out _)
          rw [← hp]
          dsimp only
          rw [g0, g1]
          dsimp only
          apply Writes.bind (Writes.out _)
          rw [g2, hr]
          exact Writes.bind (Writes.out _) (Writes.pure _)
        refine ⟨by omega, by rw [hlen, hr]; simp; omega, ?_, ?_⟩
        · rw [tk 1, hr]; rfl
        · rw [List.append_nil]
          exact fin _ _ fun d S => by cases a <;> cases l <;> cases l' <;> rfl

/-- The current cell is closed and another one opened. -/
def NextCell (t : Str) : Prop := ∀ d S x y, ∃ z, Sc d .text ((c!"mtd", x) :: (c!"mtr", y) :: S) t .text
  ((c!"mtd", 0) :: (c!"mtr", z) :: S)

theorem seps_len : ∀ cols : List ArrayCol, cols.any isColumn = true →
    ∃ a r p, cols = p ++ .column a :: r ∧ p.length = (seps cols).length ∧ ncols p = 0
  | [], h => by cases h
  | .column a :: r, _ => ⟨a, r, [], rfl, by unfold seps; rfl, rfl⟩
  | .separator l :: r, h => by
    obtain ⟨a, r', p, e, h1, h2⟩ := seps_len r h
    refine ⟨a, r', .separator l :: p, by rw [e]; rfl, ?_, ?_⟩
    · rw [seps]; simp [h1]
    · simpa [ncols, isColumn] using h2

theorem arrayAlign_ok (cols : List ArrayCol) (i : Nat) (hi : i ≤ cols.length) (hc : ncols (cols.take i) < ncols cols) :
    ∃ i' t, Writes (arrayAlign cols i) i' t ∧ i < i' ∧ i' ≤ cols.length ∧ ncols (cols.take i') = ncols (cols.take i) + 1 ∧
      NextCell t := by
  have fin : ∀ ls : List Line, ∀ u, (∀ d S, Sc d (.name c!"dtm") S u .text ((c!"mtd", 0) :: S)) →
      NextCell (c!"</mtd><mtd" ++ ((ls.flatMap fun l => solidDashed l c!" class=\"menv-right-solid menv-border-only\"></mtd><mtd"
        c!" class=\"menv-right-dashed menv-border-only\"></mtd><mtd") ++ u)) := by
    intro ls u hu d S x y
    obtain ⟨z, h⟩ := align_sc d S ls (y + 1)
    exact ⟨z, Sc.append (m' := .name c!"dtm") (S' := (c!"mtr", y + 1) :: S) rfl (h.append (hu _ _))⟩
  have ha : (cols.drop i).any isColumn = true := by
    have : ncols cols = ncols (cols.take i) + ncols (cols.drop i) := by
      rw [ncols, ncols, ncols, ← List.countP_append, List.take_append_drop]
    have h0 : 0 < ncols (cols.drop i) := by omega
    rw [List.any_eq_true]
    obtain ⟨c, h1, h2⟩ := List.countP_pos_iff.1 h0
    exact ⟨c, h1, h2⟩
  obtain ⟨a, r, p, e, hp, hn⟩ := seps_len _ ha
  have ge : ∀ j, cols[i + j]? = (cols.drop i)[j]? := fun j => by rw [List.getElem?_drop]
  have g0 : cols[i + p.length]? = some (.column a) := by rw [ge, e]; simp
  have g1 : cols[i + p.length + 1]? = r[0]? := by rw [Nat.add_assoc, ge, e]; simp [List.getElem?_append_right]
  have hlen : cols.length = i + p.length + 1 + r.length := by
    have := congrArg List.length e
    simp at this
    omega
  have tk : ∀ j, ncols (cols.take (i + (p.length + 1 + j))) = ncols (cols.take i) + 1 + ncols (r.take j) := by
    intro j
    rw [List.take_add, e, List.take_append (l₁ := p)]
    have : p.length + 1 + j - p.length = j + 1 := by omega
    rw [this, List.take_of_length_le (l := p) (by omega), ncols, List.countP_append, List.countP_append]
    simp only [List.take_succ_cons, List.countP_cons, isColumn]
    have : List.countP isColumn p = 0 := hn
    rw [this]
    simp [ncols]; omega
  have wr : ∀ m j u, Writes m j u → m = (match cols[i + p.length]?, cols[i + p.length + 1]? with
    | none, _ => W.boom .index
    | some (.column a), some (.separator l) => do
      W.out (colSepStr a l)
      return i + p.length + 2
    | some (.column a), _ => do
      W.out (colStr a)
      return i + p.length + 1
    | some (.separator _), _ => W.boom .explicit) →
    Writes (arrayAlign cols i) j (c!"</mtd><mtd" ++ (((seps (cols.drop i)).flatMap fun l =>
      solidDashed l c!" class=\"menv-right-solid menv-border-only\"></mtd><mtd"
        c!" class=\"menv-right-dashed menv-border-only\"></mtd><mtd") ++ u)) := by
    intro m j u hm he
    unfold arrayAlign
    apply Writes.bind (Writes.out _)
    rw [if_neg (by omega)]
    apply Writes.bind (Writes.out _)
    subst he
    rw [hp] at hm
    exact hm
  rw [g0, g1] at wr
  have k1 : (∀ l', r[0]? ≠ some (.separator l')) → _ := fun hr => show
    ∃ i' t, Writes (arrayAlign cols i) i' t ∧ i < i' ∧ i' ≤ cols.length ∧ ncols (cols.take i') = ncols (cols.take i) + 1 ∧
      NextCell t from by
    refine ⟨i + (p.length + 1), _, wr _ _ (colStr a ++ []) ?_ rfl, by omega, by omega, tk 0, ?_⟩
    · split
      · rename_i h; cases h
      · rename_i h; exact absurd h (hr _)
      · rename_i a' h _
        cases h
        exact Writes.bind (Writes.out _) (Writes.pure _)
      · rename_i h; cases h
    · rw [List.append_nil]
      exact fin _ _ fun d S => by cases a <;> rfl
  cases hr : r with
  | nil => exact k1 (by rw [hr]; rintro l' ⟨⟩)
  | cons b r' =>
    cases b with
    | column b => exact k1 (by rw [hr]; rintro l' ⟨⟩)
    | separator l' =>
      refine ⟨i + (p.length + 1 + 1), _, wr _ _ (colSepStr a l' ++ []) ?_ rfl, by omega, by rw [hlen, hr]; simp; omega, ?_, ?_⟩
      · rw [hr]
        exact Writes.bind (Writes.out _) (Writes.pure _)
      · rw [tk 1, hr]; rfl
      · rw [List.append_nil]
        exact fin _ _ fun d S => by cases a <;> cases l' <;> rfl

theorem arrayCloseLine_ok (cols : List ArrayCol) (i : Nat) (hi : i ≤ cols.length) :
    ∃ t, Writes (arrayCloseLine cols i) ⟨⟩ t ∧ ∀ d S x y z, Sc d .text ((c!"mtd", x) :: (c!"mtr", y) :: (c!"mtable", z) :: S) t
      (.name c!"rtm") ((c!"mtable", z + 1) :: S) := by
  apply Writes.ex
  · unfold arrayCloseLine
    rw [if_neg (by omega)]
    apply Writes.bind (Writes.out _)
    exact Writes.bind (Writes.out _) (Writes.out _)
  · intro d S x y z
    obtain ⟨w, h⟩ := closeSeps_sc d ((c!"mtable", z) :: S) (seps (cols.drop i)) (y + 1)
    exact Sc.append (m' := .text) (S' := (c!"mtr", y + 1) :: (c!"mtable", z) :: S) rfl (h.append rfl)

/-- `k` alignments lead from one column to another. -/
inductive Steps (cols : List ArrayCol) : Nat → Nat → Nat → Prop
  | zero {i} : Steps cols 0 i i
  | succ {k i i' j t} : Writes (arrayAlign cols i) i' t → NextCell t → i < i' → Steps cols k i' j → Steps cols (k + 1) i j

theorem Steps.le {cols : List ArrayCol} {k i j : Nat} (h : Steps cols k i j) : i + k ≤ j := by
  induction h with
  | zero => omega
  | succ _ _ h _ ih => omega

theorem Steps.snoc {cols : List ArrayCol} {k i j j' : Nat} {t : Str} (h : Steps cols k i j) (h1 : Writes (arrayAlign cols j) j' t)
    (h2 : NextCell t) (h3 : j < j') : Steps cols (k + 1) i j' := by
  induction h with
  | zero => exact .succ h1 h2 h3 .zero
  | succ a b c _ ih => exact .succ a b c (ih h1 h3)

theorem Steps.run {cols : List ArrayCol} {k i j : Nat} (h : Steps cols k i j) : ∀ n, j < n + i →
    ∃ t, Writes (alignUpTo cols j n i) j t ∧ ∀ d S x y, ∃ x' z, Sc d .text ((c!"mtd", x) :: (c!"mtr", y) :: S) t .text
      ((c!"mtd", x') :: (c!"mtr", z) :: S) := by
  induction h with
  | @zero i =>
    intro n hn
    cases n with
    | zero => omega
    | succ n =>
      refine ⟨[], ?_, fun d S x y => ⟨x, y, rfl⟩⟩
      rw [alignUpTo, if_neg (by omega)]
      exact .pure _
  | @succ k i i' j t h1 h2 h3 h4 ih =>
    intro n hn
    have := h4.le
    cases n with
    | zero => omega
    | succ n =>
      obtain ⟨u, hu, hs⟩ := ih n (by omega)
      apply Writes.ex
      · rw [alignUpTo, if_pos (by omega)]
        exact h1.bind hu
      · intro d S x y
        obtain ⟨z, hz⟩ := h2 d S x y
        obtain ⟨x', z', h'⟩ := hs d S 0 z
        exact ⟨x', z', hz.append h'⟩

/-- The index of the next column after `k` alignments in a line. -/
structure At (cols : List ArrayCol) (k i : Nat) : Prop where
  le : i ≤ cols.length
  count : ncols (cols.take i) = k + 1
  steps : ∃ i0 t, Writes (arrayNewline cols) i0 t ∧ OpensCell t ∧ Steps cols k i0 i

theorem At.start (cols : List ArrayCol) (hc : cols.any isColumn = true) :
    ∃ i t, Writes (arrayNewline cols) i t ∧ OpensCell t ∧ At cols 0 i := by
  obtain ⟨i, t, h1, _, h3, h4, h5⟩ := arrayNewline_ok cols hc
  exact ⟨i, t, h1, h5, h3, h4, i, t, h1, h5, .zero⟩

theorem At.next {cols : List ArrayCol} {k i : Nat} (h : At cols k i) (hk : k < ncols cols - 1) :
    ∃ i' t, Writes (arrayAlign cols i) i' t ∧ NextCell t ∧ At cols (k + 1) i' := by
  obtain ⟨i', t, h1, h2, h3, h4, h5⟩ := arrayAlign_ok cols i h.le (by have := h.count; omega)
  obtain ⟨i0, u, hu, ho, hs⟩ := h.steps
  exact ⟨i', t, h1, h5, h3, by rw [h4, h.count], i0, u, hu, ho, hs.snoc h1 h5 h2⟩

/-- The line that makes vertical space. -/
theorem At.spacer {cols : List ArrayCol} {k i : Nat} (h : At cols k i) :
    ∃ t, Writes (do let j ← arrayNewline cols; let j ← alignUpTo cols i (i + 1) j; arrayCloseLine cols j) ⟨⟩ t ∧
      ∀ d S x z, Sc d .text ((c!"mtr", x) :: (c!"mtable", z) :: S) t (.name c!"rtm") ((c!"mtable", z + 1) :: S) := by
  obtain ⟨i0, u, hu, ho, hs⟩ := h.steps
  obtain ⟨v, hv, hv'⟩ := hs.run (i + 1) (by omega)
  obtain ⟨w, hw, hw'⟩ := arrayCloseLine_ok cols i h.le
  refine ⟨_, hu.bind (hv.bind hw), fun d S x z => ?_⟩
  obtain ⟨y, h1⟩ := ho d ((c!"mtable", z) :: S) x
  obtain ⟨x', z', h2⟩ := hv' d ((c!"mtable", z) :: S) 0 y
  exact h1.append (h2.append (hw' ..))

end PL.Mathml
