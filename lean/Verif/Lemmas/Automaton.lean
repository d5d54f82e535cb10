import Verif.Lemmas.Frames
set_option autoImplicit false
/-! # Properties of the streams that the automaton accepts -/
namespace PL
open Spec

/-! ### Monotonicity in the number of alignments used -/

/-- Same groups, and no more alignments used. -/
def Frame.le : Frame → Frame → Prop
  | .grp g k, .grp g' k' => g = g' ∧ k ≤ k'
  | .need n, .need n' => n = n'
  | _, _ => False

def Le : List Frame → List Frame → Prop
  | [], [] => True
  | a :: F, b :: G => a.le b ∧ Le F G
  | _, _ => False

theorem Frame.le_refl (a : Frame) : a.le a := by cases a <;> simp [Frame.le]
theorem Le.refl : ∀ F, Le F F
  | [] => trivial
  | a :: F => ⟨a.le_refl, Le.refl F⟩

theorem Le.setLvl {st : Bool} {n m : Nat} (h : n ≤ m) : ∀ {F G}, Le F G → Le (setLvl st n F) (setLvl st m G)
  | [], [], _ => trivial
  | .need _ :: F, .need _ :: G, hl => hl
  | .grp g k :: F, .grp g' k' :: G, ⟨⟨e, hk⟩, hl⟩ => by
    subst e
    by_cases hc : (!st && decide (g = .normal)) = true
    · simp only [PL.setLvl, if_pos hc]
      exact ⟨⟨rfl, hk⟩, Le.setLvl h hl⟩
    · simp only [PL.setLvl, if_neg hc]
      exact ⟨⟨rfl, h⟩, hl⟩
  | [], _ :: _, hl => hl.elim
  | _ :: _, [], hl => hl.elim
  | .grp .. :: _, .need _ :: _, hl => hl.1.elim
  | .need .. :: _, .grp .. :: _, hl => hl.1.elim

theorem Le.lvl {st : Bool} : ∀ {F G}, Le F G →
    (lvl st F = none ∧ lvl st G = none) ∨ ∃ g k k', lvl st F = some (g, k) ∧ lvl st G = some (g, k') ∧ k ≤ k'
  | [], [], _ => .inl ⟨rfl, rfl⟩
  | .need _ :: F, .need _ :: G, _ => .inl ⟨rfl, rfl⟩
  | .grp g k :: F, .grp g' k' :: G, ⟨⟨e, hk⟩, hl⟩ => by
    subst e
    by_cases hc : (!st && decide (g = .normal)) = true
    · simp only [PL.lvl, if_pos hc]
      exact Le.lvl hl
    · simp only [PL.lvl, if_neg hc]
      exact .inr ⟨g, k, k', rfl, rfl, hk⟩
  | [], _ :: _, hl => hl.elim
  | _ :: _, [], hl => hl.elim
  | .grp .. :: _, .need _ :: _, hl => hl.1.elim
  | .need .. :: _, .grp .. :: _, hl => hl.1.elim

theorem Le.complete : ∀ {F G}, Le F G → Le (complete F) (complete G)
  | [], [], _ => trivial
  | .need n :: F, .need m :: G, ⟨e, hl⟩ => by
    cases e
    match n with
    | 0 => exact Le.complete (F := F) (G := G) hl
    | 1 => exact Le.complete (F := F) (G := G) hl
    | n + 2 => exact ⟨rfl, hl⟩
  | .grp g k :: F, .grp g' k' :: G, hl => hl
  | [], _ :: _, hl => hl.elim
  | _ :: _, [], hl => hl.elim
  | .grp .. :: _, .need _ :: _, hl => hl.1.elim
  | .need .. :: _, .grp .. :: _, hl => hl.1.elim

theorem Le.fin {st : Bool} {F G : List Frame} (h : Le F G) : Le (fin st F) (fin st G) := by
  cases st
  · exact h
  · exact h.complete

theorem Le.topOk {st : Bool} {F G : List Frame} (h : Le F G) : topOk st F = topOk st G := by
  cases F with
  | nil => cases G with
    | nil => rfl
    | cons => exact h.elim
  | cons a F => cases G with
    | nil => exact h.elim
    | cons b G => cases a <;> cases b <;> first | rfl | exact h.1.elim

theorem Le.acc1 {st : Bool} {F G G' : List Frame} (h : Le F G) {i : Instr} (hi : acc1 st G i = some G') :
    ∃ F', acc1 st F i = some F' ∧ Le F' G' := by
  cases i with
  | sub x al =>
    cases al with
    | none =>
      simp only [PL.acc1] at hi ⊢
      rw [h.topOk]
      split at hi
      · rename_i hc; cases hi; rw [if_pos hc]; exact ⟨_, rfl, h⟩
      · cases hi
    | some a =>
      simp only [PL.acc1] at hi ⊢
      split at hi
      · rename_i hc
        cases hi
        simp only [Bool.and_eq_true] at hc
        rcases h.lvl (st := st) with ⟨_, e2⟩ | ⟨g, k, k', e1, e2, hk⟩
        · have := hc.2; simp only [isCompat, e2] at this; cases this
        · have h2 : isCompat st F a = true := by
            have := hc.2
            simp only [isCompat, e2, e1, Bool.and_eq_true, decide_eq_true_eq] at this ⊢
            exact ⟨⟨⟨this.1.1.1, by omega⟩, this.1.2⟩, this.2⟩
          rw [if_pos (by rw [h.topOk, hc.1, h2]; rfl)]
          refine ⟨_, rfl, ?_⟩
          have : lvlMax st F = lvlMax st G := by unfold lvlMax; rw [e1, e2]
          rw [this]
          exact h.setLvl (Nat.le_refl _)
      · cases hi
  | ev e =>
    cases e with
    | content c => cases hi; exact ⟨_, rfl, h.fin⟩
    | space a b c => cases hi; exact ⟨_, rfl, h.fin⟩
    | stateChange c => cases hi; exact ⟨_, rfl, h.fin⟩
    | begin_ g => cases hi; exact ⟨_, rfl, ⟨rfl, Nat.le_refl _⟩, h⟩
    | end_ =>
      cases G with
      | nil => cases hi
      | cons b G =>
        cases b with
        | need => cases hi
        | grp g k =>
          cases hi
          cases F with
          | nil => exact h.elim
          | cons a F =>
            cases a with
            | need => exact h.1.elim
            | grp g' k' => exact ⟨_, rfl, h.2.fin⟩
    | script ty p =>
      cases hi
      refine ⟨_, rfl, ?_⟩
      split
      · exact ⟨rfl, h⟩
      · exact h
    | visual v =>
      cases hi
      refine ⟨_, rfl, ?_⟩
      split
      · exact ⟨rfl, h⟩
      · exact h
    | flow f =>
      cases f with
      | alignment =>
        simp only [PL.acc1] at hi ⊢
        rcases h.lvl (st := st) with ⟨_, e2⟩ | ⟨g, k, k', e1, e2, hk⟩
        · rw [e2] at hi; cases hi
        · rw [e2] at hi
          rw [e1]
          simp only at hi ⊢
          split at hi
          · rename_i hc
            cases hi
            simp only [Bool.and_eq_true, decide_eq_true_eq] at hc
            rw [if_pos (by simp [hc.1]; omega)]
            exact ⟨_, rfl, h.setLvl (by omega)⟩
          · cases hi
      | newLine sp ls =>
        simp only [PL.acc1] at hi ⊢
        rcases h.lvl (st := st) with ⟨_, e2⟩ | ⟨g, k, k', e1, e2, hk⟩
        · rw [e2] at hi; cases hi
        · rw [e2] at hi
          rw [e1]
          simp only at hi ⊢
          split at hi
          · rename_i hc
            cases hi
            rw [if_pos hc]
            exact ⟨_, rfl, h.setLvl (by omega)⟩
          · cases hi
      | startLines ls =>
        cases G with
        | nil => cases hi
        | cons b G =>
          cases b with
          | need => cases hi
          | grp g k =>
            simp only [PL.acc1] at hi
            cases F with
            | nil => exact h.elim
            | cons a F =>
              cases a with
              | need => exact h.1.elim
              | grp g' k' =>
                have hg : g' = g := h.1.1
                subst hg
                simp only [PL.acc1]
                split at hi
                · rename_i hc
                  cases hi
                  rw [if_pos hc]
                  exact ⟨_, rfl, h⟩
                · cases hi

theorem Le.acc {st : Bool} : ∀ {is : List Instr} {F G G' : List Frame}, Le F G → acc st G is = some G' →
    ∃ F', acc st F is = some F' ∧ Le F' G'
  | [], F, G, G', h, hi => by cases hi; exact ⟨F, rfl, h⟩
  | i :: is, F, G, G', h, hi => by
    unfold PL.acc at hi ⊢
    cases h1 : PL.acc1 st G i with
    | none => rw [h1] at hi; cases hi
    | some G1 =>
      rw [h1] at hi
      obtain ⟨F1, e1, l1⟩ := h.acc1 h1
      rw [e1]
      exact Le.acc l1 hi

/-- Text in which alignments are allowed may be removed. -/
theorem acc_drop {st : Bool} {F : List Frame} {x : Sl} {al : Option AlignCount} {is : List Instr}
    (h : acc st F (.sub x al :: is) = some []) : acc st F is = some [] := by
  unfold acc at h
  cases h1 : acc1 st F (.sub x al) with
  | none => rw [h1] at h; cases h
  | some G =>
    rw [h1] at h
    simp only [Option.bind_some] at h
    cases al with
    | none =>
      simp only [acc1] at h1
      split at h1
      · cases h1; exact h
      · cases h1
    | some a =>
      simp only [acc1] at h1
      split at h1
      · rename_i hc
        cases h1
        simp only [Bool.and_eq_true] at hc
        have hle : Le F (setLvl st (lvlMax st F) F) := by
          have hself : ∀ {F : List Frame} {g k}, lvl st F = some (g, k) → setLvl st k F = F := by
            intro F
            induction F with
            | nil => intro g k h; cases h
            | cons a F ih =>
              intro g k h
              cases a with
              | need => rfl
              | grp g' k' =>
                by_cases hn : (!st && decide (g' = .normal)) = true
                · simp only [lvl, if_pos hn] at h
                  simp only [setLvl, if_pos hn, ih h]
                · simp only [lvl, if_neg hn] at h
                  cases h
                  simp only [setLvl, if_neg hn]
          have hcc := hc.2
          unfold isCompat at hcc
          cases hl : lvl st F with
          | none => rw [hl] at hcc; cases hcc
          | some y =>
            obtain ⟨g, k⟩ := y
            rw [hl] at hcc
            simp only [Bool.and_eq_true, decide_eq_true_eq] at hcc
            have : lvlMax st F = alignments g := by unfold lvlMax; rw [hl]
            rw [this]
            have := Le.setLvl (st := st) (n := k) (m := alignments g) (by omega) (Le.refl F)
            rw [hself hl] at this
            exact this
        obtain ⟨F', e, l⟩ := hle.acc h
        cases F' with
        | nil => exact e
        | cons => exact l.elim
      · cases h1

/-- Text may be replaced by the instructions read from its beginning. -/
theorem acc_replace {st : Bool} {F : List Frame} {x y : Sl} {A A' : Option AlignCount} {d is : List Instr}
    (hs : Shape st A A' d) (h : acc st F (.sub x A :: is) = some []) : acc st F (d ++ .sub y A' :: is) = some [] := by
  unfold acc at h
  cases h1 : acc1 st F (.sub x A) with
  | none => rw [h1] at h; cases h
  | some G =>
    rw [h1] at h
    simp only [Option.bind_some] at h
    have htop : topOk st F = true := by
      cases A with
      | none => simp only [acc1] at h1; split at h1; assumption; cases h1
      | some a =>
        simp only [acc1] at h1
        split at h1
        · rename_i hc; simp only [Bool.and_eq_true] at hc; exact hc.1
        · cases h1
    have hcomp : Compat st F A := by
      cases A with
      | none => trivial
      | some a =>
        simp only [acc1] at h1
        split at h1
        · rename_i hc; simp only [Bool.and_eq_true] at hc; exact hc.2
        · cases h1
    obtain ⟨F', e, hc', hsame, halt⟩ := hs F htop hcomp
    rw [acc_append, e]
    simp only [Option.bind_some]
    unfold acc
    have htop' : topOk st F' = true := by rw [← hsame.topOk]; exact htop
    cases A with
    | none =>
      obtain ⟨rfl, rfl⟩ := halt.none_ rfl
      have h1 : acc1 st F' (.sub y none) = some G := h1
      rw [h1]
      exact h
    | some a =>
      cases A' with
      | none => exact absurd rfl (halt.some_ (by simp))
      | some a' =>
        have hc'' : isCompat st F' a' = true := hc'
        simp only [acc1, htop', hc'', Bool.and_self, if_true, Option.bind_some]
        simp only [acc1, htop, show isCompat st F a = true from hcomp, Bool.and_self, if_true] at h1
        cases h1
        have hm : lvlMax st F' = lvlMax st F := by
          have : ∀ {F : List Frame} {a}, isCompat st F a = true → ∃ g k, lvl st F = some (g, k) := by
            intro F a h
            unfold isCompat at h
            cases hl : lvl st F with
            | none => rw [hl] at h; cases h
            | some y => exact ⟨y.1, y.2, rfl⟩
          obtain ⟨g, k, e1⟩ := this hcomp
          obtain ⟨g', k', e2⟩ := this hc''
          have e3 := lvl_setLvl (n := 0) e1
          have e4 := lvl_setLvl (n := 0) e2
          rw [halt.set 0, e3] at e4
          cases e4
          unfold lvlMax
          rw [e1, e2]
        rw [hm, halt.set]
        exact h

/-! ### Balance -/

theorem dep_split : ∀ (n : Nat) (es : List Event) (k : Nat), es.length ≤ n → dep (k + 1) (es.map .ev) = some 0 →
    ∃ a b, es = a ++ .end_ :: b ∧ Balanced a ∧ dep k (b.map .ev) = some 0
  | _, [], k, _, h => by simp [dep] at h
  | 0, _ :: _, _, hn, _ => by simp at hn
  | n + 1, e :: es, k, hn, h => by
    simp at hn
    have plain : Plain e → dep (k + 1) (es.map .ev) = some 0 →
        ∃ a b, e :: es = a ++ .end_ :: b ∧ Balanced a ∧ dep k (b.map .ev) = some 0 := by
      intro hp h
      obtain ⟨a, b, rfl, h1, h2⟩ := dep_split n es k hn h
      exact ⟨e :: a, b, rfl, .plain hp h1, h2⟩
    cases e with
    | begin_ g =>
      simp only [List.map_cons, dep] at h
      split at h
      · obtain ⟨a, b, rfl, h1, h2⟩ := dep_split n es (k + 1) hn h
        obtain ⟨a', b', rfl, h3, h4⟩ := dep_split n b k (by simp at hn; omega) h2
        exact ⟨.begin_ g :: (a ++ .end_ :: a'), b', by simp, .group h1 h3, h4⟩
      · cases h
    | end_ => exact ⟨[], es, rfl, .nil, h⟩
    | content => exact plain trivial h
    | space => exact plain trivial h
    | stateChange => exact plain trivial h
    | script => exact plain trivial h
    | visual => exact plain trivial h
    | flow => exact plain trivial h

theorem dep_balanced : ∀ (n : Nat) (es : List Event), es.length ≤ n → dep 0 (es.map .ev) = some 0 → Balanced es
  | _, [], _, _ => .nil
  | 0, _ :: _, hn, _ => by simp at hn
  | n + 1, e :: es, hn, h => by
    simp at hn
    cases e with
    | begin_ g =>
      simp only [List.map_cons, dep] at h
      split at h
      · obtain ⟨a, b, rfl, h1, h2⟩ := dep_split n es 0 hn h
        exact .group h1 (dep_balanced n b (by simp at hn; omega) h2)
      · cases h
    | end_ => cases h
    | content => exact .plain trivial (dep_balanced n es hn h)
    | space => exact .plain trivial (dep_balanced n es hn h)
    | stateChange => exact .plain trivial (dep_balanced n es hn h)
    | script => exact .plain trivial (dep_balanced n es hn h)
    | visual => exact .plain trivial (dep_balanced n es hn h)
    | flow => exact .plain trivial (dep_balanced n es hn h)

/-- Counting the groups. -/
theorem dep_count : ∀ (es : List Event) (k m : Nat), dep k (es.map .ev) = some m → k + begins es = m + ends es
  | [], k, m, h => by cases h; rfl
  | e :: es, k, m, h => by
    cases e with
    | begin_ g =>
      simp only [List.map_cons, dep] at h
      split at h
      · have := dep_count es _ _ h
        simp [begins, ends] at this ⊢
        omega
      · cases h
    | end_ =>
      cases k with
      | zero => cases h
      | succ k =>
        have := dep_count es _ _ h
        simp [begins, ends] at this ⊢
        omega
    | _ =>
      have := dep_count es _ _ h
      simp [begins, ends] at this ⊢
      omega

theorem dep_mono : ∀ (is : List Instr) (k m j : Nat), dep k is = some m → dep (k + j) is = some (m + j)
  | [], k, m, j, h => by cases h; rfl
  | .sub _ _ :: is, k, m, j, h => dep_mono is k m j h
  | .ev e :: is, k, m, j, h => by
    cases e with
    | begin_ g =>
      simp only [dep] at h ⊢
      split at h
      · rename_i hc
        rw [if_pos hc, show k + j + 1 = k + 1 + j by omega]
        exact dep_mono is _ _ _ h
      · cases h
    | end_ =>
      cases k with
      | zero => cases h
      | succ k =>
        rw [show k + 1 + j = (k + j) + 1 by omega]
        exact dep_mono is _ _ _ h
    | _ => exact dep_mono is k m j h

theorem dep_array {es : List Event} {k m : Nat} (h : dep k (es.map .ev) = some m) : ∀ g, .begin_ g ∈ es → beginOk g = true := by
  induction es generalizing k with
  | nil => simp
  | cons e es ih =>
    intro g hg
    cases e with
    | begin_ g' =>
      simp only [List.map_cons, dep] at h
      split at h
      · rename_i hc
        simp at hg
        rcases hg with rfl | hg
        · exact hc
        · exact ih h g hg
      · cases h
    | end_ =>
      cases k with
      | zero => cases h
      | succ k => simp at hg; exact ih h g hg
    | _ => simp at hg; exact ih h g hg

/-! ### Operands -/

/-- Events that begin an element. -/
def Starts : Event → Prop
  | .flow _ => False
  | .end_ => False
  | _ => True

theorem acc_parse : ∀ (N : Nat),
    (∀ (e : Event) (es : List Event) F, es.length < N → Starts e → acc true F ((e :: es).map .ev) = some [] →
      ∃ a b, e :: es = a ++ b ∧ a ≠ [] ∧ WF .elem a ∧ acc true (complete F) (b.map .ev) = some []) ∧
    (∀ (es : List Event) n F, es.length < N → acc true (.need (n + 1) :: F) (es.map .ev) = some [] →
      ∃ a b, es = a ++ b ∧ WF (.elems (n + 1)) a ∧ acc true (complete F) (b.map .ev) = some []) ∧
    (∀ (es : List Event) g k F, es.length < N → acc true (.grp g k :: F) (es.map .ev) = some [] →
      ∃ a b, es = a ++ .end_ :: b ∧ WF .body a ∧ acc true (complete F) (b.map .ev) = some []) ∧
    (∀ (es : List Event), es.length < N → acc true [] (es.map .ev) = some [] → WF .body es)
  | 0 => ⟨fun _ _ _ h => by omega, fun _ _ _ h => by omega, fun _ _ _ _ h => by omega, fun _ h => by omega⟩
  | N + 1 => by
    obtain ⟨p0, p1, p2, p3⟩ := acc_parse N
    have q0 : ∀ (e : Event) (es : List Event) F, es.length < N + 1 → Starts e → acc true F ((e :: es).map .ev) = some [] →
        ∃ a b, e :: es = a ++ b ∧ a ≠ [] ∧ WF .elem a ∧ acc true (complete F) (b.map .ev) = some [] := by
      intro e es F hn hs h
      by_cases hlt : es.length < N
      · exact p0 e es F hlt hs h
      have hneed : ∀ n, acc true (.need (n + 1) :: F) (es.map .ev) = some [] → (∀ ds, WF (.elems (n + 1)) ds → WF .elem (e :: ds)) →
          ∃ a b, e :: es = a ++ b ∧ a ≠ [] ∧ WF .elem a ∧ acc true (complete F) (b.map .ev) = some [] := by
        intro n h hw
        cases es with
        | nil => cases h
        | cons x xs =>
          -- the first operand
          have hx : Starts x := by
            cases x with
            | flow f => cases f <;> cases h
            | end_ => cases h
            | _ => trivial
          obtain ⟨a, b, e1, ha, w1, h1⟩ := p0 x xs (.need (n + 1) :: F) (by simp at hn; omega) hx h
          have hb : b.length < N := by
            have := congrArg List.length e1
            have := List.length_pos_iff.2 ha
            simp at *; omega
          match n with
          | 0 =>
            refine ⟨e :: a, b, by rw [e1]; rfl, by simp, hw a ?_, h1⟩
            have := WF.cons w1 WF.nil
            rwa [List.append_nil] at this
          | n + 1 =>
            obtain ⟨a2, b2, rfl, w2, h2⟩ := p1 b n F hb h1
            exact ⟨e :: (a ++ a2), b2, by rw [e1]; simp, by simp, hw _ (.cons w1 w2), h2⟩
      cases e with
      | content c => exact ⟨[_], es, rfl, by simp, .simple trivial, h⟩
      | space a b c => exact ⟨[_], es, rfl, by simp, .simple trivial, h⟩
      | stateChange c => exact ⟨[_], es, rfl, by simp, .simple trivial, h⟩
      | end_ => exact hs.elim
      | flow => exact hs.elim
      | begin_ g =>
        have h : acc true (.grp g 0 :: F) (es.map .ev) = some [] := h
        -- the group is opened
        have : ∀ (m : Nat) (es : List Event) k, es.length ≤ m → es.length ≤ N → acc true (.grp g k :: F) (es.map .ev) = some [] →
            ∃ a b, es = a ++ .end_ :: b ∧ WF .body a ∧ acc true (complete F) (b.map .ev) = some [] := by
          intro m
          induction m with
          | zero =>
            intro es k h0 _ h
            cases es with
            | nil => cases h
            | cons => simp at h0
          | succ m ih =>
            intro es k h0 hN h
            cases es with
            | nil => cases h
            | cons x xs =>
              simp at h0 hN
              by_cases hx : Starts x
              · obtain ⟨a, b, e1, ha, w1, h1⟩ := p0 x xs _ (by omega) hx h
                have hb : b.length ≤ xs.length := by
                  have := congrArg List.length e1
                  have := List.length_pos_iff.2 ha
                  simp at *; omega
                obtain ⟨a2, b2, rfl, w2, h2⟩ := ih b k (by omega) (by omega) h1
                exact ⟨a ++ a2, b2, by rw [e1]; simp, .element w1 w2, h2⟩
              · cases x with
                | end_ => exact ⟨[], xs, rfl, .empty, h⟩
                | flow f =>
                  have : ∃ k', acc true (.grp g k' :: F) (xs.map .ev) = some [] := by
                    cases f with
                    | alignment =>
                      simp only [List.map_cons, acc, acc1, lvl, setLvl, Bool.not_true, Bool.false_and, Bool.false_eq_true, if_false] at h
                      split at h
                      · exact ⟨_, h⟩
                      · cases h
                    | newLine =>
                      simp only [List.map_cons, acc, acc1, lvl, setLvl, Bool.not_true, Bool.false_and, Bool.false_eq_true, if_false] at h
                      split at h
                      · exact ⟨_, h⟩
                      · cases h
                    | startLines =>
                      simp only [List.map_cons, acc, acc1] at h
                      split at h
                      · exact ⟨_, h⟩
                      · cases h
                  obtain ⟨k', h⟩ := this
                  obtain ⟨a2, b2, rfl, w2, h2⟩ := ih xs k' (by omega) (by omega) h
                  exact ⟨.flow f :: a2, b2, rfl, .flow w2, h2⟩
                | _ => exact absurd trivial hx
        obtain ⟨a, b, rfl, w, h2⟩ := this es.length es 0 (Nat.le_refl _) (by omega) h
        exact ⟨.begin_ g :: (a ++ [.end_]), b, by simp, by simp, .group w, h2⟩
      | script ty p =>
        cases ty <;> exact hneed _ h fun ds w => .script w
      | visual v =>
        cases v <;> exact hneed _ h fun ds w => .visual w
    have q1 : ∀ (es : List Event) n F, es.length < N + 1 → acc true (.need (n + 1) :: F) (es.map .ev) = some [] →
        ∃ a b, es = a ++ b ∧ WF (.elems (n + 1)) a ∧ acc true (complete F) (b.map .ev) = some [] := by
      intro es n F hn h
      cases es with
      | nil => cases h
      | cons x xs =>
        have hx : Starts x := by
          cases x with
          | flow f => cases f <;> cases h
          | end_ => cases h
          | _ => trivial
        obtain ⟨a, b, e1, ha, w1, h1⟩ := q0 x xs _ (by simp at hn; omega) hx h
        have hb : b.length < N := by
          have := congrArg List.length e1
          have := List.length_pos_iff.2 ha
          simp at *; omega
        match n with
        | 0 =>
          refine ⟨a, b, e1, ?_, h1⟩
          have := WF.cons w1 WF.nil
          rwa [List.append_nil] at this
        | n + 1 =>
          obtain ⟨a2, b2, rfl, w2, h2⟩ := p1 b n F hb h1
          exact ⟨a ++ a2, b2, by rw [e1]; simp, .cons w1 w2, h2⟩
    have q2 : ∀ (es : List Event) g k F, es.length < N + 1 → acc true (.grp g k :: F) (es.map .ev) = some [] →
        ∃ a b, es = a ++ .end_ :: b ∧ WF .body a ∧ acc true (complete F) (b.map .ev) = some [] := by
      intro es g k F hn h
      cases es with
      | nil => cases h
      | cons x xs =>
        simp at hn
        by_cases hx : Starts x
        · obtain ⟨a, b, e1, ha, w1, h1⟩ := q0 x xs _ (by omega) hx h
          have hb : b.length < N := by
            have := congrArg List.length e1
            have := List.length_pos_iff.2 ha
            simp at *; omega
          obtain ⟨a2, b2, rfl, w2, h2⟩ := p2 b g k F hb h1
          exact ⟨a ++ a2, b2, by rw [e1]; simp, .element w1 w2, h2⟩
        · cases x with
          | end_ => exact ⟨[], xs, rfl, .empty, h⟩
          | flow f =>
            have : ∃ k', acc true (.grp g k' :: F) (xs.map .ev) = some [] := by
              cases f with
              | alignment =>
                simp only [List.map_cons, acc, acc1, lvl, setLvl, Bool.not_true, Bool.false_and, Bool.false_eq_true, if_false] at h
                split at h
                · exact ⟨_, h⟩
                · cases h
              | newLine =>
                simp only [List.map_cons, acc, acc1, lvl, setLvl, Bool.not_true, Bool.false_and, Bool.false_eq_true, if_false] at h
                split at h
                · exact ⟨_, h⟩
                · cases h
              | startLines =>
                simp only [List.map_cons, acc, acc1] at h
                split at h
                · exact ⟨_, h⟩
                · cases h
            obtain ⟨k', h⟩ := this
            obtain ⟨a2, b2, rfl, w2, h2⟩ := p2 xs g k' F (by omega) h
            exact ⟨.flow f :: a2, b2, rfl, .flow w2, h2⟩
          | _ => exact absurd trivial hx
    refine ⟨q0, q1, q2, ?_⟩
    intro es hn h
    cases es with
    | nil => exact .empty
    | cons x xs =>
      simp at hn
      have hx : Starts x := by
        cases x with
        | flow f => cases f <;> cases h
        | end_ => cases h
        | _ => trivial
      obtain ⟨a, b, e1, ha, w1, h1⟩ := q0 x xs _ (by omega) hx h
      have hb : b.length < N := by
        have := congrArg List.length e1
        have := List.length_pos_iff.2 ha
        simp at *; omega
      rw [e1]
      exact .element w1 (p3 b hb h1)

theorem acc_wf {es : List Event} (h : acc true [] (es.map .ev) = some []) : WF .body es :=
  (acc_parse (es.length + 1)).2.2.2 es (by omega) h

/-! ### Alignments -/

/-- The open groups among the frames. -/
def groups (F : List Frame) : List (Grouping × Nat) := F.filterMap fun f => match f with
  | .grp g k => some (g, k)
  | .need _ => none

theorem groups_complete : ∀ F, groups (complete F) = groups F
  | [] => rfl
  | .grp .. :: _ => rfl
  | .need 0 :: F => by simp only [complete]; rw [groups_complete F]; rfl
  | .need 1 :: F => by simp only [complete]; rw [groups_complete F]; rfl
  | .need (n + 2) :: F => rfl

theorem groups_fin (st : Bool) (F : List Frame) : groups (fin st F) = groups F := by
  cases st
  · rfl
  · exact groups_complete F

theorem groups_lvl {st : Bool} {g : Grouping} {k : Nat} : ∀ {F}, lvl st F = some (g, k) →
    level (!st) (groups F) = some (g, k) ∧ ∀ n (f : Grouping × Nat → Grouping × Nat), f (g, k) = (g, n) →
      groups (setLvl st n F) = atLevel (!st) f (groups F)
  | [], h => by cases h
  | .need _ :: F, h => by cases h
  | .grp g' k' :: F, h => by
    have hg : ∀ F, groups (.grp g' k' :: F) = (g', k') :: groups F := fun _ => rfl
    by_cases hc : (!st && decide (g' = .normal)) = true
    · simp only [lvl, if_pos hc] at h
      obtain ⟨h1, h2⟩ := groups_lvl h
      refine ⟨by rw [hg]; simp only [level, if_pos hc]; exact h1, ?_⟩
      intro n f hf
      simp only [setLvl, if_pos hc, hg, atLevel]
      rw [h2 n f hf]
    · simp only [lvl, if_neg hc] at h
      cases h
      refine ⟨by rw [hg]; simp only [level, if_neg hc], ?_⟩
      intro n f hf
      simp only [setLvl, if_neg hc, hg, atLevel, hf]
      rfl

theorem acc1_level {st : Bool} {F F' : List Frame} {e : Event} (h : acc1 st F (.ev e) = some F') :
    groups F' = levelStep (!st) (groups F) e ∧
    (match e with
      | .flow .alignment => ∃ g k, level (!st) (groups F) = some (g, k) ∧ g.isMathEnv = true ∧ k < alignments g
      | .flow (.newLine _ _) => ∃ g k, level (!st) (groups F) = some (g, k) ∧ g.isMathEnv = true
      | .flow (.startLines _) => ∃ g k, level false (groups F) = some (g, k) ∧ g.isMathEnv = true
      | _ => True) := by
  cases e with
  | content => cases h; exact ⟨groups_fin st F, trivial⟩
  | space => cases h; exact ⟨groups_fin st F, trivial⟩
  | stateChange => cases h; exact ⟨groups_fin st F, trivial⟩
  | begin_ g => cases h; exact ⟨rfl, trivial⟩
  | end_ =>
    cases F with
    | nil => cases h
    | cons a F => cases a with
      | need => cases h
      | grp => cases h; exact ⟨groups_fin st F, trivial⟩
  | script ty p => cases h; refine ⟨?_, trivial⟩; split <;> rfl
  | visual v => cases h; refine ⟨?_, trivial⟩; split <;> rfl
  | flow f =>
    cases f with
    | alignment =>
      simp only [acc1] at h
      cases hl : lvl st F with
      | none => rw [hl] at h; cases h
      | some y =>
        obtain ⟨g, k⟩ := y
        rw [hl] at h
        simp only at h
        split at h
        · rename_i hc
          cases h
          simp only [Bool.and_eq_true, decide_eq_true_eq] at hc
          obtain ⟨h1, h2⟩ := groups_lvl hl
          exact ⟨h2 (k + 1) _ rfl, g, k, h1, hc.1, hc.2⟩
        · cases h
    | newLine =>
      simp only [acc1] at h
      cases hl : lvl st F with
      | none => rw [hl] at h; cases h
      | some y =>
        obtain ⟨g, k⟩ := y
        rw [hl] at h
        simp only at h
        split at h
        · rename_i hc
          cases h
          obtain ⟨h1, h2⟩ := groups_lvl hl
          exact ⟨h2 0 _ rfl, g, k, h1, hc⟩
        · cases h
    | startLines =>
      cases F with
      | nil => cases h
      | cons a F => cases a with
        | need => cases h
        | grp g k =>
          simp only [acc1] at h
          split at h
          · rename_i hc
            cases h
            exact ⟨rfl, g, k, rfl, hc⟩
          · cases h

theorem acc_levels {st : Bool} : ∀ {es : List Event} {F F' : List Frame}, acc st F (es.map .ev) = some F' →
    groups F' = es.foldl (levelStep (!st)) (groups F)
  | [], F, F', h => by cases h; rfl
  | e :: es, F, F', h => by
    simp only [List.map_cons, acc] at h
    cases h1 : acc1 st F (.ev e) with
    | none => rw [h1] at h; cases h
    | some F1 =>
      rw [h1] at h
      have := acc_levels (st := st) (es := es) h
      rw [this, (acc1_level h1).1]
      rfl

theorem acc_flows {st : Bool} {es : List Event} {F : List Frame} (h : acc st [] (es.map .ev) = some F) :
    FlowsAllowed (!st) es := by
  have key : ∀ pre e post, es = pre ++ e :: post → ∃ G G', acc1 st G (.ev e) = some G' ∧ groups G = levels (!st) pre := by
    rintro pre e post rfl
    rw [List.map_append, acc_append] at h
    cases h1 : acc st [] (pre.map .ev) with
    | none => rw [h1] at h; cases h
    | some G =>
      rw [h1] at h
      simp only [Option.bind_some, List.map_cons, acc] at h
      cases h2 : acc1 st G (.ev e) with
      | none => rw [h2] at h; cases h
      | some G' => exact ⟨G, G', h2, acc_levels h1⟩
  refine ⟨?_, ?_, ?_⟩
  · intro pre post he
    obtain ⟨G, G', h1, h2⟩ := key pre _ post he
    have := (acc1_level h1).2
    rw [h2] at this
    exact this
  · intro pre post sp ls he
    obtain ⟨G, G', h1, h2⟩ := key pre _ post he
    have := (acc1_level h1).2
    rw [h2] at this
    exact this
  · intro pre post ls he
    obtain ⟨G, G', h1, h2⟩ := key pre _ post he
    have := (acc1_level h1).2
    rw [h2] at this
    exact this

end PL
