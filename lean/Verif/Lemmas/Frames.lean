import Verif.Model.Primitives
import Verif.Spec.Stream
set_option autoImplicit false
/-!
# Instruction lists as programs of a stack automaton

`acc st` runs over a list of instructions, keeping the open groups and, if `st` is set, the script and visual
events whose operands are still expected. Unparsed text is neutral inside a group.
-/
namespace PL
open Spec

/-- Arrays have a column. -/
def beginOk : Grouping → Bool
  | .array cols => cols.any isColumn
  | _ => true

/-- Number of open groups after some instructions, if no group is closed that was not opened and every array
has a column. -/
def dep : Nat → List Instr → Option Nat
  | k, [] => some k
  | k, .ev (.begin_ g) :: is => if beginOk g then dep (k + 1) is else none
  | 0, .ev .end_ :: _ => none
  | k + 1, .ev .end_ :: is => dep k is
  | k, _ :: is => dep k is

/-- Never closes a group it did not open, and leaves `j` groups open. -/
def Opens (j : Nat) (d : List Instr) : Prop := ∀ k, dep k d = some (k + j)
def Flat (d : List Instr) : Prop := Opens 0 d
def Grow (d : List Instr) : Prop := ∃ j, Opens j d

theorem dep_append : ∀ (a b : List Instr) (k : Nat), dep k (a ++ b) = (dep k a).bind fun k => dep k b
  | [], _, _ => rfl
  | .sub _ _ :: a, b, k => by simp only [List.cons_append, dep]; exact dep_append a b k
  | .ev e :: a, b, k => by
    cases e with
    | begin_ g =>
      simp only [List.cons_append, dep]
      split
      · exact dep_append a b _
      · rfl
    | end_ =>
      cases k with
      | zero => simp [dep]
      | succ k => simp only [List.cons_append, dep]; exact dep_append a b _
    | _ => simp only [List.cons_append, dep]; exact dep_append a b _

theorem Opens.append {i j : Nat} {a b : List Instr} (ha : Opens i a) (hb : Opens j b) : Opens (i + j) (a ++ b) := by
  intro k
  rw [dep_append, ha k]
  simp only [Option.bind_some]
  rw [hb, Nat.add_assoc]

theorem Flat.append {a b : List Instr} (ha : Flat a) (hb : Flat b) : Flat (a ++ b) := Opens.append ha hb
theorem Flat.grow {a : List Instr} (ha : Flat a) : Grow a := ⟨0, ha⟩
theorem Grow.append {a b : List Instr} (ha : Grow a) (hb : Grow b) : Grow (a ++ b) := by
  obtain ⟨i, ha⟩ := ha
  obtain ⟨j, hb⟩ := hb
  exact ⟨_, ha.append hb⟩
theorem Flat.nil : Flat [] := fun _ => rfl
theorem Grow.nil : Grow [] := Flat.nil.grow

/-- Opened and closed again. -/
theorem Flat.wrap {g : Grouping} {a : List Instr} (ha : Flat a) (hg : beginOk g = true := by rfl) : Flat (.ev (.begin_ g) :: (a ++ [.ev .end_])) := by
  intro k
  have := ha (k + 1)
  simp only [dep, hg, if_true]
  rw [dep_append, this]
  rfl

theorem Flat.cons {e : Event} (h : Plain e) {a : List Instr} (ha : Flat a) : Flat (.ev e :: a) := by
  intro k
  have := ha k
  cases e <;> first | exact h.elim | (simp only [dep]; exact this)
theorem Flat.sub {x : Sl} {al : Option AlignCount} {a : List Instr} (ha : Flat a) : Flat (.sub x al :: a) := ha
theorem Grow.begin {g : Grouping} {a : List Instr} (ha : Grow a) (hg : beginOk g = true := by rfl) : Grow (.ev (.begin_ g) :: a) := by
  obtain ⟨i, ha⟩ := ha
  refine ⟨i + 1, fun k => ?_⟩
  simp only [dep, hg, if_true]
  rw [ha]; congr 1; omega
theorem Grow.cons {e : Event} (h : Plain e) {a : List Instr} (ha : Grow a) : Grow (.ev e :: a) := by
  obtain ⟨i, ha⟩ := ha
  refine ⟨i, fun k => ?_⟩
  have := ha k
  cases e <;> first | exact h.elim | (simp only [dep]; exact this)

/-- An open group with the number of alignments in its line, or a number of missing operands. -/
inductive Frame where
  | grp (g : Grouping) (used : Nat)
  | need (n : Nat)
  deriving DecidableEq, Repr

/-- An element is complete. -/
def complete : List Frame → List Frame
  | .need (n + 2) :: F => .need (n + 1) :: F
  | .need _ :: F => complete F
  | F => F

def fin (st : Bool) (F : List Frame) : List Frame := if st then complete F else F

/-- No operand is missing (not tracked in loose mode). -/
def topOk (st : Bool) : List Frame → Bool
  | .need _ :: _ => !st
  | _ => true

/-- The group that alignments belong to. -/
def lvl (st : Bool) : List Frame → Option (Grouping × Nat)
  | .grp g k :: F => if !st && g = .normal then lvl st F else some (g, k)
  | _ => none

def setLvl (st : Bool) (n : Nat) : List Frame → List Frame
  | .grp g k :: F => if !st && g = .normal then .grp g k :: setLvl st n F else .grp g n :: F
  | F => F

def isCompat (st : Bool) (F : List Frame) (a : AlignCount) : Bool :=
  match lvl st F with
  | some (g, k) => g.isMathEnv && k ≤ a.count && a.count ≤ a.max && a.max ≤ alignments g
  | none => false

/-- The number of alignments that the group allows. -/
def lvlMax (st : Bool) (F : List Frame) : Nat :=
  match lvl st F with
  | some (g, _) => alignments g
  | none => 0

/-- The automaton. Text in which alignments are allowed may use them all. -/
def acc1 (st : Bool) (F : List Frame) : Instr → Option (List Frame)
  | .ev (.content _) => some (fin st F)
  | .ev (.space _ _ _) => some (fin st F)
  | .ev (.stateChange _) => some (fin st F)
  | .ev (.begin_ g) => some (.grp g 0 :: F)
  | .ev .end_ =>
    match F with
    | .grp _ _ :: F => some (fin st F)
    | _ => none
  | .ev (.script ty _) => some (if st then .need (scriptOperands ty) :: F else F)
  | .ev (.visual v) => some (if st then .need (visualOperands v) :: F else F)
  | .ev (.flow .alignment) =>
    match lvl st F with
    | some (g, k) => if g.isMathEnv && k < alignments g then some (setLvl st (k + 1) F) else none
    | none => none
  | .ev (.flow (.newLine _ _)) =>
    match lvl st F with
    | some (g, _) => if g.isMathEnv then some (setLvl st 0 F) else none
    | none => none
  | .ev (.flow (.startLines _)) =>
    match F with
    | .grp g _ :: _ => if g.isMathEnv then some F else none
    | _ => none
  | .sub _ none => if topOk st F then some F else none
  | .sub _ (some a) => if topOk st F && isCompat st F a then some (setLvl st (lvlMax st F) F) else none

def acc (st : Bool) : List Frame → List Instr → Option (List Frame)
  | F, [] => some F
  | F, i :: is => (acc1 st F i).bind fun F => acc st F is

theorem acc_append (st : Bool) : ∀ (a b : List Instr) (F : List Frame),
    acc st F (a ++ b) = (acc st F a).bind fun F => acc st F b
  | [], _, _ => rfl
  | i :: a, b, F => by
    simp only [List.cons_append, acc]
    cases acc1 st F i with
    | none => rfl
    | some F' => simp only [Option.bind_some]; exact acc_append st a b F'

/-- One element, wherever it stands. -/
def Elem (st : Bool) (d : List Instr) : Prop := ∀ F, acc st F d = some (fin st F)

/-- The frames are consistent with an alignment counter. -/
def Compat (st : Bool) (F : List Frame) : Option AlignCount → Prop
  | none => True
  | some a => isCompat st F a = true

/-- Same groups and missing operands. -/
def Frame.same : Frame → Frame → Prop
  | .grp g _, .grp g' _ => g = g'
  | .need n, .need n' => n = n'
  | _, _ => False

def Same : List Frame → List Frame → Prop
  | [], [] => True
  | a :: F, b :: G => a.same b ∧ Same F G
  | _, _ => False

theorem Frame.same_refl (a : Frame) : a.same a := by cases a <;> rfl
theorem Same.refl : ∀ F, Same F F
  | [] => trivial
  | a :: F => ⟨a.same_refl, Same.refl F⟩
theorem Frame.same_trans {a b c : Frame} (h1 : a.same b) (h2 : b.same c) : a.same c := by
  cases a <;> cases b <;> cases c <;> simp_all [Frame.same]
theorem Same.trans : ∀ {F G K}, Same F G → Same G K → Same F K
  | [], [], [], _, _ => trivial
  | _ :: _, _ :: _, _ :: _, h1, h2 => ⟨Frame.same_trans h1.1 h2.1, Same.trans h1.2 h2.2⟩
  | [], [], _ :: _, _, h => h.elim
  | [], _ :: _, _, h, _ => h.elim
  | _ :: _, [], _, h, _ => h.elim
  | _ :: _, _ :: _, [], _, h => h.elim

theorem Same.topOk {F G : List Frame} (st : Bool) (h : Same F G) : topOk st F = topOk st G := by
  cases F with
  | nil => cases G with
    | nil => rfl
    | cons => exact h.elim
  | cons a F =>
    cases G with
    | nil => exact h.elim
    | cons b G =>
      have := h.1
      cases a <;> cases b <;> simp_all [Frame.same, PL.topOk]

theorem same_setLvl (st : Bool) (n : Nat) : ∀ F, Same F (setLvl st n F)
  | [] => trivial
  | .need _ :: F => Same.refl _
  | .grp g k :: F => by
    unfold setLvl
    split
    · exact ⟨rfl, same_setLvl st n F⟩
    · exact ⟨rfl, Same.refl F⟩

theorem lvl_setLvl {st : Bool} {n k : Nat} {g : Grouping} : ∀ {F}, lvl st F = some (g, k) → lvl st (setLvl st n F) = some (g, n)
  | [], h => by simp [lvl] at h
  | .need _ :: F, h => by simp [lvl] at h
  | .grp g' k' :: F, h => by
    unfold lvl at h
    unfold setLvl
    split
    · rename_i hc
      rw [if_pos hc] at h
      unfold lvl
      rw [if_pos hc]
      exact lvl_setLvl h
    · rename_i hc
      rw [if_neg hc] at h
      cases h
      unfold lvl
      rw [if_neg hc]

theorem complete_topOk {F : List Frame} (h : topOk true F = true) : complete F = F := by
  cases F with
  | nil => rfl
  | cons a F => cases a with
    | grp => rfl
    | need => simp [topOk] at h

theorem fin_topOk {st : Bool} {F : List Frame} (h : topOk st F = true) : fin st F = F := by
  cases st with
  | true => exact complete_topOk h
  | false => rfl

/-- Only the number of alignments in the group has changed, and not even this if there is no counter. -/
structure Alter (st : Bool) (A A' : Option AlignCount) (F F' : List Frame) : Prop where
  none_ : A = none → A' = none ∧ F' = F
  set : ∀ n, setLvl st n F' = setLvl st n F
  some_ : A ≠ none → A' ≠ none

theorem Alter.refl (st : Bool) (A : Option AlignCount) (F : List Frame) : Alter st A A F F := ⟨fun h => ⟨h, rfl⟩, fun _ => rfl, id⟩
theorem Alter.trans {st : Bool} {A B C : Option AlignCount} {F G K : List Frame} (h1 : Alter st A B F G)
    (h2 : Alter st B C G K) : Alter st A C F K where
  none_ h := by
    obtain ⟨rfl, rfl⟩ := h1.none_ h
    exact h2.none_ rfl
  set n := (h2.set n).trans (h1.set n)
  some_ h := h2.some_ (h1.some_ h)

theorem setLvl_setLvl (st : Bool) (n m : Nat) : ∀ F, setLvl st n (setLvl st m F) = setLvl st n F
  | [] => rfl
  | .need _ :: F => rfl
  | .grp g k :: F => by
    have ih := setLvl_setLvl st n m F
    by_cases h : (!st && decide (g = .normal)) = true
    · simp only [setLvl, if_pos h, ih]
    · simp only [setLvl, if_neg h]

/-- Neutral inside a group, changing the alignment counter from `A` to `A'`. -/
def Shape (st : Bool) (A A' : Option AlignCount) (d : List Instr) : Prop :=
  ∀ F, topOk st F = true → Compat st F A → ∃ F', acc st F d = some F' ∧ Compat st F' A' ∧ Same F F' ∧ Alter st A A' F F'

theorem Elem.shape {st : Bool} {A : Option AlignCount} {d : List Instr} (h : Elem st d) : Shape st A A d := by
  intro F hF hC
  refine ⟨F, ?_, hC, Same.refl F, .refl ..⟩
  rw [h F, fin_topOk hF]

theorem Shape.append {st : Bool} {A B C : Option AlignCount} {a b : List Instr} (ha : Shape st A B a)
    (hb : Shape st B C b) : Shape st A C (a ++ b) := by
  intro F hF hC
  obtain ⟨F1, h1, h2, h3, a1⟩ := ha F hF hC
  obtain ⟨F2, h4, h5, h6, a2⟩ := hb F1 (h3.topOk st ▸ hF) h2
  refine ⟨F2, ?_, h5, h3.trans h6, a1.trans a2⟩
  rw [acc_append, h1]
  exact h4

theorem Shape.nil {st : Bool} {A : Option AlignCount} : Shape st A A [] := fun F _ hC => ⟨F, rfl, hC, Same.refl F, .refl ..⟩

theorem Elem.nil : Elem false [] := fun _ => rfl

theorem Elem.append_loose {a b : List Instr} (ha : Elem false a) (hb : Elem false b) : Elem false (a ++ b) := by
  intro F
  rw [acc_append, ha F]
  exact hb F

/-- Elements that are single events. -/
theorem Elem.ev {st : Bool} {e : Event} (h : Simple e) : Elem st [.ev e] := by
  intro F
  cases e <;> first | exact h.elim | rfl

/-- A list of neutral instructions in a group. -/
def Inside (st : Bool) (g : Grouping) (d : List Instr) : Prop := ∀ F, ∃ n, acc st (.grp g 0 :: F) d = some (.grp g n :: F)

theorem Elem.group {st : Bool} {g : Grouping} {d : List Instr} (h : Inside st g d) :
    Elem st (.ev (.begin_ g) :: (d ++ [.ev .end_])) := by
  intro F
  obtain ⟨n, h⟩ := h F
  simp only [acc, acc1, Option.bind_some]
  rw [acc_append, h]
  rfl

theorem Inside.nil {st : Bool} {g : Grouping} : Inside st g [] := fun _ => ⟨0, rfl⟩
theorem Inside.elem {st : Bool} {g : Grouping} {a b : List Instr} (ha : Elem st a) (hb : Inside st g b) :
    Inside st g (a ++ b) := by
  intro F
  obtain ⟨n, h⟩ := hb F
  refine ⟨n, ?_⟩
  rw [acc_append, ha]
  simp only [Option.bind_some]
  rw [fin_topOk rfl]
  exact h
theorem Inside.one {st : Bool} {g : Grouping} {a : List Instr} (ha : Elem st a) : Inside st g a := by
  simpa using ha |> fun h => Inside.elem h Inside.nil
theorem Inside.ev {st : Bool} {g : Grouping} {e : Event} {d : List Instr} (he : Simple e) (h : Inside st g d) :
    Inside st g (.ev e :: d) := Inside.elem (Elem.ev he) h
theorem Inside.sub {st : Bool} {g : Grouping} {x : Sl} {d : List Instr} (h : Inside st g d) :
    Inside st g (.sub x none :: d) := by
  intro F
  obtain ⟨n, h⟩ := h F
  exact ⟨n, h⟩
theorem Inside.env {st : Bool} {g : Grouping} {x : Sl} {m : Nat} (hg : g.isMathEnv = true) (hm : m ≤ alignments g) :
    Inside st g [.sub x (some ⟨0, m⟩)] := by
  intro F
  refine ⟨alignments g, ?_⟩
  have hne : g ≠ .normal := by rintro rfl; cases hg
  have hn : (!st && decide (g = .normal)) = false := by simp [hne]
  simp [acc, acc1, topOk, isCompat, lvl, hn, hg, hm, lvlMax, setLvl]
theorem Inside.lines {st : Bool} {g : Grouping} {ls : List Line} {d : List Instr} (hg : g.isMathEnv = true)
    (h : Inside st g d) : Inside st g (.ev (.flow (.startLines ls)) :: d) := by
  intro F
  obtain ⟨n, h⟩ := h F
  refine ⟨n, ?_⟩
  simp only [acc, acc1, hg, if_true, Option.bind_some]
  exact h

/-- The given number of elements. -/
def Elems (st : Bool) : Nat → List Instr → Prop
  | 0, d => d = []
  | n + 1, d => ∃ a b, d = a ++ b ∧ Elem st a ∧ Elems st n b

theorem Elems.one {st : Bool} {a : List Instr} (h : Elem st a) : Elems st 1 a := ⟨a, [], by simp, h, rfl⟩
theorem Elems.cons {st : Bool} {n : Nat} {a b : List Instr} (h : Elem st a) (hb : Elems st n b) :
    Elems st (n + 1) (a ++ b) := ⟨a, b, rfl, h, hb⟩
theorem Elems.two {st : Bool} {a b : List Instr} (h : Elem st a) (hb : Elem st b) : Elems st 2 (a ++ b) :=
  Elems.cons h (Elems.one hb)
theorem Elems.three {st : Bool} {a b c : List Instr} (h : Elem st a) (hb : Elem st b) (hc : Elem st c) :
    Elems st 3 (a ++ (b ++ c)) := Elems.cons h (Elems.two hb hc)

theorem Elems.acc {n : Nat} : ∀ {d : List Instr} (F : List Frame), Elems true (n + 1) d →
    PL.acc true (.need (n + 1) :: F) d = some (complete F) := by
  induction n with
  | zero =>
    rintro d F ⟨a, b, rfl, h, hb⟩
    cases hb
    rw [List.append_nil, h]
    rfl
  | succ n ih =>
    rintro d F ⟨a, b, rfl, h, hb⟩
    rw [acc_append, h]
    exact ih F hb

theorem Elems.acc_loose {n : Nat} : ∀ {d : List Instr}, Elems false n d → Elem false d := by
  induction n with
  | zero => intro d h; cases h; exact Elem.nil
  | succ n ih =>
    rintro d ⟨a, b, rfl, h, hb⟩
    exact h.append_loose (ih hb)

theorem Elem.script {st : Bool} {ty : ScriptType} {p : ScriptPos} {d : List Instr}
    (h : Elems st (scriptOperands ty) d) : Elem st (.ev (.script ty p) :: d) := by
  intro F
  cases st with
  | true =>
    cases ty <;> (simp only [PL.acc, acc1, Option.bind_some]; exact h.acc F)
  | false => exact h.acc_loose F

theorem Elem.visual {st : Bool} {v : Visual} {d : List Instr}
    (h : Elems st (visualOperands v) d) : Elem st (.ev (.visual v) :: d) := by
  intro F
  cases st with
  | true =>
    cases v <;> (simp only [PL.acc, acc1, Option.bind_some]; exact h.acc F)
  | false => exact h.acc_loose F

/-- In loose mode, neutral instructions stay neutral inside plain braces. -/
theorem Shape.group {A A' : Option AlignCount} {d : List Instr} (h : Shape false A A' d) :
    Shape false A A' (.ev (.begin_ .normal) :: (d ++ [.ev .end_])) := by
  intro F hF hC
  have hC' : ∀ F A k, Compat false (.grp .normal k :: F) A ↔ Compat false F A := by
    intro F A k
    cases A with
    | none => simp [Compat]
    | some a => simp [Compat, isCompat, lvl]
  obtain ⟨F', h1, h2, h3, h4⟩ := h (.grp .normal 0 :: F) rfl ((hC' F A 0).2 hC)
  cases F' with
  | nil => exact h3.elim
  | cons a F' =>
    cases a with
    | need => exact h3.1.elim
    | grp g k =>
      have hg : Grouping.normal = g := h3.1
      subst hg
      have hset : ∀ n, setLvl false n F' = setLvl false n F := by
        intro n
        have := h4.set n
        simp [setLvl] at this
        exact this.2
      refine ⟨F', ?_, (hC' F' A' k).1 h2, h3.2, ⟨fun e => ?_, hset, h4.some_⟩⟩
      rotate_left
      · obtain ⟨e1, e2⟩ := h4.none_ e
        injection e2 with e3 e4
        exact ⟨e1, e4⟩
      simp only [acc, acc1, Option.bind_some]
      rw [acc_append, h1]
      rfl

theorem Shape.script {A A' : Option AlignCount} {d : List Instr} {ty : ScriptType} {p : ScriptPos}
    (h : Shape false A A' d) : Shape false A A' (.ev (.script ty p) :: d) := by
  intro F hF hC
  obtain ⟨F', h1, h2⟩ := h F hF hC
  exact ⟨F', h1, h2⟩

theorem Shape.align {st : Bool} {a : AlignCount} (h : a.count < a.max) :
    Shape st (some a) (some { a with count := a.count + 1 }) [.ev (.flow .alignment)] := by
  intro F hF hC
  unfold Compat isCompat at hC
  cases hl : lvl st F with
  | none => rw [hl] at hC; cases hC
  | some x =>
    obtain ⟨g, k⟩ := x
    rw [hl] at hC
    simp at hC
    have hk : k < alignments g := by omega
    refine ⟨setLvl st (k + 1) F, ?_, ?_, same_setLvl st _ F, ⟨by simp, fun n => setLvl_setLvl st n _ F, by simp⟩⟩
    · simp [acc, acc1, hl, hC.1.1.1, hk]
    · simp [Compat, isCompat, lvl_setLvl hl, hC.1.1.1]
      omega

theorem Shape.newLine {st : Bool} {a : AlignCount} {sp : Option Dim} {ls : List Line} :
    Shape st (some a) (some { a with count := 0 }) [.ev (.flow (.newLine sp ls))] := by
  intro F hF hC
  unfold Compat isCompat at hC
  cases hl : lvl st F with
  | none => rw [hl] at hC; cases hC
  | some x =>
    obtain ⟨g, k⟩ := x
    rw [hl] at hC
    simp at hC
    refine ⟨setLvl st 0 F, ?_, ?_, same_setLvl st _ F, ⟨by simp, fun n => setLvl_setLvl st n _ F, by simp⟩⟩
    · simp [acc, acc1, hl, hC.1.1.1]
    · simp [Compat, isCompat, lvl_setLvl hl, hC.1.1.1]
      omega

/-- Number of events still to come and text still to be read. -/
def W : List Instr → Nat
  | [] => 0
  | .ev _ :: is => 1 + W is
  | .sub x _ :: is => 1 + 16 * x.cs.length + W is

theorem W_append : ∀ a b, W (a ++ b) = W a + W b
  | [], _ => by simp [W]
  | .ev _ :: a, b => by simp [W, W_append a b]; omega
  | .sub _ _ :: a, b => by simp [W, W_append a b]; omega

end PL
