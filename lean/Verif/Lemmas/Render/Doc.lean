import Verif.Spec.Shown
import Verif.Lemmas.Frames
set_option autoImplicit false
/-! # Event streams with their group and the number of alignments at hand -/
namespace PL.Mathml
open Spec

theorem _root_.PL.Spec.WF.shown {f : Form} {es : List Event} (h : WF f es) : Shown false f es := by
  induction h with
  | simple h => exact .simple h
  | group _ ih => exact .group ih
  | script _ ih => exact .script ih
  | visual _ ih => exact .visual ih
  | nil => exact .nil
  | cons _ _ ih ih' => exact .cons ih (by rintro ⟨⟩) ih'
  | empty => exact .empty
  | element _ _ ih ih' => exact .element ih ih'
  | flow _ ih => exact .flow ih

inductive DForm where
  | elem
  | elems (n : Nat)
  | body (g : Option Grouping) (k k' : Nat)

/-- A `Shown` stream whose alignments and lines are allowed. -/
inductive Doc (d : Bool) : DForm → List Event → Prop
  | simple {e} : Simple e → Doc d .elem [e]
  | group {g b k'} : beginOk g = true → Doc d (.body (some g) 0 k') b → Doc d .elem (.begin_ g :: (b ++ [.end_]))
  | script {ty p ds} : Doc d (.elems (scriptOperands ty)) ds → Doc d .elem (.script ty p :: ds)
  | visual {v ds} : Doc d (.elems (visualOperands v)) ds → Doc d .elem (.visual v :: ds)
  | nil : Doc d (.elems 0) []
  | cons {n a b} : Doc d .elem a → (d = true → Visible a) → Doc d (.elems n) b → Doc d (.elems (n + 1)) (a ++ b)
  | empty {g k} : Doc d (.body g k k) []
  | element {g k k' a b} : Doc d .elem a → Doc d (.body g k k') b → Doc d (.body g k k') (a ++ b)
  | align {g k k' b} : g.isMathEnv = true → k < alignments g → Doc d (.body (some g) (k + 1) k') b →
      Doc d (.body (some g) k k') (.flow .alignment :: b)
  | line {g k k' b sp ls} : g.isMathEnv = true → Doc d (.body (some g) 0 k') b →
      Doc d (.body (some g) k k') (.flow (.newLine sp ls) :: b)
  | lines {g k k' b ls} : g.isMathEnv = true → Doc d (.body (some g) k k') b →
      Doc d (.body (some g) k k') (.flow (.startLines ls) :: b)

/-- The condition on one event. -/
def okAt (ls : List (Grouping × Nat)) : Event → Prop
  | .flow .alignment => ∃ g k r, ls = (g, k) :: r ∧ g.isMathEnv = true ∧ k < alignments g
  | .flow (.newLine _ _) => ∃ g k r, ls = (g, k) :: r ∧ g.isMathEnv = true
  | .flow (.startLines _) => ∃ g k r, ls = (g, k) :: r ∧ g.isMathEnv = true
  | .begin_ g => beginOk g = true
  | _ => True

def FA : List (Grouping × Nat) → List Event → Prop
  | _, [] => True
  | ls, e :: es => okAt ls e ∧ FA (levelStep false ls e) es

theorem FA_append {a b : List Event} : ∀ {ls}, FA ls (a ++ b) ↔ FA ls a ∧ FA (a.foldl (levelStep false) ls) b := by
  induction a with
  | nil => intro ls; simp [FA]
  | cons e a ih => intro ls; simp only [List.cons_append, FA, List.foldl_cons, ih, and_assoc]

theorem level_false {ls : List (Grouping × Nat)} {g : Grouping} {k : Nat} (h : level false ls = some (g, k)) :
    ∃ r, ls = (g, k) :: r := by
  cases ls with
  | nil => cases h
  | cons x r =>
    simp only [level, Bool.false_and, Bool.false_eq_true, if_false, Option.some.injEq] at h
    exact ⟨r, by rw [h]⟩

theorem FA_of_allowed {es pre : List Event} (h : FlowsAllowed false (pre ++ es)) (hg : ∀ g, .begin_ g ∈ es → beginOk g = true) :
    FA (levels false pre) es := by
  induction es generalizing pre with
  | nil => trivial
  | cons e es ih =>
    refine ⟨?_, ?_⟩
    · cases e with
      | begin_ g => exact hg g (by simp)
      | flow f =>
        cases f with
        | alignment =>
          obtain ⟨g, k, h1, h2, h3⟩ := h.1 pre es rfl
          obtain ⟨r, h1⟩ := level_false h1
          exact ⟨g, k, r, h1, h2, h3⟩
        | newLine sp ls =>
          obtain ⟨g, k, h1, h2⟩ := h.2.1 pre es sp ls rfl
          obtain ⟨r, h1⟩ := level_false h1
          exact ⟨g, k, r, h1, h2⟩
        | startLines ls =>
          obtain ⟨g, k, h1, h2⟩ := h.2.2 pre es ls rfl
          obtain ⟨r, h1⟩ := level_false h1
          exact ⟨g, k, r, h1, h2⟩
      | _ => trivial
    · have := ih (pre := pre ++ [e]) (by simpa using h) (fun g hg' => hg g (by simp [hg']))
      unfold levels at *
      rw [List.foldl_append] at this
      exact this

/-- The levels inside a group. -/
def lv (g : Option Grouping) (k : Nat) (r : List (Grouping × Nat)) : List (Grouping × Nat) :=
  match g with
  | none => []
  | some g => (g, k) :: r

theorem simple_level {e : Event} (h : Simple e) (ls : List (Grouping × Nat)) : levelStep false ls e = ls := by
  cases e <;> first | exact h.elim | rfl

theorem doc_of_shown {d : Bool} {f : Form} {es : List Event} (h : Shown d f es) :
    (f = .elem → ∀ ls, FA ls es → Doc d .elem es ∧ es.foldl (levelStep false) ls = ls) ∧
    (∀ n, f = .elems n → ∀ ls, FA ls es → Doc d (.elems n) es ∧ es.foldl (levelStep false) ls = ls) ∧
    (f = .body → ∀ g k r, FA (lv g k r) es → ∃ k', Doc d (.body g k k') es ∧ es.foldl (levelStep false) (lv g k r) = lv g k' r) := by
  induction h with
  | simple h =>
    refine ⟨fun _ ls _ => ⟨.simple h, simple_level h ls⟩, by rintro n ⟨⟩, by rintro ⟨⟩⟩
  | @group g b _ ih =>
    refine ⟨fun _ ls hf => ?_, by rintro n ⟨⟩, by rintro ⟨⟩⟩
    obtain ⟨h1, h2⟩ := hf
    have h2 := (FA_append.1 h2).1
    obtain ⟨k', hd, he⟩ := ih.2.2 rfl (some g) 0 ls h2
    refine ⟨.group h1 hd, ?_⟩
    rw [List.foldl_cons, List.foldl_append]
    have he' : List.foldl (levelStep false) (levelStep false ls (Event.begin_ g)) b = (g, k') :: ls := he
    rw [he']; rfl
  | script _ ih =>
    refine ⟨fun _ ls hf => ?_, by rintro n ⟨⟩, by rintro ⟨⟩⟩
    have := ih.2.1 _ rfl ls hf.2
    exact ⟨.script this.1, this.2⟩
  | visual _ ih =>
    refine ⟨fun _ ls hf => ?_, by rintro n ⟨⟩, by rintro ⟨⟩⟩
    have := ih.2.1 _ rfl ls hf.2
    exact ⟨.visual this.1, this.2⟩
  | nil => exact ⟨by rintro ⟨⟩, by rintro n ⟨⟩ ls _; exact ⟨.nil, rfl⟩, by rintro ⟨⟩⟩
  | cons _ hv _ ih ih' =>
    refine ⟨by rintro ⟨⟩, ?_, by rintro ⟨⟩⟩
    rintro n ⟨⟩ ls hf
    obtain ⟨h1, h2⟩ := FA_append.1 hf
    have a := ih.1 rfl ls h1
    rw [a.2] at h2
    have b := ih'.2.1 _ rfl ls h2
    exact ⟨.cons a.1 hv b.1, by rw [List.foldl_append, a.2, b.2]⟩
  | empty => exact ⟨by rintro ⟨⟩, by rintro n ⟨⟩, fun _ g k r _ => ⟨k, .empty, rfl⟩⟩
  | element _ _ ih ih' =>
    refine ⟨by rintro ⟨⟩, by rintro n ⟨⟩, ?_⟩
    rintro ⟨⟩ g k r hf
    obtain ⟨h1, h2⟩ := FA_append.1 hf
    have a := ih.1 rfl _ h1
    rw [a.2] at h2
    obtain ⟨k', b1, b2⟩ := ih'.2.2 rfl g k r h2
    exact ⟨k', .element a.1 b1, by rw [List.foldl_append, a.2, b2]⟩
  | @flow f b _ ih =>
    refine ⟨by rintro ⟨⟩, by rintro n ⟨⟩, ?_⟩
    rintro ⟨⟩ g k r ⟨h1, h2⟩
    cases f with
    | alignment =>
      obtain ⟨g', k', r', e, h3, h4⟩ := h1
      cases g with
      | none => cases e
      | some g =>
        cases e
        obtain ⟨k', b1, b2⟩ := ih.2.2 rfl (some _) (_ + 1) _ h2
        exact ⟨k', .align h3 h4 b1, b2⟩
    | newLine sp ls =>
      obtain ⟨g', k', r', e, h3⟩ := h1
      cases g with
      | none => cases e
      | some g =>
        cases e
        obtain ⟨k', b1, b2⟩ := ih.2.2 rfl (some _) 0 _ h2
        exact ⟨k', .line h3 b1, b2⟩
    | startLines ls =>
      obtain ⟨g', k', r', e, h3⟩ := h1
      cases g with
      | none => cases e
      | some g =>
        cases e
        obtain ⟨k', b1, b2⟩ := ih.2.2 rfl (some _) _ _ h2
        exact ⟨k', .lines h3 b1, b2⟩

/-- Streams that the renderer handles without failing. -/
theorem doc {d : Bool} {es : List Event} (h : Shown d .body es) (hf : FlowsAllowed false es)
    (hg : ∀ g, .begin_ g ∈ es → beginOk g = true) : ∃ k', Doc d (.body none 0 k') es := by
  have := FA_of_allowed (pre := []) hf hg
  obtain ⟨k', h, -⟩ := (doc_of_shown h).2.2 rfl none 0 [] this
  exact ⟨k', h⟩

theorem Doc.ne_nil {d : Bool} {es : List Event} (h : Doc d .elem es) : es ≠ [] := by
  cases h <;> simp

/-- Without the state changes at the start. -/
theorem Doc.changes {d : Bool} {g : Option Grouping} {k k' : Nat} : ∀ {b : List Event}, Doc d (.body g k k') b →
    ∃ (cs : List StateChange) (b' : List Event), b = cs.map .stateChange ++ b' ∧ Doc d (.body g k k') b' ∧
      ∀ c r, b' ≠ .stateChange c :: r
  | [], h => ⟨[], [], rfl, h, by simp⟩
  | e :: b, h => by
    by_cases he : ∃ c, e = .stateChange c
    · obtain ⟨c, rfl⟩ := he
      have hb : Doc d (.body g k k') b := by
        generalize hx : Event.stateChange c :: b = x at h
        cases h with
        | empty => cases hx
        | @element _ _ _ a b' ha hb =>
          cases ha with
          | simple hs => cases hx; exact hb
          | group => cases hx
          | script => cases hx
          | visual => cases hx
        | align => cases hx
        | line => cases hx
        | lines => cases hx
      obtain ⟨cs, b', e, h1, h2⟩ := Doc.changes hb
      exact ⟨c :: cs, b', by rw [e]; rfl, h1, h2⟩
    · exact ⟨[], e :: b, rfl, h, fun c r hc => he ⟨c, by cases hc; rfl⟩⟩

/-- Without the lines at the start. -/
theorem Doc.startLines {d : Bool} {g : Grouping} {k k' : Nat} {ls : List Line} {b : List Event}
    (h : Doc d (.body (some g) k k') (.flow (.startLines ls) :: b)) : Doc d (.body (some g) k k') b := by
  generalize hx : Event.flow (.startLines ls) :: b = x at h
  cases h with
  | empty => cases hx
  | element ha hb =>
    cases ha with
    | simple hs => cases hx; exact hs.elim
    | group => cases hx
    | script => cases hx
    | visual => cases hx
  | align => cases hx
  | line => cases hx
  | lines _ hb => cases hx; exact hb

end PL.Mathml
