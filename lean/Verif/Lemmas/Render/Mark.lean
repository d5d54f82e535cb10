import Verif.Lemmas.Render.Flows
import Verif.Spec.Marked
set_option autoImplicit false
/-! # Text in which only tags of the vocabulary begin -/
namespace PL.Mathml
open Spec

/-- The name that a text begins with is one of the vocabulary. -/
def nameOk (s : Str) : Bool :=
  let s := match s with
    | '/' :: s => s
    | s => s
  decide (s.takeWhile Char.isAlpha ∈ elementNames)

def markB : Str → Bool
  | [] => true
  | c :: s => (c ≠ '<' || nameOk s) && markB s

theorem markB_iff (t : Str) : markB t = true ↔ ∀ pre post, t = pre ++ '<' :: post → nameOk post = true := by
  induction t with
  | nil => simp [markB]
  | cons c t ih =>
    simp only [markB, Bool.and_eq_true, ih, Bool.or_eq_true, decide_eq_true_eq]
    constructor
    · rintro ⟨h1, h2⟩ pre post e
      cases pre with
      | nil => cases e; rcases h1 with h1 | h1
               · exact absurd rfl h1
               · exact h1
      | cons x pre => cases e; exact h2 pre post rfl
    · intro h
      refine ⟨?_, fun pre post e => h (c :: pre) post (by rw [e]; rfl)⟩
      by_cases hc : c = '<'
      · exact .inr (h [] t (by rw [hc]; rfl))
      · exact .inl hc

theorem takeWhile_split {α : Type} (p : α → Bool) (s : List α) : ∃ r, s = s.takeWhile p ++ r ∧ ∀ c r', r = c :: r' → p c = false := by
  refine ⟨s.dropWhile p, (List.takeWhile_append_dropWhile).symm, ?_⟩
  intro c r' h
  have := List.head_dropWhile_not p (by rw [h]; simp : s.dropWhile p ≠ [])
  simpa [h] using this

theorem nameOk_spec {s : Str} (h : nameOk s = true) : ∃ n ∈ elementNames, ∃ rest,
    (s = n ++ rest ∨ s = '/' :: (n ++ rest)) ∧ ∀ c r, rest = c :: r → c.isAlpha = false := by
  unfold nameOk at h
  dsimp only at h
  replace h := of_decide_eq_true h
  split at h
  · rename_i s
    obtain ⟨r, h1, h2⟩ := takeWhile_split Char.isAlpha s
    exact ⟨_, h, r, .inr (congrArg _ h1), h2⟩
  · obtain ⟨r, h1, h2⟩ := takeWhile_split Char.isAlpha s
    exact ⟨_, h, r, .inl h1, h2⟩

theorem markB_marked {t : Str} (h : markB t = true) : Marked t := fun pre post e => nameOk_spec ((markB_iff t).1 h pre post e)

/-- The text does not begin with a letter. -/
def Starts (t : Str) : Prop := ∀ c r, t = c :: r → c.isAlpha = false

theorem names_alpha : ∀ n ∈ elementNames, n.all Char.isAlpha = true ∧ n ≠ [] := by decide

theorem takeWhile_name {n r : Str} (hn : n.all Char.isAlpha = true) (hr : Starts r) : (n ++ r).takeWhile Char.isAlpha = n := by
  induction n with
  | nil =>
    cases r with
    | nil => rfl
    | cons c r => simp [hr c r rfl]
  | cons c n ih =>
    simp only [List.all_cons, Bool.and_eq_true] at hn
    rw [List.cons_append, List.takeWhile_cons, hn.1]
    simp [ih hn.2]

theorem nameOk_of {n r s : Str} (hn : n ∈ elementNames) (hr : Starts r) (hs : s = n ++ r ∨ s = '/' :: (n ++ r)) : nameOk s = true := by
  have ha := names_alpha n hn
  unfold nameOk
  rcases hs with rfl | rfl
  · split
    · rename_i s' e
      cases n with
      | nil => exact absurd rfl ha.2
      | cons c n =>
        rw [List.cons_append] at e
        injection e with e1 e2
        subst e1
        simp at ha
    · simp only [takeWhile_name ha.1 hr, hn, decide_true]
  · simp only [takeWhile_name ha.1 hr, hn, decide_true]

theorem nameOk_append {s u : Str} (h : nameOk s = true) (hu : Starts u) : nameOk (s ++ u) = true := by
  obtain ⟨n, hn, r, h1, h2⟩ := nameOk_spec h
  refine nameOk_of hn (r := r ++ u) ?_ ?_
  · intro c r' e
    cases r with
    | nil => exact hu c r' e
    | cons x r => cases e; exact h2 c r rfl
  · rcases h1 with rfl | rfl
    · exact .inl (by rw [List.append_assoc])
    · exact .inr (by rw [List.cons_append, List.append_assoc])

theorem markB_append {s u : Str} (h : markB s = true) (hu : Starts u) (h' : markB u = true) : markB (s ++ u) = true := by
  induction s with
  | nil => exact h'
  | cons c s ih =>
    simp only [markB, Bool.and_eq_true, Bool.or_eq_true, List.cons_append] at h ⊢
    refine ⟨?_, ih h.2⟩
    rcases h.1 with h1 | h1
    · exact .inl h1
    · exact .inr (nameOk_append h1 hu)

theorem takeWhile_gt (s : Str) : (s ++ ['>']).takeWhile Char.isAlpha = s.takeWhile Char.isAlpha := by
  induction s with
  | nil => rfl
  | cons c s ih => simp only [List.cons_append, List.takeWhile_cons, ih]

theorem nameOk_gt {s : Str} (h : nameOk (s ++ ['>']) = true) : nameOk s = true := by
  unfold nameOk at *
  dsimp only at *
  split at h
  · rename_i s' e
    cases s with
    | nil => cases e
    | cons c s =>
      rw [List.cons_append] at e
      injection e with e1 e2
      subst e1 e2
      rw [takeWhile_gt] at h
      exact h
  · rename_i hne
    rw [takeWhile_gt] at h
    split
    · rename_i s'; exact absurd rfl (hne (s' ++ ['>']))
    · exact h

theorem markB_gt {s : Str} (h : markB (s ++ ['>']) = true) : markB s = true := by
  induction s with
  | nil => rfl
  | cons c s ih =>
    simp only [markB, Bool.and_eq_true, Bool.or_eq_true, List.cons_append] at h ⊢
    refine ⟨?_, ih h.2⟩
    rcases h.1 with h1 | h1
    · exact .inl h1
    · exact .inr (nameOk_gt h1)

/-- A piece of text that may be written anywhere but inside text in tags. -/
structure Pc (t : Str) : Prop where
  starts : Starts t
  mark : markB t = true

theorem Pc.nil : Pc [] := ⟨(fun _ _ h => by cases h), rfl⟩

theorem Pc.append {t u : Str} (h : Pc t) (h' : Pc u) : Pc (t ++ u) := by
  refine ⟨?_, markB_append h.mark h'.starts h'.mark⟩
  intro c r e
  cases t with
  | nil => exact h'.starts c r e
  | cons x t => cases e; exact h.starts c t rfl

theorem markB_plain {t : Str} (h : '<' ∉ t) : markB t = true := by
  refine (markB_iff t).2 fun pre post e => absurd ?_ h
  rw [e]; simp

theorem Pc.plain {c : Char} {t : Str} (hc : c.isAlpha = false) (h : '<' ∉ c :: t) : Pc (c :: t) := by
  refine ⟨?_, markB_plain h⟩
  intro x r e
  cases e; exact hc

/-- Literals. -/
theorem Pc.lit {t : Str} (h : ((t.head?.map Char.isAlpha).getD false = false ∧ markB t = true)) : Pc t := by
  refine ⟨?_, h.2⟩
  rintro c r rfl
  exact h.1

theorem tags_mark {d : Bool} {S S' : Open} {t : Str} (h : Tags d S t S') (hS : ∀ x ∈ S, x.1 ∈ elementNames) : markB t = true := by
  have noLt : ∀ a q, attrsOk q a = true → '<' ∉ a := by
    intro a
    induction a with
    | nil => intro q _; simp
    | cons c a ih =>
      intro q hq hm
      cases q with
      | true =>
        simp only [attrsOk] at hq
        split at hq
        · rename_i hc; subst hc
          rcases List.mem_cons.1 hm with h | h
          · revert h; decide
          · exact ih _ hq h
        · simp only [Bool.and_eq_true, decide_eq_true_eq] at hq
          rcases List.mem_cons.1 hm with h | h
          · exact hq.1 h.symm
          · exact ih _ hq.2 h
      | false =>
        simp only [attrsOk] at hq
        split at hq
        · rename_i hc; subst hc
          rcases List.mem_cons.1 hm with h | h
          · revert h; decide
          · exact ih _ hq h
        · simp only [Bool.and_eq_true] at hq
          rcases List.mem_cons.1 hm with h | h
          · subst h; revert hq; simp
          · exact ih _ hq.2 h
  have start : ∀ n a u, n ∈ elementNames → Attrs a → Starts u → markB u = true → markB ('<' :: (n ++ a ++ u)) = true := by
    intro n a u hn ha hu hm
    have hsa : Starts (a ++ u) := by
      rcases ha.1 with rfl | ⟨r, rfl⟩
      · exact hu
      · intro c r' e; cases e; rfl
    rw [List.append_assoc]
    simp only [markB, Bool.and_eq_true, Bool.or_eq_true]
    refine ⟨.inr (nameOk_of hn hsa (.inl rfl)), ?_⟩
    have hna : '<' ∉ n := by
      intro h'
      have := List.all_eq_true.1 (names_alpha n hn).1 _ h'
      revert this; decide
    refine markB_append (markB_plain hna) hsa (markB_append (markB_plain (noLt a _ ha.2)) hu hm)
  induction h with
  | nil => rfl
  | char hc _ ih =>
    simp only [markB, Bool.and_eq_true, Bool.or_eq_true, decide_eq_true_eq]
    exact ⟨.inl hc, ih hS⟩
  | @start S n a t S' hn ha _ ih =>
    refine start _ _ _ hn ha ?_ ?_
    · intro c r e; cases e; rfl
    · have : markB t = true := ih (by
        intro x hx
        rcases List.mem_cons.1 hx with rfl | hx
        · exact hn
        · exact hS x hx)
      simp [markB, this]
  | @empty S n a t S' hn ha _ ih =>
    have hS' : ∀ x ∈ addChild S, x.1 ∈ elementNames := by
      cases S with
      | nil => exact hS
      | cons y S =>
        intro x hx
        rcases List.mem_cons.1 hx with rfl | hx
        · exact hS y (by simp)
        · exact hS x (by simp [hx])
    rw [List.append_assoc]
    refine start _ _ _ hn ha ?_ ?_
    · intro c r e; cases e; rfl
    · have : markB t = true := ih hS'
      show markB ('/' :: '>' :: t) = true
      simp [markB, this]
  | @stop n k S t S' _ _ ih =>
    have hS' : ∀ x ∈ addChild S, x.1 ∈ elementNames := by
      cases S with
      | nil => intro x hx; cases hx
      | cons y S =>
        intro x hx
        rcases List.mem_cons.1 hx with rfl | hx
        · exact hS y (by simp)
        · exact hS x (by simp [hx])
    have hn : n ∈ elementNames := hS _ (List.mem_cons_self)
    have hna : '<' ∉ n := by
      intro h'
      have := List.all_eq_true.1 (names_alpha n hn).1 _ h'
      revert this; decide
    have hst : Starts ('>' :: t) := by intro c r e; cases e; rfl
    have hm : markB ('>' :: t) = true := by simp [markB, ih hS']
    show markB ('<' :: '/' :: (n ++ '>' :: t)) = true
    simp only [markB, Bool.and_eq_true, Bool.or_eq_true]
    refine ⟨.inr (nameOk_of hn hst (.inr rfl)), .inl (by decide), ?_⟩
    exact markB_append (markB_plain hna) hst hm

theorem Sc.mark {d : Bool} {S S' : Open} {t : Str} (h : Sc d .text S t .text S') (hS : ∀ x ∈ S, x.1 ∈ elementNames) : markB t = true :=
  tags_mark h.tags hS

theorem Elems.pc {k : Nat} {t : Str} (h : Elems k t) : Pc t := by
  refine ⟨?_, (h.sc false []).mark (by simp)⟩
  intro c r e
  rcases h.begins with rfl | ⟨r', rfl⟩
  · cases e
  · cases e; rfl

/-- From text to inside a start tag. -/
theorem InTag.mark {d : Bool} {S S' : Open} {t n : Str} {m : Mode} (hm : InTag n m) (h : Sc d .text S t m S')
    (hS : ∀ x ∈ S, x.1 ∈ elementNames) : markB t = true :=
  markB_gt ((h.append hm.close).mark hS)

theorem openTag_pc {tag : Str} {cl : Option Str} (ht : tag ∈ elementNames) (hc : ClassOk cl) (st : RState) (env : List EnvR) :
    Pc (openTagStr st env tag cl) := by
  obtain ⟨m, hm, h⟩ := openTag_sc (d := false) (S := []) ht hc st env
  refine ⟨?_, hm.mark h (by simp)⟩
  intro c r e
  cases e; rfl

theorem hlines_pc : ∀ ls : List Line, Pc (hlinesStr ls)
  | [] => .nil
  | [l] => by cases l <;> exact .lit (by decide)
  | l :: l' :: ls => by
    rw [hlinesStr]
    · exact .append (by cases l <;> exact .lit (by decide)) (hlines_pc _)
    · simp

theorem closeTag_pc {n : Str} (h : n ∈ elementNames) : Pc (closeTag n) := by
  refine ⟨fun c r e => by cases e; rfl, ?_⟩
  have hst : Starts c!">" := by intro c r e; cases e; rfl
  have hna : '<' ∉ n := by
    intro h'
    have := List.all_eq_true.1 (names_alpha n h).1 _ h'
    revert this; decide
  show markB ('<' :: '/' :: (n ++ c!">")) = true
  simp only [markB, Bool.and_eq_true, Bool.or_eq_true]
  exact ⟨.inr (nameOk_of h hst (.inr rfl)), .inl (by decide), markB_append (markB_plain hna) hst rfl⟩

theorem visualTag_mem (v : Visual) : visualTag v ∈ elementNames := by cases v <;> (dsimp only [visualTag]; decide)
theorem scriptTag_mem (ty : ScriptType) (a : Bool) : scriptTag ty a ∈ elementNames := by cases ty <;> cases a <;> decide

end PL.Mathml
