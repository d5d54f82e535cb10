import Verif.Lemmas.Xml
set_option autoImplicit false
/-!
# Checking that a text is not XML
-/
namespace PL.Spec.Xml
open PL PL.Spec PL.Mathml

variable {E : List Str}

/-- Where a reader of markup is: in the content of an element (of a token element or not), in the name of a start tag, in an
end tag, after white space in a tag, in the name of an attribute, after `=`, in a value, after a value, after a slash. -/
inductive At where
  | content (token : Bool)
  | name (rev : Str)
  | stop
  | space (rev : Str)
  | attr (rev : Str)
  | equals (rev : Str)
  | value (rev : Str)
  | after (rev : Str)
  | slash
  deriving DecidableEq

/-- Reads one character. -/
def read : At → Char → Option At
  | .content b, c => if c = '<' then some (.name []) else if b && isChar c then some (.content b) else none
  | .name rev, c =>
    if c.isLower then some (.name (c :: rev))
    else if c = '>' then some (.content (decide (rev.reverse ∈ tokens)))
    else if c = ' ' then some (.space rev)
    else if c = '/' && rev.isEmpty then some .stop
    else none
  | .stop, c => if c.isLower then some .stop else if c = '>' then some (.content false) else none
  | .space rev, c => if c.isLower then some (.attr rev) else if c = '/' then some .slash else none
  | .attr rev, c => if c.isLower then some (.attr rev) else if c = '=' then some (.equals rev) else none
  | .equals rev, c => if c = '"' then some (.value rev) else none
  | .value rev, c => if c = '"' then some (.after rev) else if good c then some (.value rev) else none
  | .after rev, c =>
    if c = ' ' then some (.space rev) else if c = '>' then some (.content (decide (rev.reverse ∈ tokens))) else none
  | .slash, c => if c = '>' then some (.content false) else none

def reads (m : At) (s : Str) : Option At := s.foldlM read m

theorem reads_append (m : At) (s t : Str) : reads m (s ++ t) = (reads m s).bind fun m => reads m t := by
  unfold reads
  rw [List.foldlM_append]
  rfl

theorem reads_cons (m : At) (c : Char) (s : Str) : reads m (c :: s) = (read m c).bind fun m => reads m s := by
  unfold reads
  rw [List.foldlM_cons]
  rfl

theorem reads_then {m m' : At} {s : Str} (h : reads m s = some m') (t : Str) : reads m (s ++ t) = reads m' t := by
  rw [reads_append, h]; rfl

theorem reads_name {n : Str} (h : n.all Char.isLower = true) : ∀ rev, reads (.name rev) n = some (.name (n.reverse ++ rev)) := by
  induction n with
  | nil => intro _; rfl
  | cons c n ih =>
    intro rev
    rw [List.all_cons, Bool.and_eq_true] at h
    rw [reads_cons, read, if_pos h.1, Option.bind_some, ih h.2]
    simp

theorem reads_stop {n : Str} (h : n.all Char.isLower = true) : reads .stop n = some .stop := by
  induction n with
  | nil => rfl
  | cons c n ih =>
    rw [List.all_cons, Bool.and_eq_true] at h
    rw [reads_cons, read, if_pos h.1, Option.bind_some, ih h.2]

theorem reads_attr {n : Str} (h : n.all Char.isLower = true) (rev : Str) : reads (.attr rev) n = some (.attr rev) := by
  induction n with
  | nil => rfl
  | cons c n ih =>
    rw [List.all_cons, Bool.and_eq_true] at h
    rw [reads_cons, read, if_pos h.1, Option.bind_some, ih h.2]

theorem reads_value {v : Str} (h : ∀ c ∈ v, isChar c = true ∧ c ≠ '<' ∧ c ≠ '&' ∧ c ≠ '"') (rev : Str) : reads (.value rev) v = some (.value rev) := by
  induction v with
  | nil => rfl
  | cons c v ih =>
    obtain ⟨h1, h2, h3, h4⟩ := h c (by simp)
    have hg : good c = true := by simp [good, h1, h2, h3, h4]
    rw [reads_cons, read, if_neg h4, if_pos hg, Option.bind_some, ih fun c hc => h c (by simp [hc])]

theorem reads_quoted {a : Str × Str} (hn : a.1 ≠ [] ∧ ∀ c ∈ a.1, c.isLower = true)
    (hv : ∀ c ∈ a.2, isChar c = true ∧ c ≠ '<' ∧ c ≠ '&' ∧ c ≠ '"') {m : At} {rev : Str} (hm : m = .name rev ∨ m = .after rev) :
    reads m (quoted a) = some (.after rev) := by
  obtain ⟨n, v⟩ := a
  cases n with
  | nil => exact absurd rfl hn.1
  | cons c n =>
    have h1 : read m ' ' = some (.space rev) := by rcases hm with rfl | rfl <;> rfl
    have h2 : read (.space rev) c = some (.attr rev) := by rw [read, if_pos (hn.2 c (by simp))]
    have h3 : reads (.attr rev) n = some (.attr rev) := reads_attr (List.all_eq_true.2 fun c hc => hn.2 c (by simp [hc])) rev
    show reads m (' ' :: c :: (n ++ c!"=\"") ++ v ++ c!"\"") = _
    rw [List.append_assoc, List.cons_append, List.cons_append, reads_cons, h1, Option.bind_some, reads_cons, h2, Option.bind_some, List.append_assoc,
      reads_then h3, reads_then (s := c!"=\"") (m' := .value rev) rfl, reads_then (reads_value hv rev)]
    rfl

theorem reads_attributes {as : List (Str × Str)} (h : Attributes as) {m : At} {rev : Str} (hm : m = .name rev ∨ m = .after rev) :
    ∃ m', (m' = .name rev ∨ m' = .after rev) ∧ reads m (as.flatMap quoted) = some m' := by
  obtain ⟨h1, h2, -⟩ := h
  induction as generalizing m with
  | nil => exact ⟨m, hm, rfl⟩
  | cons a as ih =>
    rw [List.flatMap_cons, reads_then (reads_quoted (h1 a (by simp)) (h2 a (by simp)) hm)]
    exact ih (.inr rfl) (fun b hb => h1 b (by simp [hb])) (fun b hb => h2 b (by simp [hb]))

theorem reads_start {name : Str} (hn : name.all Char.isLower = true) {as : List (Str × Str)} (h : Attributes as) (b : Bool) :
    reads (.content b) (startTag name as) = some (.content (decide (name ∈ tokens))) := by
  obtain ⟨m', hm, h2⟩ := reads_attributes h (m := .name name.reverse) (rev := name.reverse) (.inl rfl)
  have h1 : reads (.name []) name = some (.name name.reverse) := by rw [reads_name hn, List.append_nil]
  show reads (.content b) ('<' :: name ++ _ ++ _) = _
  rw [List.append_assoc, List.cons_append, reads_cons, read, if_pos rfl, Option.bind_some, reads_then h1, reads_then h2]
  rcases hm with rfl | rfl <;> (show some (At.content (decide (name.reverse.reverse ∈ tokens))) = _; rw [List.reverse_reverse])

theorem reads_empty {name : Str} (hn : name.all Char.isLower = true) {as : List (Str × Str)} (h : Attributes as) (b : Bool) :
    reads (.content b) (emptyTag name as) = some (.content false) := by
  obtain ⟨m', hm, h2⟩ := reads_attributes h (m := .name name.reverse) (rev := name.reverse) (.inl rfl)
  have h1 : reads (.name []) name = some (.name name.reverse) := by rw [reads_name hn, List.append_nil]
  show reads (.content b) ('<' :: name ++ _ ++ _) = _
  rw [List.append_assoc, List.cons_append, reads_cons, read, if_pos rfl, Option.bind_some, reads_then h1, reads_then h2]
  rcases hm with rfl | rfl <;> rfl

theorem reads_end {name : Str} (hn : name.all Char.isLower = true) (b : Bool) : reads (.content b) (endTag name) = some (.content false) := by
  show reads (.content b) ('<' :: '/' :: (name ++ _)) = _
  rw [reads_cons, read, if_pos rfl, Option.bind_some, reads_cons, show read (.name []) '/' = some .stop from rfl, Option.bind_some, reads_then (reads_stop hn)]
  rfl

theorem reads_chars {s : Str} (hE : ∀ n ∈ E, n.all plain = true) (h : Chars E s) : reads (.content true) s = some (.content true) := by
  have step : ∀ {c : Char} {s : Str}, isChar c = true → c ≠ '<' → reads (.content true) (c :: s) = reads (.content true) s := by
    intro c s h1 h2
    rw [reads_cons, read, if_neg h2, Bool.true_and, if_pos h1]
    rfl
  induction h with
  | nil => rfl
  | char a b _ _ ih => rw [step a b, ih]
  | @entity n s a _ ih =>
    rw [step (by decide) (by decide)]
    have : ∀ t : Str, t.all plain = true → ∀ r, reads (.content true) (t ++ r) = reads (.content true) r := by
      intro t ht r
      induction t with
      | nil => rfl
      | cons c t ih =>
        rw [List.all_cons, Bool.and_eq_true, plain_iff] at ht
        rw [List.cons_append, step ht.1.1 ht.1.2.1, ih ht.2]
    rw [this n (hE n a), step (by decide) (by decide), ih]

theorem children_lower (name : Str) : ∀ n ∈ children name, n.all Char.isLower = true := by
  unfold children
  repeat' split
  all_goals decide

theorem reads_elements {N : List Str} {s : Str} (hE : ∀ n ∈ E, n.all plain = true) (h : Elements E N s) (hN : ∀ n ∈ N, n.all Char.isLower = true) :
    reads (.content false) s = some (.content false) := by
  induction h with
  | nil => rfl
  | token a b c d _ ih =>
    rw [List.append_assoc, List.append_assoc, reads_then (reads_start (hN _ a) c _), decide_eq_true b, reads_then (reads_chars hE d.1),
      reads_then (reads_end (hN _ a) _), ih hN]
  | node a b c d e _ ih1 ih2 =>
    rw [List.append_assoc, List.append_assoc, reads_then (reads_start (hN _ a) d _), decide_eq_false b, reads_then (ih1 (children_lower _)),
      reads_then (reads_end (hN _ a) _), ih2 hN]
  | empty a b _ ih => rw [reads_then (reads_empty (by decide) b _), ih hN]

/-- A document can be read. -/
theorem reads_document {s : Str} (hE : ∀ n ∈ E, n.all plain = true) (h : Document E s) : reads (.content false) s = some (.content false) := by
  obtain ⟨as, inner, h1, h2, rfl⟩ := h
  rw [List.append_assoc, reads_then (reads_start (by decide) h1 _), show decide (c!"math" ∈ tokens) = false from by decide,
    reads_then (reads_elements hE h2 (children_lower _))]
  exact reads_end (by decide) _

/-! ## References -/

/-- Every `&` begins a reference. -/
def refs (E : List Str) : Str → Bool
  | [] => true
  | c :: s => (c != '&' || E.any fun n => (n ++ c!";").isPrefixOf s) && refs E s

theorem refs_none {s : Str} (h : '&' ∉ s) : refs E s = true := by
  induction s with
  | nil => rfl
  | cons c s ih =>
    rw [refs, ih fun h' => h (by simp [h'])]
    have : c ≠ '&' := fun e => h (by simp [e])
    simp [this]

theorem refs_append {s t : Str} (h : refs E s = true) (h' : refs E t = true) : refs E (s ++ t) = true := by
  induction s with
  | nil => exact h'
  | cons c s ih =>
    rw [refs, Bool.and_eq_true] at h
    rw [List.cons_append, refs, ih h.2, Bool.and_true]
    rcases Bool.or_eq_true_iff.1 h.1 with h1 | h1
    · rw [h1]; rfl
    · rw [List.any_eq_true] at h1
      obtain ⟨n, hn, h2⟩ := h1
      rw [Bool.or_eq_true_iff]
      right
      rw [List.any_eq_true]
      refine ⟨n, hn, ?_⟩
      rw [List.isPrefixOf_iff_prefix] at h2 ⊢
      exact h2.trans (List.prefix_append _ _)

theorem refs_chars {s : Str} (hE : ∀ n ∈ E, n.all plain = true) (h : Chars E s) : refs E s = true := by
  induction h with
  | nil => rfl
  | char _ _ c _ ih => rw [refs, ih]; simp [c]
  | @entity n s a _ ih =>
    rw [refs, Bool.and_eq_true, Bool.or_eq_true_iff]
    constructor
    · right
      rw [List.any_eq_true]
      exact ⟨n, a, List.isPrefixOf_iff_prefix.2 ⟨s, by simp⟩⟩
    · refine refs_append (refs_none fun hm => ?_) ?_
      · have := List.all_eq_true.1 (hE n a) '&' hm
        revert this
        decide
      · rw [refs, ih]; rfl

theorem amp_quoted {as : List (Str × Str)} (h : Attributes as) : '&' ∉ as.flatMap quoted := by
  obtain ⟨h1, h2, -⟩ := h
  induction as with
  | nil => simp
  | cons a as ih =>
    rw [List.flatMap_cons]
    intro hm
    rcases List.mem_append.1 hm with hm | hm
    · unfold quoted at hm
      simp only [List.mem_append, List.mem_cons, List.not_mem_nil, or_false] at hm
      rcases hm with (((hm | hm) | hm) | hm) | hm
      · revert hm; decide
      · have := (h1 a (by simp)).2 _ hm
        revert this; decide
      · revert hm; decide
      · exact (h2 a (by simp) _ hm).2.2.1 rfl
      · revert hm; decide
    · exact ih (fun b hb => h1 b (by simp [hb])) (fun b hb => h2 b (by simp [hb])) hm

theorem amp_lower {n : Str} (h : n.all Char.isLower = true) : '&' ∉ n := by
  intro hm
  have := List.all_eq_true.1 h _ hm
  revert this
  decide

theorem refs_start {name : Str} (hn : name.all Char.isLower = true) {as : List (Str × Str)} (h : Attributes as) : refs E (startTag name as) = true :=
  refs_append (refs_append (refs_append (refs_none (by decide)) (refs_none (amp_lower hn))) (refs_none (amp_quoted h))) (refs_none (by decide))

theorem refs_end {name : Str} (hn : name.all Char.isLower = true) : refs E (endTag name) = true :=
  refs_append (refs_append (refs_none (by decide)) (refs_none (amp_lower hn))) (refs_none (by decide))

theorem refs_elements {N : List Str} {s : Str} (hE : ∀ n ∈ E, n.all plain = true) (h : Elements E N s) (hN : ∀ n ∈ N, n.all Char.isLower = true) :
    refs E s = true := by
  induction h with
  | nil => rfl
  | token a b c d _ ih => exact refs_append (refs_append (refs_append (refs_start (hN _ a) c) (refs_chars hE d.1)) (refs_end (hN _ a))) (ih hN)
  | node a b c d e _ ih1 ih2 =>
    exact refs_append (refs_append (refs_append (refs_start (hN _ a) d) (ih1 (children_lower _))) (refs_end (hN _ a))) (ih2 hN)
  | empty a b _ ih =>
    exact refs_append (refs_append (refs_append (refs_append (refs_none (by decide)) (refs_none (by decide))) (refs_none (amp_quoted b))) (refs_none (by decide))) (ih hN)

/-- In a document every `&` begins a reference. -/
theorem refs_document {s : Str} (hE : ∀ n ∈ E, n.all plain = true) (h : Document E s) : refs E s = true := by
  obtain ⟨as, inner, h1, h2, rfl⟩ := h
  exact refs_append (refs_append (refs_start (by decide) h1) (refs_elements hE h2 (children_lower _))) (refs_end (by decide))

end PL.Spec.Xml
