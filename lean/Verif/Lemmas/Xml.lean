import Verif.Spec.Xml
import Verif.Lemmas.Render.ExactTree
set_option autoImplicit false
set_option linter.unusedSectionVars false
/-!
# The documents of trees are well-formed XML
-/
namespace PL.Spec.Xml
open PL PL.Spec PL.Mathml

variable {E : List Str} {P : Printing}

/-! ## Attributes -/

/-- A character of a value. -/
def good (c : Char) : Bool := isChar c && c != '<' && c != '&' && c != '"'

theorem goodDigits (n : Nat) : (Nat.toDigits 10 n).all good = true := by
  rw [List.all_eq_true]
  intro c hc
  have h := Nat.isDigit_of_mem_toDigits (by decide) (by decide) hc
  rw [Char.isDigit_iff_toNat] at h
  replace h : 48 ≤ c.toNat ∧ c.toNat ≤ 57 := h
  simp only [good, isChar, Bool.and_eq_true, Bool.or_eq_true, decide_eq_true_eq, bne_iff_ne, ne_eq]
  refine ⟨⟨⟨?_, ?_⟩, ?_⟩, ?_⟩
  · left; left; right; show 32 ≤ c.toNat ∧ c.toNat ≤ 55295; omega
  all_goals (rintro rfl; revert h; decide)

theorem goodJoined {sep : Str} (hs : sep.all good = true) : ∀ {ws : List Str}, (∀ w ∈ ws, w.all good = true) → (joined sep ws).all good = true
  | [], _ => rfl
  | [w], h => by rw [joined]; exact h w (by simp)
  | w :: x :: ws, h => by
    rw [joined, List.all_append, List.all_append, h w (by simp), hs, goodJoined hs fun y hy => h y (by simp [hy])]
    · rfl
    · intro h; cases h

theorem goodRgb (c : Nat × Nat × Nat) : (rgb c).all good = true := by
  unfold rgb
  rw [List.all_append, List.all_append]
  rw [goodJoined (by decide) (by
    intro w hw
    rcases List.mem_cons.1 hw with rfl | hw
    · exact goodDigits _
    rcases List.mem_cons.1 hw with rfl | hw
    · exact goodDigits _
    rcases List.mem_cons.1 hw with rfl | hw
    · exact goodDigits _
    · cases hw)]
  decide

/-- The name of an attribute. -/
def named (n : Str) : Bool := !n.isEmpty && n.all Char.isLower

theorem attributes_of {as : List (Str × Str)} (h1 : ∀ a ∈ as, named a.1 = true ∧ a.2.all good = true)
    (h2 : (as.map Prod.fst).Nodup) : Attributes as := by
  refine ⟨fun a ha => ?_, fun a ha c hc => ?_, h2⟩
  · have := (h1 a ha).1
    simp only [named, Bool.and_eq_true, Bool.not_eq_true', List.isEmpty_eq_false_iff, List.all_eq_true] at this
    exact this
  · have := List.all_eq_true.1 (h1 a ha).2 c hc
    simp only [good, Bool.and_eq_true, bne_iff_ne, ne_eq] at this
    exact ⟨this.1.1.1, this.1.1.2, this.1.2, this.2⟩

/-- Attributes besides those for style and colours. -/
def Besides (as : List (Str × Str)) : Prop :=
  (∀ a ∈ as, (named a.1 = true ∧ a.2.all good = true) ∧ a.1 ∉ [c!"displaystyle", c!"scriptlevel", c!"style"]) ∧ (as.map Prod.fst).Nodup

theorem colour_cases (st : RState) : colourAttributes st = [] ∨ ∃ v, colourAttributes st = [(c!"style", v)] ∧ v.all good = true := by
  have h : ∀ ds : List Str, (∀ d ∈ ds, d.all good = true) → (match ds with
      | [] => []
      | ds => [(c!"style", joined c!"; " ds)] : List (Str × Str)) = [] ∨ ∃ v, (match ds with
      | [] => []
      | ds => [(c!"style", joined c!"; " ds)] : List (Str × Str)) = [(c!"style", v)] ∧ v.all good = true := by
    intro ds hd
    cases ds with
    | nil => exact .inl rfl
    | cons d ds => exact .inr ⟨_, rfl, goodJoined (by decide) hd⟩
  refine h _ fun d hd => ?_
  have key : ∀ (p : Str) (o : Option (Nat × Nat × Nat)), p.all good = true → ∀ d ∈ (o.map fun c => p ++ rgb c).toList, d.all good = true := by
    intro p o hp d hd
    cases o with
    | none => cases hd
    | some c =>
      rw [Option.map_some, Option.toList_some, List.mem_singleton] at hd
      rw [hd, List.all_append, hp, goodRgb]
      rfl
  rcases List.mem_append.1 hd with hd | hd
  · rcases List.mem_append.1 hd with hd | hd
    · exact key _ _ (by decide) d hd
    · exact key _ _ (by decide) d hd
  · exact key _ _ (by decide) d hd

theorem look (r : Role) (st : RState) {as : List (Str × Str)} (h : Besides as) : Attributes (lookAttributes r st ++ as) := by
  obtain ⟨h1, h2⟩ := h
  unfold lookAttributes
  have hs : (if r = .script then [] else styleAttributes st.style) ∈ [[], styleAttributes (some .display), styleAttributes (some .text),
      styleAttributes (some .script), styleAttributes (some .scriptScript)] := by
    split
    · simp
    · cases st.style with
      | none => simp [styleAttributes]
      | some s => cases s <;> simp
  generalize (if r = .script then [] else styleAttributes st.style) = l at hs
  have fresh : ∀ n ∈ [c!"displaystyle", c!"scriptlevel", c!"style"], n ∉ as.map Prod.fst := by
    intro n hn hm
    obtain ⟨a, ha, rfl⟩ := List.mem_map.1 hm
    exact (h1 a ha).2 hn
  have f1 := fresh c!"displaystyle" (by decide)
  have f2 := fresh c!"scriptlevel" (by decide)
  have f3 := fresh c!"style" (by decide)
  have hl : (∀ a ∈ l, named a.1 = true ∧ a.2.all good = true) ∧ (l.map Prod.fst = [] ∨ l.map Prod.fst = [c!"displaystyle", c!"scriptlevel"]) := by
    revert l
    decide
  refine attributes_of (fun a ha => ?_) ?_
  · rcases List.mem_append.1 ha with ha | ha
    · rcases List.mem_append.1 ha with ha | ha
      · exact hl.1 a ha
      · rcases colour_cases st with e | ⟨v, e, hv⟩
        · rw [e] at ha; cases ha
        · rw [e, List.mem_singleton] at ha
          subst ha
          exact ⟨rfl, hv⟩
    · exact (h1 a ha).1
  · rw [List.map_append, List.map_append]
    have e : (colourAttributes st).map Prod.fst = [] ∨ (colourAttributes st).map Prod.fst = [c!"style"] := by
      rcases colour_cases st with e | ⟨v, e, -⟩
      · exact .inl (by rw [e]; rfl)
      · exact .inr (by rw [e]; rfl)
    have d1 : c!"displaystyle" ≠ c!"scriptlevel" := by decide
    have d2 : c!"displaystyle" ≠ c!"style" := by decide
    have d3 : c!"scriptlevel" ≠ c!"style" := by decide
    generalize c!"displaystyle" = x at *
    generalize c!"scriptlevel" = y at *
    generalize c!"style" = z at *
    rcases hl.2 with e1 | e1 <;> rcases e with e2 | e2 <;> rw [e1, e2] <;> simp [List.nodup_cons, h2, f1, f2, f3, d1, d2, d3]

theorem besides_nil : Besides [] := ⟨by simp, by simp⟩

theorem besides_one {n v : Str} (hn : named n = true) (hn' : n ∉ [c!"displaystyle", c!"scriptlevel", c!"style"]) (hv : v.all good = true) : Besides [(n, v)] :=
  ⟨fun a ha => by rw [List.mem_singleton] at ha; subst ha; exact ⟨⟨hn, hv⟩, hn'⟩, by simp⟩

theorem besides_two {n v m w : Str} (hn : named n = true) (hn' : n ∉ [c!"displaystyle", c!"scriptlevel", c!"style"]) (hv : v.all good = true)
    (hm : named m = true) (hm' : m ∉ [c!"displaystyle", c!"scriptlevel", c!"style"]) (hw : w.all good = true) (hd : n ≠ m) : Besides [(n, v), (m, w)] := by
  refine ⟨fun a ha => ?_, by simp [hd]⟩
  rcases List.mem_cons.1 ha with rfl | ha
  · exact ⟨⟨hn, hv⟩, hn'⟩
  · rw [List.mem_singleton] at ha
    subst ha
    exact ⟨⟨hm, hw⟩, hm'⟩

theorem look' (r : Role) (st : RState) : Attributes (lookAttributes r st) := by
  have := look r st besides_nil
  rwa [List.append_nil] at this

theorem besides_classes {cs : List Str} (h : ∀ c ∈ cs, c.all good = true) : Besides (classes cs) := by
  cases cs with
  | nil => exact besides_nil
  | cons c cs => exact besides_one (by decide) (by decide) (goodJoined (by decide) h)

theorem attributes_besides {as : List (Str × Str)} (h : Besides as) : Attributes as := attributes_of (fun a ha => (h.1 a ha).1) h.2

/-! ## Text -/

theorem Chars.append {s t : Str} (h : Chars E s) (h' : Chars E t) : Chars E (s ++ t) := by
  induction h with
  | nil => exact h'
  | char a b c _ ih => exact .char a b c ih
  | entity a _ ih => rw [List.cons_append, List.append_assoc]; exact .entity a ih

theorem plain_iff {c : Char} : plain c = true ↔ isChar c = true ∧ c ≠ '<' ∧ c ≠ '&' := by
  simp [plain, and_assoc]

theorem chars_plain {s : Str} (h : s.all plain = true) : Chars E s := by
  induction s with
  | nil => exact .nil
  | cons c s ih =>
    rw [List.all_cons, Bool.and_eq_true, plain_iff] at h
    exact .char h.1.1 h.1.2.1 h.1.2.2 (ih h.2)

theorem not_cdata {s : Str} (h : '>' ∉ s) : ¬ c!"]]>" <:+: s := fun hs => h (hs.subset (by decide))

theorem text_short {s : Str} (h : s.all plain = true) (h' : s.length < 3) : Text E s := by
  refine ⟨chars_plain h, fun hs => ?_⟩
  have := hs.length_le
  simp only [List.length_cons, List.length_nil] at this
  omega

theorem text_long {s : Str} (h : s.all plain = true) (h' : '>' ∉ s) : Text E s := ⟨chars_plain h, not_cdata h'⟩

/-! ## Elements -/

theorem Elements.append {N : List Str} {s t : Str} (h : Elements E N s) (h' : Elements E N t) : Elements E N (s ++ t) := by
  induction h with
  | nil => exact h'
  | token a b c d _ ih => rw [List.append_assoc]; exact .token a b c d (ih h')
  | node a b c d e _ _ ih => rw [List.append_assoc]; exact .node a b c d e (ih h')
  | empty a b _ ih => rw [List.append_assoc]; exact .empty a b (ih h')

theorem tag_eq (name : Str) (as : List (Str × Str)) (inner : Str) : tag name as inner = startTag name as ++ inner ++ endTag name := by
  simp only [tag, startTag, endTag, List.append_assoc]
  rfl

theorem void_eq (name : Str) (as : List (Str × Str)) : void name as = emptyTag name as := rfl

theorem elements_token {N : List Str} {name t : Str} {as : List (Str × Str)} (h1 : name ∈ N) (h2 : name ∈ tokens) (h3 : Attributes as) (h4 : Text E t) :
    Elements E N (tag name as t) := by
  have := Elements.token h1 h2 h3 h4 Elements.nil
  rwa [List.append_nil, ← tag_eq] at this

theorem elements_node {N : List Str} {name t : Str} {as : List (Str × Str)} (h1 : name ∈ N) (h2 : name ∉ tokens) (h2' : name ≠ c!"mspace") (h3 : Attributes as)
    (h4 : Elements E (children name) t) : Elements E N (tag name as t) := by
  have := Elements.node h1 h2 h2' h3 h4 Elements.nil
  rwa [List.append_nil, ← tag_eq] at this

theorem elements_void {N : List Str} {as : List (Str × Str)} (h1 : c!"mspace" ∈ N) (h3 : Attributes as) : Elements E N (void c!"mspace" as) := by
  have := Elements.empty (E := E) h1 h3 Elements.nil
  rwa [List.append_nil, ← void_eq] at this

/-! ## Contents -/

/-- What is needed of fonts, dimensions and entities. -/
structure Faithful (E : List Str) (P : Printing) : Prop where
  mapped : ∀ f c, (isChar c = true → isChar (P.mapped f c) = true) ∧ (c ≠ '<' → P.mapped f c ≠ '<') ∧
    (c ≠ '&' → P.mapped f c ≠ '&') ∧ (c ≠ '>' → P.mapped f c ≠ '>')
  shown : ∀ d, (P.shown d).all good = true
  amp : c!"amp" ∈ E
  lt : c!"lt" ∈ E
  gt : c!"gt" ∈ E

variable (hP : Faithful E P)
include hP

theorem mapped_plain (f : Font) {c : Char} (h : plain c = true) : plain (P.mapped f c) = true := by
  rw [plain_iff] at h ⊢
  exact ⟨(hP.mapped f c).1 h.1, (hP.mapped f c).2.1 h.2.1, (hP.mapped f c).2.2.1 h.2.2⟩

theorem textual_char (f : Option Font) {c : Char} (h : isChar c = true) : isChar (P.textual f c) = true := by
  cases f with
  | none => exact h
  | some f => exact (hP.mapped f c).1 h

theorem digit_plain (f : Option Font) {c : Char} (h : plain c = true) (h' : c ≠ '>') : plain (P.digit f c) = true ∧ P.digit f c ≠ '>' := by
  cases f with
  | none => exact ⟨h, h'⟩
  | some f => cases f <;> exact ⟨mapped_plain hP _ h, (hP.mapped _ c).2.2.2 h'⟩

theorem letter_plain (f : Option Font) {c : Char} (h : plain c = true) : plain (P.letter f c).1 = true := by
  cases f with
  | none => exact h
  | some f => cases f <;> first | exact h | exact mapped_plain hP _ h

theorem escaped_chars {c : Char} (h : isChar c = true) : Chars E (escaped c) ∧ '>' ∉ escaped c := by
  unfold escaped
  split
  · exact ⟨.entity hP.amp .nil, by decide⟩
  · exact ⟨.entity hP.lt .nil, by decide⟩
  · exact ⟨.entity hP.gt .nil, by decide⟩
  · rename_i h1 h2 h3
    exact ⟨.char h h2 h1 .nil, fun e => h3 (List.mem_singleton.1 e).symm⟩

theorem escapes_chars (f : Option Font) {s : Str} (h : ∀ c ∈ s, isChar c = true) :
    Chars E (s.flatMap fun c => escaped (P.textual f c)) ∧ '>' ∉ (s.flatMap fun c => escaped (P.textual f c)) := by
  induction s with
  | nil => exact ⟨.nil, by simp⟩
  | cons c s ih =>
    have h1 := escaped_chars hP (textual_char hP f (h c (by simp)))
    have h2 := ih fun c hc => h c (by simp [hc])
    rw [List.flatMap_cons]
    exact ⟨h1.1.append h2.1, fun e => (List.mem_append.1 e).elim h1.2 h2.2⟩

theorem spaceAt_chars {o : Option Char} (h : c!"nbsp" ∈ E ∨ o.any isWs = false) : Chars E (spaceAt o) ∧ '>' ∉ spaceAt o := by
  clear hP
  cases o with
  | none => exact ⟨.nil, by simp [spaceAt]⟩
  | some c =>
    rw [spaceAt]
    split
    · rename_i hc
      rcases h with h | h
      · exact ⟨.entity h .nil, by decide⟩
      · rw [Option.any_some, hc] at h; cases h
    · exact ⟨.nil, by simp⟩

theorem trimmed_mem {t : Str} {c : Char} (h : c ∈ trimmed t) : c ∈ t := by
  clear hP
  unfold trimmed at h
  rw [List.mem_reverse] at h
  have := (List.dropWhile_suffix isWs).subset h
  rw [List.mem_reverse] at this
  exact (List.dropWhile_suffix isWs).subset this

theorem thin_elements : Elements E presentation thinSpace := by
  clear hP
  exact elements_void (by decide) (attributes_besides (besides_one (by decide) (by decide) (by decide)))

theorem application_elements (next : Option Atom) : Elements E presentation (application next) := by
  have h1 : Elements E presentation (tag c!"mo" [] ['⁡']) :=
    elements_token (by decide) (by decide) (attributes_besides besides_nil) (text_short (by decide) (by decide))
  have h2 := h1.append (thin_elements hP)
  cases next with
  | none => exact .nil
  | some a => cases a <;> first | exact h1 | exact h2

theorem content_elements (r : Role) (st : RState) (pv next : Option Atom) (neg : Bool) {c : Content} (h : plainContent E c = true) :
    Elements E presentation (P.content r st pv next neg c) := by
  have hst : ∀ {c : Char}, plain c = true → Text E (c :: (if neg then ['̸'] else [])) := by
    intro c hc
    refine text_short ?_ ?_
    · rw [List.all_cons, hc]; cases neg <;> decide
    · cases neg <;> simp
  have elem : ∀ {name : Str} {as : List (Str × Str)} {t : Str}, name ∈ presentation → name ∈ tokens → Besides as → Text E t →
      Elements E presentation (tag name (lookAttributes r st ++ as) t) :=
    fun h1 h2 h3 h4 => elements_token h1 h2 (look r st h3) h4
  have small : ∀ b : Bool, Besides (if b then classes [c!"small"] else []) := by
    intro b
    cases b
    · exact besides_nil
    · exact besides_classes (cs := [c!"small"]) (by decide)
  have normal : ∀ b : Bool, Besides (if b then [(c!"mathvariant", c!"normal")] else []) := by
    intro b
    cases b
    · exact besides_nil
    · exact besides_one (by decide) (by decide) (by decide)
  cases c with
  | text t =>
    simp only [plainContent, Bool.and_eq_true, Bool.or_eq_true, List.all_eq_true, decide_eq_true_eq, Bool.not_eq_true', Bool.or_eq_false_iff] at h
    have h1 := spaceAt_chars hP (o := t.head?) (h.2.imp id fun h => h.1)
    have h2 := spaceAt_chars hP (o := t.getLast?) (h.2.imp id fun h => h.2)
    have h3 := escapes_chars hP st.font (s := trimmed t) fun c hc => h.1 c (trimmed_mem hP hc)
    refine elem (by decide) (by decide) besides_nil ⟨(h1.1.append h3.1).append h2.1, not_cdata fun e => ?_⟩
    rcases List.mem_append.1 e with e | e
    · exact (List.mem_append.1 e).elim h1.2 h3.2
    · exact h2.2 e
  | number t =>
    simp only [plainContent, Bool.and_eq_true, List.all_eq_true, Bool.not_eq_true', List.contains_eq_mem, decide_eq_false_iff_not] at h
    refine elem (by decide) (by decide) besides_nil (text_long ?_ ?_)
    · rw [List.all_eq_true]
      intro c hc
      obtain ⟨x, hx, rfl⟩ := List.mem_map.1 hc
      exact (digit_plain hP st.font (h.1 x hx) fun e => h.2 (e ▸ hx)).1
    · intro hc
      obtain ⟨x, hx, e⟩ := List.mem_map.1 hc
      exact (digit_plain hP st.font (h.1 x hx) fun e => h.2 (e ▸ hx)).2 e
  | function t =>
    simp only [plainContent, Bool.and_eq_true, Bool.not_eq_true', List.contains_eq_mem, decide_eq_false_iff_not] at h
    refine Elements.append (Elements.append ?_ ?_) ?_
    · split
      · exact thin_elements hP
      · exact .nil
    · refine elem (by decide) (by decide) ?_ (text_long h.1 h.2)
      have := normal (decide (t.length = 1))
      simpa using this
    · split
      · exact .nil
      · exact application_elements hP next
  | ordinary c b =>
    cases b with
    | true =>
      exact elements_token (by decide) (by decide) (attributes_besides (besides_one (by decide) (by decide) (by decide)))
        (text_short (by rw [List.all_cons, show plain c = true from h]; rfl) (by simp))
    | false => exact elem (by decide) (by decide) (normal _) (hst (letter_plain hP _ h))
  | binaryOp c b =>
    have : Elements E presentation (tag (if actsBinary r pv next then c!"mo" else c!"mi") (lookAttributes r st ++ _) _) :=
      elem (by split <;> decide) (by split <;> decide) (small b) (hst h)
    exact this
  | relation c second b =>
    simp only [plainContent, Bool.and_eq_true] at h
    refine elem (by decide) (by decide) (small b) ⟨chars_plain ?_, ?_⟩
    · rw [List.all_append, List.all_cons, h.1]
      have : second.toList.all plain = true := by cases second <;> simp_all
      rw [this]
      cases neg <;> decide
    · intro hs
      have hl := hs.length_le
      have : neg = true ∧ second.isSome := by
        cases neg <;> cases second <;> simp at hl ⊢
      obtain ⟨rfl, h2⟩ := this
      obtain ⟨x, rfl⟩ := Option.isSome_iff_exists.1 h2
      have := hs.eq_of_length (by simp)
      revert this
      simp
  | largeOp c b =>
    refine elem (by decide) (by decide) ?_ (hst h)
    cases b
    · exact besides_one (by decide) (by decide) (by decide)
    · exact besides_two (by decide) (by decide) (by decide) (by decide) (by decide) (by decide) (by decide)
  | delimiter c z ty =>
    simp only [plainContent, Bool.and_eq_true] at h
    cases z with
    | some z => cases h.2
    | none =>
      refine elem (by decide) (by decide) ?_ (hst h.1)
      cases ty <;> exact besides_two (by decide) (by decide) (by decide) (by decide) (by decide) (by decide) (by decide)
  | punctuation c => exact elem (by decide) (by decide) besides_nil (hst h)

theorem space_elements {w h d : Option Dim} (hw : w.isSome = true) : Elements E presentation (P.space w h d) := by
  obtain ⟨w, rfl⟩ := Option.isSome_iff_exists.1 hw
  refine elements_void (by decide) (attributes_of ?_ ?_)
  · have hm : ∀ d : Dim, (c!"margin-left: " ++ P.shown d).all good = true := fun d => by rw [List.all_append, hP.shown]; decide
    intro a ha
    have key : ∀ (n : Str) (o : Option Dim), named n = true → a ∈ (o.map fun h => (n, P.shown h)).toList → named a.1 = true ∧ a.2.all good = true := by
      intro n o hn h
      cases o with
      | none => cases h
      | some x =>
        rw [Option.map_some, Option.toList_some, List.mem_singleton] at h
        subst h
        exact ⟨hn, hP.shown x⟩
    rcases List.mem_append.1 ha with ha | ha
    · rcases List.mem_cons.1 ha with rfl | ha
      · exact ⟨rfl, hP.shown w⟩
      · split at ha
        · rw [List.mem_singleton] at ha
          subst ha
          exact ⟨rfl, hm w⟩
        · cases ha
    · rcases List.mem_append.1 ha with ha | ha
      · exact key _ _ rfl ha
      · exact key _ _ rfl ha
  · split <;> cases h <;> cases d <;> (simp only [Option.map_some, Option.map_none, Option.toList_some, Option.toList_none, List.append_nil,
      List.nil_append, List.cons_append, List.map_cons, List.map_nil]; decide)

theorem stretched_elements (r : Role) (st : RState) {o : Option Char} (h : o.all plain = true) : Elements E presentation (stretched r st o) := by
  clear hP
  cases o with
  | none => exact .nil
  | some c =>
    exact elements_token (by decide) (by decide) (look r st (besides_one (by decide) (by decide) (by decide)))
      (text_short (by rw [List.all_cons, show plain c = true from h]; rfl) (by simp))

/-! ## Tables -/

theorem tableClasses_good (g : Grouping) : ∀ c ∈ tableClasses g, c.all good = true := by
  clear hP
  cases g with
  | align b => cases b <;> decide
  | alignat n b => cases b <;> (simp only [tableClasses]; decide)
  | matrix a => cases a <;> decide
  | subArray a => cases a <;> decide
  | gather b => cases b <;> decide
  | equation b => cases b <;> decide
  | _ => simp only [tableClasses] <;> decide

theorem borderClass_good {side : Str} (h : side.all good = true) (l : Line) : (borderClass side l).all good = true := by
  clear hP
  cases l <;> (rw [borderClass, List.all_append, List.all_append, h]; decide)

theorem cell_elements {as : List (Str × Str)} (ha : Attributes as) {inner : Str} (h : Elements E presentation inner) :
    Elements E [c!"mtd"] (tag c!"mtd" as inner) := by
  clear hP
  exact elements_node (by decide) (by decide) (by decide) ha h

theorem flatMap_elements {α : Type} {N : List Str} {f : α → Str} (h : ∀ a, Elements E N (f a)) : ∀ l : List α, Elements E N (l.flatMap f)
  | [] => .nil
  | a :: l => by
    rw [List.flatMap_cons]
    exact (h a).append (flatMap_elements h l)

theorem borderCell_elements {side : Str} (h : side.all good = true) (l : Line) : Elements E [c!"mtd"] (borderCell side l) := by
  refine cell_elements hP (attributes_besides (besides_classes ?_)) .nil
  intro c hc
  rcases List.mem_cons.1 hc with rfl | hc
  · exact borderClass_good hP h l
  · rw [List.mem_singleton] at hc; subst hc; decide

theorem tableCell_elements (g : Grouping) (i : Nat) {inner : Str} (h : Elements E presentation inner) : Elements E [c!"mtd"] (tableCell g i inner) := by
  unfold tableCell
  split
  · dsimp only
    split
    · exact .nil
    · refine Elements.append (Elements.append (flatMap_elements hP (borderCell_elements hP (by decide)) _) ?_)
        (flatMap_elements hP (borderCell_elements hP (by decide)) _)
      refine cell_elements hP (attributes_besides (besides_classes ?_)) h
      have key : ∀ (side : Str) (o : Option Line), side.all good = true → ∀ c ∈ (o.map (borderClass side)).toList, c.all good = true := by
        intro side o hs c hc
        cases o with
        | none => cases hc
        | some l =>
          rw [Option.map_some, Option.toList_some, List.mem_singleton] at hc
          rw [hc]
          exact borderClass_good hP hs l
      have aligned : ∀ a : ColAlign, ∀ c ∈ alignClasses a, c.all good = true := by
        intro a
        cases a <;> decide
      intro c hc
      rcases List.mem_append.1 hc with hc | hc
      · rcases List.mem_append.1 hc with hc | hc
        · exact key _ _ (by decide) c hc
        · exact aligned _ c hc
      · exact key _ _ (by decide) c hc
  · exact cell_elements hP (attributes_besides besides_nil) h

theorem row_elements {as : List (Str × Str)} (ha : Attributes as) {inner : Str} (h : Elements E [c!"mtd"] inner) :
    Elements E [c!"mtr"] (tag c!"mtr" as inner) := by
  clear hP
  exact elements_node (by decide) (by decide) (by decide) ha h

theorem blank_elements : Elements E [c!"mtd"] blankCell := cell_elements hP (attributes_besides (besides_classes (by decide))) .nil

theorem lineClass_good (l : Line) : ∀ c ∈ lineClass l, c.all good = true := by
  clear hP
  cases l <;> decide

theorem linedRow_elements {inner : Str} (h : Elements E [c!"mtd"] inner) : ∀ ls : List Line, Elements E [c!"mtr"] (linedRow ls inner)
  | [] => row_elements hP (attributes_besides besides_nil) h
  | [l] => row_elements hP (attributes_besides (besides_classes (lineClass_good hP l))) h
  | l :: l' :: ls => by
    rw [linedRow]
    · exact (row_elements hP (attributes_besides (besides_classes (lineClass_good hP l))) (blank_elements hP)).append (linedRow_elements h (l' :: ls))
    · intro h; cases h

theorem emptyCells_elements (g : Grouping) : ∀ i n : Nat, Elements E [c!"mtd"] (emptyCells g i n)
  | _, 0 => .nil
  | i, n + 1 => (tableCell_elements hP g i .nil).append (emptyCells_elements g (i + 1) n)

theorem spacingRow_elements (g : Grouping) (n : Nat) (d : Option Dim) : Elements E [c!"mtr"] (spacingRow P g n d) := by
  cases d with
  | none => exact .nil
  | some d =>
    refine row_elements hP (attributes_of ?_ (by simp)) ?_
    · intro a ha
      rw [List.mem_singleton] at ha
      subst ha
      exact ⟨rfl, by rw [List.all_append, hP.shown]; decide⟩
    · split
      · exact emptyCells_elements hP _ 0 n
      · exact blank_elements hP

theorem table_elements (g : Grouping) {rows : Str} (h : Elements E [c!"mtr"] rows) : Elements E presentation (tableElement g rows) := by
  have ht : Elements E presentation (tag c!"mtable" (classes (tableClasses g)) rows) :=
    elements_node (by decide) (by decide) (by decide) (attributes_besides (besides_classes (tableClasses_good hP g))) h
  unfold tableElement
  dsimp only
  split
  · rename_i left
    have hb : ∀ c : Char, plain c = true → Elements E presentation (tag c!"mo" [(c!"stretchy", c!"true")] [c]) := fun c hc =>
      elements_token (by decide) (by decide) (attributes_besides (besides_one (by decide) (by decide) (by decide)))
        (text_short (by rw [List.all_cons, hc]; rfl) (by simp))
    refine elements_node (by decide) (by decide) (by decide) (attributes_besides besides_nil) ?_
    show Elements E presentation _
    refine Elements.append (Elements.append ?_ ht) ?_
    · split
      · exact hb _ (by decide)
      · exact .nil
    · split
      · exact .nil
      · exact hb _ (by decide)
  · exact ht

/-! ## Trees -/

mutual
theorem node_elements : ∀ (n : Node), n.events.all (plainEvent E) = true → ∀ r st pv next, Elements E presentation (n.markup P r st pv next).text
  | .content c, h => fun r st pv next => by
    rw [Node.markup]
    simp only [Node.events, List.all_cons, List.all_nil, Bool.and_true] at h
    exact content_elements hP r st pv next false h
  | .space w h d, hf => fun r st pv next => by
    rw [Node.markup]
    simp only [Node.events, List.all_cons, List.all_nil, Bool.and_true] at hf
    exact space_elements hP hf
  | .change sc, _ => fun r st pv next => by rw [Node.markup]; exact .nil
  | .group delims cs b, h => fun r st pv next => by
    have hb : b.events.all (plainEvent E) = true := by
      cases delims <;> (simp only [Node.events, List.all_cons, List.all_append, Bool.and_eq_true] at h; exact h.2.2.1)
    rw [Node.markup.eq_def]
    refine elements_node (by decide) (by decide) (by decide) (look' _ _) ?_
    show Elements E presentation _
    cases delims with
    | none => exact nodes_elements b hb _ _ _ _
    | some lr =>
      obtain ⟨x, y⟩ := lr
      simp only [Node.events, List.all_cons, plainEvent, Bool.and_eq_true] at h
      exact Elements.append (Elements.append (stretched_elements hP _ _ h.1.1) (nodes_elements b hb _ _ _ _)) (stretched_elements hP _ _ h.1.2)
  | .script ty pos ops, h => fun r st pv next => by
    have hb : ops.events.all (plainEvent E) = true := by
      simp only [Node.events, List.all_cons, Bool.and_eq_true] at h; exact h.2
    rw [Node.markup]
    refine Elements.append ?_ ?_
    · have hc : ∀ n ∈ [c!"munder", c!"msub", c!"mover", c!"msup", c!"munderover", c!"msubsup"], n ∈ presentation ∧ n ∉ tokens ∧ n ≠ c!"mspace" ∧ children n = presentation := by
        decide
      have hm : scriptElement ty (P.above st pos) ∈ [c!"munder", c!"msub", c!"mover", c!"msup", c!"munderover", c!"msubsup"] := by
        cases ty <;> cases P.above st pos <;> decide
      obtain ⟨h1, h2, h3, h4⟩ := hc _ hm
      exact elements_node h1 h2 h3 (look' _ _) (by rw [h4]; exact nodes_elements ops hb _ _ _ _)
    · split
      · exact application_elements hP next
      · exact .nil
  | .visual v ops, h => fun r st pv next => by
    have hb : ops.events.all (plainEvent E) = true := by
      simp only [Node.events, List.all_cons, Bool.and_eq_true] at h; exact h.2
    by_cases hv : v = .negation
    · subst hv
      cases hs : ops.stroked with
      | none =>
        rw [markup_negation hs]
        exact elements_node (by decide) (by decide) (by decide) (look _ _ (besides_classes (by decide))) (nodes_elements ops hb _ _ _ _)
      | some c =>
        rw [markup_stroked hs]
        have hop : ops = .cons (.content c) .nil := by
          unfold Nodes.stroked at hs
          split at hs
          · split at hs
            · cases hs; rfl
            · cases hs
          · cases hs
        subst hop
        simp only [Nodes.events, Node.events, List.append_nil, List.all_cons, List.all_nil, Bool.and_true] at hb
        exact content_elements hP _ _ _ _ _ hb
    · rw [markup_visual hv]
      have hc : ∀ n ∈ [c!"mroot", c!"msqrt", c!"mfrac"], n ∈ presentation ∧ n ∉ tokens ∧ n ≠ c!"mspace" ∧ children n = presentation := by decide
      have hm : visualElement v ∈ [c!"mroot", c!"msqrt", c!"mfrac"] := by
        cases v with
        | negation => exact absurd rfl hv
        | fraction x => rw [visualElement]; decide
        | root => decide
        | squareRoot => decide
      obtain ⟨h1, h2, h3, h4⟩ := hc _ hm
      refine elements_node h1 h2 h3 ?_ (by rw [h4]; exact nodes_elements ops hb _ _ _ _)
      unfold visualAttributes
      split
      · exact look _ _ (besides_one (by decide) (by decide) (hP.shown _))
      · exact look' _ _
  | .table g ls rows, h => fun r st pv next => by
    have hr : rows.events.all (plainEvent E) = true := by
      cases ls <;> simp only [Node.events, List.all_cons, List.all_append, Bool.and_eq_true] at h
      · exact h.2.1
      · exact h.2.2.1
    cases g with
    | equation b =>
      rw [Node.markup]
      dsimp only
      refine table_elements hP _ ?_
      split
      · exact linedRow_elements hP (tableCell_elements hP _ 0 (rows_joined rows hr)) []
      · exact rows_elements rows hr _ _
    | _ =>
      rw [Node.markup]
      · dsimp only; exact table_elements hP _ (rows_elements rows hr _ _)
      · intro b e; cases e
theorem nodes_elements : ∀ (ns : Nodes), ns.events.all (plainEvent E) = true → ∀ rs st pv next, Elements E presentation (ns.markup P rs st pv next).text
  | .nil, _ => fun rs st pv next => by rw [Nodes.markup]; exact .nil
  | .cons n ns, h => fun rs st pv next => by
    rw [Nodes.events, List.all_append, Bool.and_eq_true] at h
    rw [Nodes.markup]
    exact (node_elements n h.1 _ _ _ _).append (nodes_elements ns h.2 _ _ _ _)
theorem rows_elements : ∀ (rows : Rows), rows.events.all (plainEvent E) = true → ∀ g ls, Elements E [c!"mtr"] (rows.markup P g ls)
  | .last cs, h => fun g ls => by
    rw [Rows.events] at h
    rw [Rows.markup]
    exact linedRow_elements hP (cells_elements cs h g 0 _ _ _ .nil) ls
  | .line cs sp l rest, h => fun g ls => by
    rw [Rows.events, List.all_append, List.all_cons, Bool.and_eq_true, Bool.and_eq_true] at h
    rw [Rows.markup]
    exact ((linedRow_elements hP (cells_elements cs h.1 g 0 _ _ _ .nil) ls).append (spacingRow_elements hP g _ sp)).append (rows_elements rest h.2.2 g l)
theorem cells_elements : ∀ (cs : Cells), cs.events.all (plainEvent E) = true → ∀ g i t st pv, Elements E presentation t → Elements E [c!"mtd"] (cs.markup P g i t st pv)
  | .last b, h => fun g i t st pv ht => by
    rw [Cells.events] at h
    rw [Cells.markup]
    exact tableCell_elements hP g i (ht.append (nodes_elements b h _ _ _ _))
  | .cell b rest, h => fun g i t st pv ht => by
    rw [Cells.events, List.all_append, List.all_cons, Bool.and_eq_true, Bool.and_eq_true] at h
    rw [Cells.markup]
    exact (tableCell_elements hP g i (ht.append (nodes_elements b h.1 _ _ _ _))).append (cells_elements rest h.2.2 g (i + 1) _ _ _ .nil)
  | .lost b l rest, h => fun g i t st pv ht => by
    rw [Cells.events, List.all_append, List.all_cons, Bool.and_eq_true, Bool.and_eq_true] at h
    rw [Cells.markup]
    exact cells_elements rest h.2.2 g i _ _ _ (ht.append (nodes_elements b h.1 _ _ _ _))
theorem rows_joined : ∀ (rows : Rows), rows.events.all (plainEvent E) = true → Elements E presentation (rows.joined P)
  | .last cs, h => by
    rw [Rows.events] at h
    rw [Rows.joined]
    exact cells_joined cs h _ _
  | .line cs sp l rest, h => by
    rw [Rows.events, List.all_append, List.all_cons, Bool.and_eq_true, Bool.and_eq_true] at h
    rw [Rows.joined]
    exact (cells_joined cs h.1 _ _).append (rows_joined rest h.2.2)
theorem cells_joined : ∀ (cs : Cells), cs.events.all (plainEvent E) = true → ∀ st pv, Elements E presentation (cs.joined P st pv)
  | .last b, h => fun st pv => by
    rw [Cells.events] at h
    rw [Cells.joined]
    exact nodes_elements b h _ _ _ _
  | .cell b rest, h => fun st pv => by
    rw [Cells.events, List.all_append, List.all_cons, Bool.and_eq_true, Bool.and_eq_true] at h
    rw [Cells.joined]
    exact (nodes_elements b h.1 _ _ _ _).append (cells_joined rest h.2.2 _ _)
  | .lost b l rest, h => fun st pv => by
    rw [Cells.events, List.all_append, List.all_cons, Bool.and_eq_true, Bool.and_eq_true] at h
    rw [Cells.joined]
    exact (nodes_elements b h.1 _ _ _ _).append (cells_joined rest h.2.2 _ _)
end

theorem document_xml {xml : Bool} {annotation : Option Str} {ns : Nodes} (h : ns.events.all (plainEvent E) = true)
    (ha : ∀ a, annotation = some a → Text E a) : Document E (mathDocument P xml annotation ns) := by
  have hb := nodes_elements hP ns h [] {} none none
  have hm : ∀ {s : Str}, Elements E presentation s → Elements E (children c!"math") s := by
    intro s hs
    have : ∀ {N : List Str} {s : Str}, Elements E N s → Elements E (c!"semantics" :: N) s := by
      intro N s hs
      induction hs with
      | nil => exact .nil
      | token a b c d _ ih => exact .token (List.mem_cons_of_mem _ a) b c d ih
      | node a b c d e _ _ ih => exact .node (List.mem_cons_of_mem _ a) b c d e ih
      | empty a b _ ih => exact .empty (List.mem_cons_of_mem _ a) b ih
    exact this hs
  refine ⟨_, _, ?_, ?_, tag_eq _ _ _⟩
  · refine attributes_of ?_ ?_
    · cases P.block <;> cases xml <;> decide
    · cases P.block <;> cases xml <;> decide
  · cases annotation with
    | none => exact hm hb
    | some a =>
      refine elements_node (by decide) (by decide) (by decide) (attributes_besides besides_nil) ?_
      show Elements E [c!"mrow", c!"annotation"] _
      refine Elements.append ?_ ?_
      · exact elements_node (by decide) (by decide) (by decide) (attributes_besides besides_nil) hb
      · exact elements_token (by decide) (by decide) (attributes_besides (besides_one (by decide) (by decide) (by decide))) (ha a rfl)

end PL.Spec.Xml
