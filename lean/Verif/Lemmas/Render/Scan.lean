import Verif.Spec.Tags
set_option autoImplicit false
/-! # A scanner for markup -/
namespace PL.Mathml
open Spec

/-- Where the scanner is. -/
inductive Mode where
  | text
  | lt
  | name (acc : Str)
  | attrs (n : Str) (quoted : Bool)
  | slash (n : Str)
  | stop (acc : Str)
  deriving DecidableEq, Repr

def childrenBad (counted : Bool) (n : Str) (k : Nat) : Bool :=
  match childrenOf n with
  | none => false
  | some m => counted && k ≠ m

abbrev Open := List (Str × Nat)

def scan1 (counted : Bool) : Mode → Open → Char → Option (Mode × Open)
  | .text, S, c => if c = '<' then some (.lt, S) else some (.text, S)
  | .lt, S, c => if c = '/' then some (.stop [], S) else if c.isAlpha then some (.name [c], S) else none
  | .name acc, S, c =>
    if c = '>' then (if acc.reverse ∈ elementNames then some (.text, (acc.reverse, 0) :: S) else none)
    else if c = ' ' then (if acc.reverse ∈ elementNames then some (.attrs acc.reverse false, S) else none)
    else if c = '/' then (if acc.reverse ∈ elementNames then some (.slash acc.reverse, S) else none)
    else if c.isAlpha then some (.name (c :: acc), S) else none
  | .attrs n true, S, c => if c = '"' then some (.attrs n false, S) else if c = '<' then none else some (.attrs n true, S)
  | .attrs n false, S, c =>
    if c = '"' then some (.attrs n true, S)
    else if c = '>' then some (.text, (n, 0) :: S)
    else if c = '/' then some (.slash n, S)
    else if c.isAlpha || c = '-' || c = '=' || c = ' ' then some (.attrs n false, S) else none
  | .slash _, S, c => if c = '>' then some (.text, addChild S) else none
  | .stop acc, S, c =>
    if c = '>' then
      match S with
      | (n, k) :: S => if n = acc.reverse then (if childrenBad counted n k then none else some (.text, addChild S)) else none
      | [] => none
    else if c.isAlpha then some (.stop (c :: acc), S) else none

def scan (counted : Bool) : Mode → Open → Str → Option (Mode × Open)
  | m, S, [] => some (m, S)
  | m, S, c :: t =>
    match scan1 counted m S c with
    | some (m', S') => scan counted m' S' t
    | none => none

theorem scan_append (d : Bool) (m : Mode) (S : Open) (a b : Str) :
    scan d m S (a ++ b) = (scan d m S a).bind fun x => scan d x.1 x.2 b := by
  induction a generalizing m S with
  | nil => rfl
  | cons c a ih =>
    simp only [List.cons_append, scan]
    cases h : scan1 d m S c with
    | none => rfl
    | some x => exact ih _ _

/-- Scanning from one state to another. -/
def Sc (d : Bool) (m : Mode) (S : Open) (t : Str) (m' : Mode) (S' : Open) : Prop := scan d m S t = some (m', S')

theorem Sc.append {d : Bool} {m m' m'' : Mode} {S S' S'' : Open} {a b : Str} (h : Sc d m S a m' S') (h' : Sc d m' S' b m'' S'') :
    Sc d m S (a ++ b) m'' S'' := by
  unfold Sc at *
  rw [scan_append, h]; exact h'

/-- What a scan from a position amounts to. -/
def Rest (d : Bool) : Mode → Open → Str → Open → Prop
  | .text, S, t, S' => Tags d S t S'
  | .lt, S, t, S' => Tags d S ('<' :: t) S'
  | .name acc, S, t, S' => Tags d S ('<' :: (acc.reverse ++ t)) S'
  | .attrs n q, S, t, S' => n ∈ elementNames → ∀ a, (a = [' '] ∨ ∃ r, a = ' ' :: r) →
      (∀ b, attrsOk false (a ++ b) = attrsOk q b) → Tags d S ('<' :: (n ++ a ++ t)) S'
  | .slash n, S, t, S' => n ∈ elementNames → ∀ a, Attrs a → Tags d S ('<' :: (n ++ a ++ '/' :: t)) S'
  | .stop acc, S, t, S' => Tags d S (c!"</" ++ acc.reverse ++ t) S'

theorem scan_rest (d : Bool) (t : Str) : ∀ (m : Mode) (S S' : Open), scan d m S t = some (.text, S') → Rest d m S t S' := by
  induction t with
  | nil =>
    intro m S S' h
    simp only [scan, Option.some.injEq, Prod.mk.injEq] at h
    obtain ⟨rfl, rfl⟩ := h
    exact .nil
  | cons c t ih =>
    intro m S S' h
    simp only [scan] at h
    obtain ⟨m1, S1, h1, h2⟩ : ∃ m1 S1, scan1 d m S c = some (m1, S1) ∧ scan d m1 S1 t = some (.text, S') := by
      cases h1 : scan1 d m S c with
      | none => rw [h1] at h; cases h
      | some x => rw [h1] at h; exact ⟨x.1, x.2, rfl, h⟩
    have r := ih _ _ _ h2
    unfold scan1 at h1
    split at h1
    · split at h1
      · rename_i hc; subst hc; cases h1; exact r
      · rename_i hc; cases h1; exact .char hc r
    · split at h1
      · rename_i hc; subst hc; cases h1; exact r
      · split at h1
        · cases h1; exact r
        · cases h1
    · rename_i acc S
      split at h1
      · rename_i hc; subst hc
        split at h1
        · rename_i hn; cases h1
          have := Tags.start hn ⟨.inl rfl, rfl⟩ r
          simpa [Rest] using this
        · cases h1
      · split at h1
        · rename_i hc; subst hc
          split at h1
          · rename_i hn; cases h1
            have := r hn [' '] (.inl rfl) (fun b => rfl)
            simpa [Rest] using this
          · cases h1
        · split at h1
          · rename_i hc; subst hc
            split at h1
            · rename_i hn; cases h1
              have := r hn [] ⟨.inl rfl, rfl⟩
              simpa [Rest] using this
            · cases h1
          · split at h1
            · cases h1; simpa [Rest] using r
            · cases h1
    · rename_i n S
      intro hn a ha hq
      split at h1
      · rename_i hc; subst hc; cases h1
        have := r hn (a ++ ['"']) (by rcases ha with rfl | ⟨r, rfl⟩ <;> exact .inr ⟨_, rfl⟩)
          (fun b => by rw [List.append_assoc, hq]; rfl)
        simpa using this
      · rename_i hc
        split at h1
        · cases h1
        · rename_i hl
          cases h1
          have := r hn (a ++ [c]) (by rcases ha with rfl | ⟨r, rfl⟩ <;> exact .inr ⟨_, rfl⟩)
            (fun b => by rw [List.append_assoc, hq]; simp [attrsOk, hc, hl])
          simpa using this
    · rename_i n S
      intro hn a ha hq
      have hA : Attrs a := ⟨by rcases ha with rfl | h; exact .inr ⟨_, rfl⟩; exact .inr h, by
        have := hq []; rw [List.append_nil] at this; rw [this]; rfl⟩
      split at h1
      · rename_i hc; subst hc; cases h1
        have := r hn (a ++ ['"']) (by rcases ha with rfl | ⟨r, rfl⟩ <;> exact .inr ⟨_, rfl⟩)
          (fun b => by rw [List.append_assoc, hq]; rfl)
        simpa using this
      · rename_i hc
        split at h1
        · rename_i hc; subst hc; cases h1
          exact .start hn hA r
        · split at h1
          · rename_i hc; subst hc; cases h1
            exact r hn a hA
          · split at h1
            · rename_i hl
              cases h1
              have := r hn (a ++ [c]) (by rcases ha with rfl | ⟨r, rfl⟩ <;> exact .inr ⟨_, rfl⟩)
                (fun b => by
                  rw [List.append_assoc, hq]
                  simp only [List.cons_append, List.nil_append, attrsOk, hc, if_false, hl, Bool.true_and])
              simpa using this
            · cases h1
    · intro hn a ha
      split at h1
      · rename_i hc; subst hc; cases h1
        have := Tags.empty hn ha r
        simpa using this
      · cases h1
    · split at h1
      · rename_i hc; subst hc
        split at h1
        · split at h1
          · rename_i hn
            split at h1
            · cases h1
            · rename_i hb
              cases h1
              subst hn
              refine Tags.stop ?_ r
              intro hd m hm
              unfold childrenBad at hb
              rw [hm] at hb
              simpa [hd] using hb
          · cases h1
        · cases h1
      · split at h1
        · cases h1; simpa [Rest] using r
        · cases h1

/-- The scanner accepts only balanced markup. -/
theorem Sc.tags {d : Bool} {S S' : Open} {t : Str} (h : Sc d .text S t .text S') : Tags d S t S' := scan_rest d t _ _ _ h

theorem attrs_sc {d : Bool} {n : Str} {S : Open} {a : Str} : ∀ {q : Bool}, attrsOk q a = true →
    Sc d (.attrs n q) S a (.attrs n false) S := by
  induction a with
  | nil =>
    intro q h
    cases q
    · rfl
    · cases h
  | cons c a ih =>
    intro q h
    show scan _ _ _ _ = _
    cases q with
    | true =>
      simp only [attrsOk] at h
      simp only [scan, scan1]
      by_cases hc : c = '"'
      · simp only [hc, if_true] at h ⊢; exact ih h
      · simp only [hc, if_false, Bool.and_eq_true, decide_eq_true_eq] at h ⊢
        simp only [h.1, if_false]; exact ih h.2
    | false =>
      simp only [attrsOk] at h
      simp only [scan, scan1]
      by_cases hc : c = '"'
      · simp only [hc, if_true] at h ⊢; exact ih h
      · simp only [hc, if_false, Bool.and_eq_true] at h ⊢
        have h1 : c ≠ '>' := by rintro rfl; exact absurd h.1 (by decide)
        have h2 : c ≠ '/' := by rintro rfl; exact absurd h.1 (by decide)
        simp only [h1, h2, if_false, h.1, if_true]; exact ih h.2

theorem names_ind {P : Str → Prop} (h : ∀ n ∈ elementNames, (∀ c ∈ n, c.isAlpha = true) → n ≠ [] → P n) :
    ∀ n ∈ elementNames, P n := by
  have key : ∀ n ∈ elementNames, (∀ c ∈ n, c.isAlpha = true) ∧ n ≠ [] := by decide
  exact fun n hn => h n hn (key n hn).1 (key n hn).2

theorem name_sc {d : Bool} {S : Open} {n : Str} (h : ∀ c ∈ n, c.isAlpha = true) (acc : Str) :
    Sc d (.name acc) S n (.name (n.reverse ++ acc)) S := by
  induction n generalizing acc with
  | nil => rfl
  | cons c n ih =>
    show scan _ _ _ _ = _
    have hc := h c (by simp)
    have h1 : c ≠ '>' := by rintro rfl; exact absurd hc (by decide)
    have h2 : c ≠ '/' := by rintro rfl; exact absurd hc (by decide)
    have h3 : c ≠ ' ' := by rintro rfl; exact absurd hc (by decide)
    simp only [scan, scan1, h1, h2, h3, if_false, hc, if_true]
    have := ih (fun c h' => h c (by simp [h'])) (c :: acc)
    simpa [Sc] using this

theorem stop_sc {d : Bool} {S : Open} {n : Str} (h : ∀ c ∈ n, c.isAlpha = true) (acc : Str) :
    Sc d (.stop acc) S n (.stop (n.reverse ++ acc)) S := by
  induction n generalizing acc with
  | nil => rfl
  | cons c n ih =>
    show scan _ _ _ _ = _
    have hc := h c (by simp)
    have h1 : c ≠ '>' := by rintro rfl; exact absurd hc (by decide)
    simp only [scan, scan1, h1, if_false, hc, if_true]
    have := ih (fun c h' => h c (by simp [h'])) (c :: acc)
    simpa [Sc] using this

theorem start_sc {d : Bool} {S : Open} {n : Str} (hn : n ∈ elementNames) : Sc d .text S ('<' :: n) (.name n.reverse) S := by
  revert hn
  refine names_ind (P := fun n => Sc d .text S ('<' :: n) (.name n.reverse) S) ?_ n
  intro n _ ha hn
  cases n with
  | nil => exact absurd rfl hn
  | cons c n =>
    show scan _ _ _ _ = _
    have hc := ha c (by simp)
    have h2 : c ≠ '/' := by rintro rfl; exact absurd hc (by decide)
    simp only [scan, scan1, if_true, h2, if_false, hc]
    have := name_sc (d := d) (S := S) (fun c h' => ha c (by simp [h'])) (n := n) [c]
    simpa [Sc] using this

theorem tag_sc {d : Bool} {S S' : Open} {n a u : Str} {m : Mode} (hn : n ∈ elementNames) (ha : Attrs a)
    (h : Sc d (.name n.reverse) S u m S') (h' : Sc d (.attrs n false) S u m S') : Sc d .text S ('<' :: (n ++ a) ++ u) m S' := by
  obtain ⟨rfl | ⟨r, rfl⟩, h2⟩ := ha
  · rw [List.append_nil]
    exact (start_sc hn).append h
  · have e : Sc d (.name n.reverse) S (' ' :: r) (.attrs n false) S := by
      show scan _ _ _ _ = _
      have : attrsOk false r = true := h2
      simp only [scan, scan1]
      rw [if_neg (by decide), if_pos trivial, List.reverse_reverse, if_pos hn]
      exact attrs_sc this
    exact ((start_sc hn).append e).append h'

/-- The scanner accepts all balanced markup. -/
theorem _root_.PL.Spec.Tags.sc {d : Bool} {S S' : Open} {t : Str} (h : Tags d S t S') (hS : ∀ x ∈ S, x.1 ∈ elementNames) :
    Sc d .text S t .text S' := by
  have add : ∀ {S : Open}, (∀ x ∈ S, x.1 ∈ elementNames) → ∀ x ∈ addChild S, x.1 ∈ elementNames := by
    intro S hS
    cases S with
    | nil => exact hS
    | cons y S =>
      intro x hx
      rcases List.mem_cons.1 hx with rfl | hx
      · exact hS y (by simp)
      · exact hS x (by simp [hx])
  induction h with
  | nil => rfl
  | char hc _ ih =>
    show scan _ _ _ _ = _
    simp only [scan, scan1, hc, if_false]
    exact ih hS
  | @start S n a t S' hn ha _ ih =>
    have := (tag_sc (d := d) (S := S) (u := ['>']) hn ha (m := .text) (S' := (n, 0) :: S)
      (by show scan _ _ _ _ = _; simp [scan, scan1, hn]) rfl).append
      (ih (by intro x hx; rcases List.mem_cons.1 hx with rfl | hx; exact hn; exact hS x hx))
    simpa using this
  | @empty S n a t S' hn ha _ ih =>
    have := (tag_sc (d := d) (S := S) (u := c!"/>") hn ha (m := .text) (S' := addChild S)
      (by show scan _ _ _ _ = _; simp [scan, scan1, hn]) rfl).append (ih (add hS))
    simpa using this
  | @stop n k S t S' hk _ ih =>
    have hn : n ∈ elementNames := hS (n, k) (by simp)
    have ha : ∀ c ∈ n, c.isAlpha = true := names_ind (P := fun n => ∀ c ∈ n, c.isAlpha = true) (fun _ _ h _ => h) n hn
    have h1 : Sc d .text ((n, k) :: S) c!"</" (.stop []) ((n, k) :: S) := rfl
    have h2 := stop_sc (d := d) (S := (n, k) :: S) ha []
    have h3 : Sc d (.stop (n.reverse ++ [])) ((n, k) :: S) ['>'] .text (addChild S) := by
      show scan _ _ _ _ = _
      have : childrenBad d n k = false := by
        unfold childrenBad
        split
        · rfl
        · rename_i m hm
          cases d with
          | false => rfl
          | true => simp [hk rfl m hm]
      simp [scan, scan1, this]
    have := ((h1.append h2).append h3).append (ih (add fun x hx => hS x (by simp [hx])))
    simpa using this

/-- Text that the scanner does not accept is not balanced. -/
theorem not_tags {d : Bool} {t : Str} (h : scan d .text [] t ≠ some (.text, [])) : ¬ Tags d [] t [] :=
  fun h' => h (h'.sc (by simp))

example (d : Bool) (a b c : Nat) (S : Open) : Sc d .text ((c!"mtd", a) :: (c!"mtr", b) :: (c!"mtable", c) :: S)
  c!"</mtd></mtr><mtr" (.name c!"rtm") ((c!"mtable", c + 1) :: S) := rfl
end PL.Mathml
