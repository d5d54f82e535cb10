import Verif.Lemmas.Lex
set_option autoImplicit false
/-!
# Properties of reading groups, tokens and control sequences (C12, C13, C14)
-/
namespace PL.Props
open PL.Spec PL.Lex

/-! ## C12: groups end at the matching closer -/

/-- The content of a group is what the specification `Split` says, for every input and group kind. -/
theorem C12_split (k : GroupingKind) (s g r : Str) :
    groupContent k s = .ok g r ↔ Split k.openingStr k.closingStr 0 s g r := groupContent_ok

/-- Content, closer and rest make up the original text. -/
theorem C12_exact (k : GroupingKind) (s g r : Str) (h : groupContent k s = .ok g r) :
    s = g ++ k.closingStr ++ r := groupContent_eq h

/-- There is only one such split, so no shorter (or longer) prefix qualifies. -/
theorem C12_unique (k : GroupingKind) (s g₁ r₁ g₂ r₂ : Str) (h₁ : Split k.openingStr k.closingStr 0 s g₁ r₁)
    (h₂ : Split k.openingStr k.closingStr 0 s g₂ r₂) : g₁ = g₂ ∧ r₁ = r₂ := by
  have a := groupContent_ok.2 h₁
  have b := groupContent_ok.2 h₂
  rw [a] at b
  cases b
  exact ⟨rfl, rfl⟩

/-- Failure occurs exactly when there is no split; the failure is the unbalanced-group error. -/
theorem C12_fail (k : GroupingKind) (s : Str) :
    (∃ r, groupContent k s = .err (.unbalancedGroup (some k)) r) ↔
      ¬ ∃ g r, Split k.openingStr k.closingStr 0 s g r := by
  constructor
  · rintro ⟨r, h⟩ ⟨g, r', h'⟩
    rw [groupContent_ok.2 h'] at h
    cases h
  · intro h
    cases h' : groupContent k s with
    | ok g r => exact absurd ⟨g, r, groupContent_ok.1 h'⟩ h
    | err e r => exact ⟨r, by rw [(groupContent_err h').1]⟩
    | panic p => exact absurd h' groupContent_no_panic

/-- Reading a group never panics. -/
theorem C12_no_panic (k : GroupingKind) (s : Str) (p : Panic) : groupContent k s ≠ .panic p :=
  groupContent_no_panic

/-- Braces by counting: without escapes and comments, the content is the text up to the first closing
brace that is not matched by an opening one. -/
theorem C12_braces (s g r : Str) (hs : '\\' ∉ s ∧ '%' ∉ s) :
    groupContent .normal s = .ok g r ↔
      s = g ++ '}' :: r ∧ g.count '}' = g.count '{' ∧ ∀ p, p <+: g → p.count '}' ≤ p.count '{' := by
  rw [groupContent_ok]
  show Split ['{'] ['}'] 0 s g r ↔ _
  have fwd : ∀ {d s g r}, Split ['{'] ['}'] d s g r → '\\' ∉ s → '%' ∉ s →
      g.count '}' = d + g.count '{' ∧ ∀ p, p <+: g → p.count '}' ≤ d + p.count '{' := by
    intro d s g r h
    induction h with
    | done => intros; simp
    | @opener d s g r h0 _ ih =>
      intro h1 h2
      simp at h1 h2
      obtain ⟨a, b⟩ := ih h1 h2
      refine ⟨by simp; omega, ?_⟩
      intro p hp
      cases p with
      | nil => simp
      | cons x p =>
        simp only [List.cons_append, List.nil_append, List.cons_prefix_cons] at hp
        have := b p hp.2
        rw [hp.1]; simp; omega
    | @closer d s g r h0 _ ih =>
      intro h1 h2
      simp at h1 h2
      obtain ⟨a, b⟩ := ih h1 h2
      refine ⟨by simp; omega, ?_⟩
      intro p hp
      cases p with
      | nil => simp
      | cons x p =>
        simp only [List.cons_append, List.nil_append, List.cons_prefix_cons] at hp
        have := b p hp.2
        rw [hp.1]; simp; omega
    | comment => intro _ h2; simp at h2
    | escaped => intro h1; simp at h1
    | @char d c s g r n1 n2 _ _ _ ih =>
      intro h1 h2
      simp at h1 h2 n1 n2
      obtain ⟨a, b⟩ := ih h1.2 h2.2
      have c1 : ¬ c = '{' := fun e => n1 e.symm
      have c2 : ¬ c = '}' := fun e => n2 e.symm
      refine ⟨by simp [c1, c2]; omega, ?_⟩
      intro p hp
      cases p with
      | nil => simp
      | cons x p =>
        simp only [List.cons_prefix_cons] at hp
        have := b p hp.2
        rw [hp.1]; simp [c1, c2]; omega
  have bwd : ∀ {g d r}, '\\' ∉ g → '%' ∉ g → g.count '}' = d + g.count '{' →
      (∀ p, p <+: g → p.count '}' ≤ d + p.count '{') → Split ['{'] ['}'] d (g ++ '}' :: r) g r := by
    intro g
    induction g with
    | nil =>
      intro d r _ _ hc _
      simp at hc
      subst hc
      exact Split.done
    | cons c g ih =>
      intro d r h1 h2 hc hp
      simp at h1 h2
      by_cases c1 : c = '{'
      · subst c1
        refine Split.opener (op := ['{']) (cl := ['}']) (s := g ++ '}' :: r) ?_ (ih h1.2 h2.2 ?_ ?_)
        · intro _; simp
        · simp at hc; omega
        · intro p hpp
          have := hp ('{' :: p) (by simpa using hpp)
          simp at this; omega
      · by_cases c2 : c = '}'
        · subst c2
          have hd := hp ['}'] (by simp)
          simp at hd
          obtain ⟨d, rfl⟩ : ∃ e, d = e + 1 := ⟨d - 1, by omega⟩
          refine Split.closer (op := ['{']) (cl := ['}']) (s := g ++ '}' :: r) ?_ (ih h1.2 h2.2 ?_ ?_)
          · simp
          · simp at hc; omega
          · intro p hpp
            have := hp ('}' :: p) (by simpa using hpp)
            simp at this; omega
        · refine Split.char (op := ['{']) (cl := ['}']) (s := g ++ '}' :: r) ?_ ?_ ?_ ?_ (ih h1.2 h2.2 ?_ ?_)
          · simp; exact fun e => c1 e.symm
          · simp; exact fun e => c2 e.symm
          · exact fun e => h1.1 e.symm
          · exact fun e => h2.1 e.symm
          · simp [c1, c2] at hc; omega
          · intro p hpp
            have := hp (c :: p) (by simpa using hpp)
            simp [c1, c2] at this; omega
  constructor
  · intro h
    have := fwd h hs.1 hs.2
    refine ⟨by simpa using h.eq, by omega, ?_⟩
    intro p hp
    have := this.2 p hp
    omega
  · rintro ⟨e, h1, h2⟩
    rw [e] at hs
    simp at hs
    rw [e]
    refine bwd hs.1.1 hs.2.1 (by omega) ?_
    intro p hp
    have := h2 p hp
    omega

/-- A non-trivial case: nesting, an escaped brace and a comment holding a brace. -/
example : groupContent .normal c!"a{b}\\}%}\nc}rest" = .ok c!"a{b}\\}%}\nc" c!"rest" := by decide
example : groupContent .leftRight c!"( \\left[ x \\right] \\right) y" = .ok c!"( \\left[ x \\right] " c!") y" := by
  decide
example : groupContent .normal c!"a{b" = .err (.unbalancedGroup (some .normal)) [] := by decide
example : '\\' ∉ c!"a{b}c}d" ∧ '%' ∉ c!"a{b}c}d" := by decide

/-! ## C13: tokens -/

/-- A character token is preceded by blank text only, is neither whitespace, backslash nor percent, and
what is left is the text after it. -/
theorem C13_char (s r rest : Str) (c : Char) (h : token s = .ok (.chr c r) rest) :
    rest = r ∧ c ≠ '\\' ∧ c ≠ '%' ∧ isWs c = false ∧ ∃ k, Blank k ∧ s = k ++ c :: rest := by
  have := token_spec s
  rw [h] at this
  cases this with
  | chr h1 h2 h3 h4 h5 => exact ⟨rfl, h3, h4, h5, _, h1, h2⟩

/-- A control sequence token is preceded by blank text only; its name is maximal and nonempty; the
whitespace after it is skipped. -/
theorem C13_cs (s rest name : Str) (h : token s = .ok (.cs name) rest) :
    ∃ k t w, Blank k ∧ s = k ++ '\\' :: t ∧ CsName t name (w ++ rest) ∧ Spaces w ∧
      ∀ c r', rest = c :: r' → isWs c = false := by
  have := token_spec s
  rw [h] at this
  cases this with
  | @cs k t _ r h1 h2 h3 =>
    obtain ⟨w, hw, e⟩ := trimStart_spec r
    exact ⟨k, t, w, h1, h2, e ▸ h3, hw, fun _ _ h => trimStart_head h⟩

/-- Reading a token leaves a strictly shorter suffix. -/
theorem C13_progress (s rest : Str) (t : Tok) (h : token s = .ok t rest) :
    rest <:+ s ∧ rest.length < s.length := by
  cases t with
  | chr c r =>
    obtain ⟨-, -, -, -, k, -, e⟩ := C13_char _ _ _ _ h
    rw [e]
    exact ⟨⟨k ++ [c], by simp⟩, by simp; omega⟩
  | cs name =>
    obtain ⟨k, t, w, -, e, h3, -, -⟩ := C13_cs _ _ _ h
    obtain ⟨e3, hne⟩ := h3.eq
    rw [e, e3]
    exact ⟨⟨k ++ '\\' :: (name ++ w), by simp⟩, by simp; omega⟩

/-- Reading a token fails only at the end of the text: nothing but blank text is left, or a lone
backslash. -/
theorem C13_fail (s rest : Str) (e : ErrorKind) (h : token s = .err e rest) :
    (e = .token ∧ BlankEnd s) ∨ (e = .emptyControlSequence ∧ ∃ k, Blank k ∧ s = k ++ ['\\']) := by
  have := token_spec s
  rw [h] at this
  cases this with
  | none h1 => exact .inl ⟨rfl, h1⟩
  | empty h1 h2 => exact .inr ⟨rfl, _, h1, h2⟩

/-- Reading a token never panics. -/
theorem C13_no_panic (s : Str) (p : Panic) : token s ≠ .panic p := by
  intro h
  have := token_spec s
  rw [h] at this
  cases this

example : token c!"  %c\n x y" = .ok (.chr 'x' c!" y") c!" y" := by decide
example : token c!" %c\n\\foo  bar" = .ok (.cs c!"foo") c!"bar" := by decide
example : token c!" %c" = .err .token [] := by decide

/-! ## C14: names of control sequences -/

/-- After a backslash: the longest run of letters, or one character; whitespace after it is skipped. -/
theorem C14_name (s name rest : Str) :
    controlSequence ('\\' :: s) = .ok name rest ↔ ∃ r, CsName s name r ∧ rest = trimStart r := rhs_ok

/-- Every text that begins with a backslash and another character has exactly one name. -/
theorem C14_total (c : Char) (s : Str) :
    ∃ name r, CsName (c :: s) name r ∧ controlSequence ('\\' :: c :: s) = .ok name (trimStart r) ∧
      ∀ name' r', CsName (c :: s) name' r' → name' = name ∧ r' = r := by
  obtain ⟨n, r, h1, h2⟩ := rhs_spec (c := c) (s := s)
  exact ⟨n, r, h1, h2, fun _ _ h => CsName_det h h1⟩

/-- The only errors: no backslash, or nothing after it. -/
theorem C14_fail (s rest : Str) (e : ErrorKind) :
    controlSequence s = .err e rest ↔
      (s = [] ∧ e = .emptyControlSequence ∧ rest = []) ∨ (s = ['\\'] ∧ e = .emptyControlSequence ∧ rest = []) ∨
      (∃ c r, s = c :: r ∧ c ≠ '\\' ∧ e = .controlSequence ∧ rest = s) := by
  cases s with
  | nil =>
    rw [show controlSequence [] = .err .emptyControlSequence [] from rfl]
    constructor
    · intro h; cases h; simp
    · rintro (⟨-, rfl, rfl⟩ | ⟨h, -⟩ | ⟨c, r, h, -⟩)
      · rfl
      · cases h
      · cases h
  | cons c r =>
    by_cases hc : c = '\\'
    · subst hc
      show rhsControlSequence r = _ ↔ _
      rw [rhs_err]
      constructor
      · rintro ⟨rfl, rfl, rfl⟩; simp
      · rintro (⟨h, -⟩ | ⟨h, rfl, rfl⟩ | ⟨c, r, h, h2, -⟩)
        · cases h
        · cases h; simp
        · cases h; exact absurd rfl h2
    · have : controlSequence (c :: r) = .err .controlSequence (c :: r) := by
        unfold controlSequence
        split <;> simp_all
      rw [this]
      constructor
      · intro h; cases h; exact .inr (.inr ⟨c, r, rfl, hc, rfl, rfl⟩)
      · rintro (⟨h, -⟩ | ⟨h, -⟩ | ⟨_, _, h, h2, rfl, rfl⟩)
        · cases h
        · cases h; exact absurd rfl hc
        · rfl

theorem C14_no_panic (s : Str) (p : Panic) : controlSequence s ≠ .panic p := by
  unfold controlSequence
  split
  · exact rhs_no_panic
  · simp
  · simp

example : controlSequence c!"\\alpha1 x" = .ok c!"alpha" c!"1 x" := by decide
example : controlSequence c!"\\é  x" = .ok c!"é" c!"x" := by decide

end PL.Props
