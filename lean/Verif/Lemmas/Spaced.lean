import Verif.Lemmas.ExpressionReads
import Verif.Spec.Spaced
set_option autoImplicit false
/-!
# The LaTeX of an expression with white space is read as the expression
-/
namespace PL.Props.Spaced
open PL PL.Lex PL.Mathml Spec Judgement

theorem spaces_append {a b : Str} (ha : Spaces a) (hb : Spaces b) : Spaces (a ++ b) := by
  intro c hc
  rcases List.mem_append.1 hc with hc | hc
  · exact ha c hc
  · exact hb c hc

theorem spaces_apart {g : Str} (h : Spaces g) : Spaces (apart g) := by
  unfold apart
  split
  · exact spaces_one
  · exact h

theorem apart_cons {g : Str} (h : Spaces g) : ∃ c t, apart g = c :: t ∧ isWs c = true := by
  unfold apart
  split
  · exact ⟨' ', [], rfl, by decide⟩
  · rename_i hn
    obtain ⟨c, t, rfl⟩ := List.exists_cons_of_ne_nil hn
    exact ⟨c, t, rfl, h c (by simp)⟩

theorem ws_facts {c : Char} (h : isWs c = true) : isLetter c = false ∧ isDigit c = false ∧ c ≠ '.' ∧ c ≠ ',' := by
  refine ⟨?_, ?_, ?_, ?_⟩
  · by_contra hl
    have := (letter_content (by simpa using hl)).2.2.2.2.1
    rw [h] at this; cases this
  · by_contra hl
    have := (digit_facts (by simpa using hl)).2.2.1
    rw [h] at this; cases this
  · rintro rfl; cases h
  · rintro rfl; cases h

theorem apart_word {g r : Str} (h : Spaces g) : ∀ c u, apart g ++ r = c :: u → isLetter c = false := by
  obtain ⟨x, t, e, hx⟩ := apart_cons h
  rw [e]
  intro c u e
  cases e
  exact (ws_facts hx).1

/-- White space and then something else that is not a letter. -/
theorem gap_word {g r : Str} {x : Char} (h : Spaces g) (hx : isLetter x = false) : ∀ c u, g ++ x :: r = c :: u → isLetter c = false := by
  cases g with
  | nil => intro c u e; cases e; exact hx
  | cons y g => intro c u e; cases e; exact (ws_facts (h _ (by simp))).1

theorem gap_brace {g r : Str} {x : Char} (h : Spaces g) (h1 : isWs x = false) (h2 : x ≠ '{') : ∀ w u, Spaces w → g ++ x :: r ≠ w ++ '{' :: u := by
  intro w u hw e
  have e1 := congrArg trimStart e
  rw [trimStart_ws_append h, trimStart_ws_append hw, trimStart_eq_self (s := x :: r) fun c' r' e => by cases e; exact h1,
    trimStart_eq_self (s := '{' :: u) fun c' r' e => by cases e; decide] at e1
  injection e1 with e1
  exact h2 e1

/-! ## Groups end where they should -/

section
variable {Q : Str → Prop} (h : Through Q) {gap : List Nat → Str} (hg : ∀ p, Spaces (gap p))
include h

theorem through_gap {g : Str} (hs : Spaces g) : Q g := h.chars fun c hc => ws_chars (hs c hc)

theorem through_braced {g₁ g₂ t g₃ : Str} (h₁ : Spaces g₁) (h₂ : Spaces g₂) (h₃ : Spaces g₃) (ht : Q t) : Q (inBraces g₁ g₂ t g₃) := by
  have := h.app (through_gap h h₁) (h.braces (h.app (through_gap h h₂) (h.app ht (through_gap h h₃))))
  simpa [inBraces] using this

/-- A word that ends with white space. -/
theorem through_apart {t g : Str} (hs : Spaces g) (ht : ∀ x, isWs x = true → Q (t ++ [x])) : Q (t ++ apart g) := by
  obtain ⟨x, u, e, hx⟩ := apart_cons hs
  have hu : Spaces u := fun c hc => spaces_apart hs c (by rw [e]; simp [hc])
  have := h.app (ht x hx) (through_gap h hu)
  rw [e]
  simpa using this

theorem infix_through {g : Str} (hs : Spaces g) (o : Infix) : Q (o.spaced g) := by
  cases o
  · exact h.app (h.chars (by decide)) (through_gap h hs)
  · exact h.app (h.chars (by decide)) (through_gap h hs)
  · exact h.app (h.chars (by decide)) (through_gap h hs)
  · exact h.app (h.chars (by decide)) (through_gap h hs)
  · exact h.app (h.chars (by decide)) (through_gap h hs)
  · exact h.app (h.chars (by decide)) (through_gap h hs)
  · exact h.app (h.chars (by decide)) (through_gap h hs)
  · exact h.app (h.chars (by decide)) (through_gap h hs)
  · exact h.app (h.chars (by decide)) (through_gap h hs)
  · rename_i hc
    exact through_apart h hs fun x hx => h.named (List.mem_append_left _ (List.mem_append_right _ hc)) hx
  · rename_i hc
    exact through_apart h hs fun x hx => h.named (List.mem_append_right _ hc) hx

include hg
mutual
theorem base_through : ∀ (b : Operand) (p : List Nat), Q (b.spaced gap p)
  | .letter c hc, p => h.chars (t := [c]) (by intro x hx; simp at hx; subst hx; exact letter_chars hc)
  | .number ds hd, p => h.app (h.chars fun x hx => numeral_chars (hd.2.2 x hx)) (through_gap h (spaces_apart (hg _)))
  | .named name c hc, p => by
    have := through_apart h (hg (0 :: p)) fun x hx => h.named (List.mem_append_left _ (List.mem_append_left _ hc)) hx
    simpa [Operand.spaced] using this
  | .group e, p => by
    have := h.braces (h.app (through_gap h (hg (0 :: p))) (h.app (expr_through e (0 :: p)) (through_gap h (hg (1 :: p)))))
    simpa [Operand.spaced] using this
  | .fraction n d, p => h.app (h.word (by decide)) (h.app (through_braced h (hg _) (hg _) (hg _) (expr_through n _)) (through_braced h (hg _) (hg _) (hg _) (expr_through d _)))
  | .root e, p => h.app (h.word (by decide)) (through_braced h (hg _) (hg _) (hg _) (expr_through e _))
  | .nthRoot i e, p => by
    have := h.app (h.word (t := c!"\\sqrt") (by decide)) (h.app (through_gap h (hg (0 :: p))) (h.app
      (h.brackets (h.app (through_gap h (hg (1 :: p))) (h.app (base_through i (0 :: p)) (through_gap h (hg (2 :: p))))))
      (through_braced h (hg (3 :: p)) (hg (4 :: p)) (hg (5 :: p)) (expr_through e (1 :: p)))))
    simpa [Operand.spaced] using this
  | .accented a e, p => h.app (h.accent a) (through_braced h (hg _) (hg _) (hg _) (expr_through e _))
  | .word t ht, p => by
    have := h.app (h.word (t := c!"\\text") (by decide)) (h.app (through_gap h (hg (0 :: p))) (h.braces (h.chars fun c hc => words_chars (ht.2.2 c hc))))
    simpa [Operand.spaced] using this
  | .styled a l _ hl, p => h.app (h.alphabet a) (through_braced h (hg _) (hg _) (hg _) (h.chars (t := [l]) (by intro x hx; simp at hx; subst hx; exact letter_chars (variant_letter hl))))
  | .fenced f e, p => by
    have := h.fence (f := f) (hg (0 :: p)) (hg (3 :: p)) (h.app (through_gap h (hg (1 :: p))) (h.app (expr_through e (0 :: p)) (through_gap h (hg (2 :: p)))))
    simpa [Operand.spaced] using this
  | .matrix g, p => by
    have := h.env (h.app (through_gap h (hg (0 :: p))) (h.app (grid_through g (0 :: p)) (through_gap h (hg (1 :: p)))))
    simpa [Operand.spaced] using this
  | .choice g, p => by
    have := h.cases (h.app (through_gap h (hg (0 :: p))) (h.app (grid_through g (0 :: p)) (through_gap h (hg (1 :: p)))))
    simpa [Operand.spaced] using this
theorem piece_through : ∀ (i : Scripted) (p : List Nat), Q (i.spaced gap p)
  | .plain b, p => base_through b _
  | .sup b e, p => h.app (base_through b _) (h.app (through_gap h (hg _)) (h.app (h.chars (by decide)) (index_through e _)))
  | .sub b e, p => h.app (base_through b _) (h.app (through_gap h (hg _)) (h.app (h.chars (by decide)) (index_through e _)))
  | .subSup b l u, p => h.app (base_through b _) (h.app (through_gap h (hg _)) (h.app (h.chars (by decide)) (h.app (index_through l _)
      (h.app (h.chars (by decide)) (index_through u _)))))
theorem index_through : ∀ (s : Index) (p : List Nat), Q (s.spaced gap p)
  | .braced e, p => through_braced h (hg _) (hg _) (hg _) (expr_through e _)
  | .letter c hc, p => h.app (through_gap h (hg _)) (h.chars (t := [c]) (by intro x hx; simp at hx; subst hx; exact letter_chars hc))
  | .digit c hc, p => h.app (through_gap h (hg _)) (h.chars (t := [c]) (by intro x hx; simp at hx; subst hx; exact digit_chars hc))
theorem expr_through : ∀ (e : Expr) (p : List Nat), Q (e.spaced gap p)
  | .one i, p => piece_through i _
  | .next i e, p => h.app (piece_through i _) (h.app (through_gap h (hg _)) (expr_through e _))
  | .infix i o e, p => h.app (piece_through i _) (h.app (through_gap h (hg _)) (h.app (infix_through h (hg _) o) (expr_through e _)))
  | .signed s e, p => h.app (by cases s <;> exact h.chars (by decide)) (h.app (through_gap h (hg _)) (expr_through e _))
  | .apply f e, p => by
    have := h.app (through_apart h (hg (0 :: p)) fun x hx => h.func f x hx) (expr_through e (0 :: p))
    simpa [Expr.spaced] using this
  | .big op l u e, p => h.app (h.big op) (h.app (through_gap h (hg _)) (h.app (h.chars (by decide)) (h.app (index_through l _)
      (h.app (h.chars (by decide)) (h.app (index_through u _) (h.app (through_gap h (hg _)) (expr_through e _)))))))
  | .ranged op l e, p => h.app (h.big op) (h.app (through_gap h (hg _)) (h.app (h.chars (by decide)) (h.app (index_through l _) (h.app (through_gap h (hg _)) (expr_through e _)))))
theorem entries_through : ∀ (es : Entries) (p : List Nat), Q (es.spaced gap p)
  | .last e, p => expr_through e _
  | .cons e es, p => h.app (expr_through e _) (h.app (through_gap h (hg _)) (h.app (h.chars (by decide)) (h.app (through_gap h (hg _)) (entries_through es _))))
theorem grid_through : ∀ (g : Grid) (p : List Nat), Q (g.spaced gap p)
  | .last es, p => entries_through es _
  | .cons es g, p => h.app (entries_through es _) (h.app (through_gap h (hg _)) (h.app (h.word (by decide)) (h.app (through_gap h (hg _)) (grid_through g _))))
end
end

/-! ## How expressions start -/

section
variable (gap : List Nat → Str)

theorem operand_starts (b : Operand) (p : List Nat) (r : Str) : Starts (b.spaced gap p ++ r) := by
  cases b with
  | letter c h => have := letter_content h; exact starts_chr ⟨this.2.2.1, this.2.2.2.2.1, this.2.2.2.2.2.1, this.2.2.2.2.2.2.1, this.2.2.2.2.2.2.2⟩
  | number ds h =>
    obtain ⟨d, ds', rfl, hd, -⟩ := decimal_facts h
    have := digit_facts hd
    exact starts_chr ⟨this.1, this.2.2.1, this.2.2.2.1, this.2.2.2.2.1, this.2.2.2.2.2.1⟩
  | named name c h =>
    have key : ∀ p ∈ namedLetters, clash c!"\\hline" (c!"\\" ++ p.1) = true ∧ clash c!"\\hdashline" (c!"\\" ++ p.1) = true := by decide +kernel
    rw [Operand.spaced]
    have := starts_word (u := apart (gap (0 :: p)) ++ r) rfl (key _ h).1 (key _ h).2
    simpa using this
  | group e => exact starts_chr (by decide)
  | fraction n d => rw [Operand.spaced]; simp only [List.append_assoc]; exact starts_word (w := c!"\\frac") rfl (by decide) (by decide)
  | root e => rw [Operand.spaced]; simp only [List.append_assoc]; exact starts_word (w := c!"\\sqrt") rfl (by decide) (by decide)
  | nthRoot i e => rw [Operand.spaced]; simp only [List.append_assoc]; exact starts_word (w := c!"\\sqrt") rfl (by decide) (by decide)
  | accented a e =>
    rw [Operand.spaced]
    simp only [List.append_assoc]
    cases a <;> exact starts_word rfl (by decide) (by decide)
  | word t h => rw [Operand.spaced]; simp only [List.append_assoc]; exact starts_word (w := c!"\\text") rfl (by decide) (by decide)
  | styled a l c h => rw [Operand.spaced]; simp only [List.append_assoc]; cases a <;> exact starts_word rfl (by decide) (by decide)
  | fenced f e => rw [Operand.spaced]; simp only [List.append_assoc]; exact starts_word (w := c!"\\left") rfl (by decide) (by decide)
  | matrix g => rw [Operand.spaced]; simp only [List.append_assoc]; exact starts_word (w := c!"\\begin{matrix}") rfl (by decide) (by decide)
  | choice g => rw [Operand.spaced]; simp only [List.append_assoc]; exact starts_word (w := c!"\\begin{cases}") rfl (by decide) (by decide)

theorem piece_starts (i : Scripted) (p : List Nat) (r : Str) : Starts (i.spaced gap p ++ r) := by
  cases i <;> rw [Scripted.spaced] <;> (try simp only [List.append_assoc]) <;> exact operand_starts _ _ _ _

theorem expr_starts (e : Expr) (p : List Nat) (r : Str) : Starts (e.spaced gap p ++ r) := by
  cases e <;> rw [Expr.spaced] <;> (try simp only [List.append_assoc])
  · exact piece_starts _ _ _ _
  · exact piece_starts _ _ _ _
  · exact piece_starts _ _ _ _
  · rename_i s e; cases s <;> exact starts_chr (by decide)
  · rename_i f e
    rw [← List.append_assoc (c!"\\")]
    cases f <;> exact starts_word rfl (by decide) (by decide)
  · rename_i op l u e
    cases op <;> exact starts_word rfl (by decide) (by decide)
  · rename_i op l e
    cases op <;> exact starts_word rfl (by decide) (by decide)

theorem entries_starts (es : Entries) (p : List Nat) (r : Str) : Starts (es.spaced gap p ++ r) := by
  cases es <;> rw [Entries.spaced] <;> (try simp only [List.append_assoc]) <;> exact expr_starts _ _ _ _

theorem grid_starts (g : Grid) (p : List Nat) (r : Str) : Starts (g.spaced gap p ++ r) := by
  cases g <;> rw [Grid.spaced] <;> (try simp only [List.append_assoc]) <;> exact entries_starts _ _ _ _
end

/-- No line comes after white space either. -/
theorem starts_lines {k s : Str} (hk : Spaces k) (h : Starts s) : WordSeq [(c!"\\hline", Line.solid), (c!"\\hdashline", .dashed)] (k ++ s) [] (k ++ s) := by
  obtain ⟨c, u, rfl, h1, -, -, -, h4, h5⟩ := h
  refine .nil ?_
  intro w v x t hw hm e
  have e1 := congrArg trimStart e
  rw [trimStart_ws_append hk, List.append_assoc, trimStart_ws_append hw, trimStart_eq_self (s := c :: u) fun c' r' e => by cases e; exact h1] at e1
  simp only [List.mem_cons, Prod.mk.injEq, List.not_mem_nil, or_false] at hm
  rcases hm with ⟨rfl, -⟩ | ⟨rfl, -⟩
  · rw [trimStart_eq_self (s := c!"\\hline" ++ t) fun c' r' e => by cases e; decide] at e1
    exact h4 ⟨t, e1.symm⟩
  · rw [trimStart_eq_self (s := c!"\\hdashline" ++ t) fun c' r' e => by cases e; decide] at e1
    exact h5 ⟨t, e1.symm⟩

/-! ## Reading -/

/-- What is shown of an operand: after any white space, its first token stands for it, and white space may be left. -/
def OperandRead (s : Str) (n : Node) : Prop := ∀ k' r, Spaces k' → Solid r → ∃ x t w, Spaces w ∧ (∀ k, Spaces k → NextTok (k ++ (s ++ (k' ++ r))) x t) ∧
  R (means false x t (.one n) (w ++ r) {})

/-- What is shown of a piece: it is read, and then what follows it. -/
def PieceRead (s : Str) (n : Node) : Prop := ∀ k k' r ms u, Spaces k → Spaces k' → Fresh r → (∀ w, Spaces w → ∃ w', Spaces w' ∧ R (elements (w ++ r) ms (w' ++ u))) →
  ∃ w', Spaces w' ∧ R (elements (k ++ (s ++ (k' ++ r))) (.cons n ms) (w' ++ u))

def ExprRead (s : Str) (ns : Nodes) : Prop := ∀ k k' r, Spaces k → Spaces k' → Fresh r → ∃ w, Spaces w ∧ R (elements (k ++ (s ++ (k' ++ r))) ns (w ++ r))

theorem fresh_nil : Fresh [] := by intro c u e; cases e

theorem ExprRead.formula {s : Str} {ns : Nodes} (h : ExprRead s ns) {g g' : Str} (hg : Spaces g) (hg' : Spaces g') : R (formula (g ++ (s ++ g')) ns) := by
  obtain ⟨w, hw, hr⟩ := h g g' [] hg hg' fresh_nil
  simp only [List.append_nil] at hr
  exact .whole hr (.blank (blank_of_spaces hw))

theorem OperandRead.piece {s : Str} {n : Node} (h : OperandRead s n) : PieceRead s n := by
  intro k k' r ms u hk hk' hr h'
  obtain ⟨x, t, w, hw, h1, h2⟩ := h k' r hk' hr.solid
  obtain ⟨w', hw', h'⟩ := h' w hw
  exact ⟨w', hw', .plain (ns := .one _) (pl := {}) (vs := []) (h1 k hk) (free _) h2 rfl .no (fresh_noScript hw hr) h'⟩

theorem OperandRead.formula {s : Str} {n : Node} (h : OperandRead s n) {g g' : Str} (hg : Spaces g) (hg' : Spaces g') : R (formula (g ++ (s ++ g')) (.one n)) := by
  obtain ⟨w, hw, hr⟩ := h.piece g g' [] .nil [] hg hg' fresh_nil fun w hw => ⟨w, by simpa using hw, by simpa using Reads.nil⟩
  simp only [List.append_nil] at hr
  exact .whole hr (.blank (blank_of_spaces hw))

section
variable {gap : List Nat → Str} (hg : ∀ p, Spaces (gap p))
include hg

theorem braced (e : Expr) (p : List Nat) {g₁ g₂ g₃ : Str} (h₁ : Spaces g₁) (h₂ : Spaces g₂) (h₃ : Spaces g₃) (r : Str) :
    Braced (inBraces g₁ g₂ (e.spaced gap p) g₃ ++ r) (g₂ ++ (e.spaced gap p ++ g₃)) r := by
  refine ⟨g₁, g₂ ++ (e.spaced gap p ++ g₃) ++ '}' :: r, h₁, by simp [inBraces], ?_⟩
  exact pass_split (through_braces.app (through_gap through_braces h₂) (through_braces.app (expr_through through_braces hg e p) (through_gap through_braces h₃))) r

theorem argument {e : Expr} {p : List Nat} (h : ExprRead (e.spaced gap p) e.nodes) {g₁ g₂ g₃ : Str} (h₁ : Spaces g₁) (h₂ : Spaces g₂) (h₃ : Spaces g₃) (r : Str) :
    R (Judgement.operand (inBraces g₁ g₂ (e.spaced gap p) g₃ ++ r) (.one (.group none [] e.nodes)) r {}) := by
  have := Reads.groupArg (braced hg e p h₁ h₂ h₃ r) (h.formula h₂ h₃)
  rwa [expr_block] at this
end

/-- The first token is a command with an argument in braces or brackets. -/
theorem tok_command {k name g t : Str} {x : Char} (hk : Spaces k) (hg : Spaces g) (h0 : name ≠ []) (h1 : name.all isLetter = true) (hx : isLetter x = false ∧ isWs x = false) :
    NextTok (k ++ ('\\' :: (name ++ (g ++ x :: t)))) (.cs name) (x :: t) :=
  tok_word hk ⟨h0, letters_of _ h1⟩ hg (gap_word hg hx.1) (solid_cons hx.2)

theorem tok_braces {k name g₁ g₂ g₃ s r : Str} (hk : Spaces k) (hg : Spaces g₁) (h0 : name ≠ []) (h1 : name.all isLetter = true) :
    NextTok (k ++ ('\\' :: (name ++ (inBraces g₁ g₂ s g₃ ++ r)))) (.cs name) (inBraces [] g₂ s g₃ ++ r) := by
  have := tok_command (t := g₂ ++ (s ++ (g₃ ++ '}' :: r))) hk hg h0 h1 (x := '{') (by decide)
  simpa [inBraces] using this

theorem infix_read (o : Infix) {g k r : Str} {ms : Nodes} {u : Str} (hg : Spaces g) (hk : Spaces k) (hr : Fresh r) (h : ∀ w, Spaces w → ∃ w', Spaces w' ∧ R (elements (w ++ r) ms (w' ++ u))) :
    ∃ w', Spaces w' ∧ R (elements (k ++ (o.spaced g ++ r)) (.cons (.content o.content) ms) (w' ++ u)) := by
  have key : ∀ x w, Spaces w → NextTok (k ++ (o.spaced g ++ r)) x (w ++ r) → Single x o.content →
      ∃ w', Spaces w' ∧ R (elements (k ++ (o.spaced g ++ r)) (.cons (.content o.content) ms) (w' ++ u)) := by
    intro x w hw h1 h2
    obtain ⟨w', hw', h⟩ := h w hw
    exact ⟨w', hw', .plain (ns := .one _) (pl := {}) (vs := []) h1 (free _) (.single h2) rfl .no (fresh_noScript hw hr) h⟩
  cases o with
  | plus => exact key (.chr '+') g hg (tok_chr hk (by decide)) (.chr (by decide))
  | minus => exact key (.chr '-') g hg (tok_chr hk (by decide)) (.chr (by decide))
  | equals => exact key (.chr '=') g hg (tok_chr hk (by decide)) (.chr (by decide))
  | comma => exact key (.chr ',') g hg (tok_chr hk (by decide)) (.chr (by decide))
  | slash => exact key (.chr '/') g hg (tok_chr hk (by decide)) (.chr (by decide))
  | asterisk => exact key (.chr '*') g hg (tok_chr hk (by decide)) (.chr (by decide))
  | greater => exact key (.chr '>') g hg (tok_chr hk (by decide)) (.chr (by decide))
  | colon => exact key (.chr ':') g hg (tok_chr hk (by decide)) (.chr (by decide))
  | semicolon => exact key (.chr ';') g hg (tok_chr hk (by decide)) (.chr (by decide))
  | operation name c hc =>
    obtain ⟨h1, h2, h3⟩ := operation_facts _ hc
    refine key (.cs name) [] spaces_nil ?_ (.cs h3)
    have := tok_word (name := name) hk ⟨h1, h2⟩ (spaces_apart hg) (apart_word hg) hr.solid
    simpa [Infix.spaced] using this
  | relation name c hc =>
    obtain ⟨h1, h2, h3⟩ := relation_facts _ hc
    refine key (.cs name) [] spaces_nil ?_ (.cs h3)
    have := tok_word (name := name) hk ⟨h1, h2⟩ (spaces_apart hg) (apart_word hg) hr.solid
    simpa [Infix.spaced] using this

theorem sign_read (s : Sign) {g k r : Str} {ms : Nodes} {u : Str} (hg : Spaces g) (hk : Spaces k) (hr : Fresh r) (h : ∀ w, Spaces w → ∃ w', Spaces w' ∧ R (elements (w ++ r) ms (w' ++ u))) :
    ∃ w', Spaces w' ∧ R (elements (k ++ (s.source ++ (g ++ r))) (.cons (.content s.content) ms) (w' ++ u)) := by
  cases s
  · exact infix_read .plus (g := g) (r := r) hg hk hr h
  · exact infix_read .minus (g := g) (r := r) hg hk hr h

theorem func_read (f : Func) {g k r : Str} {ms : Nodes} {u : Str} (hg : Spaces g) (hk : Spaces k) (hr : Fresh r) (h : R (elements r ms u)) :
    R (elements (k ++ ('\\' :: (f.name ++ (apart g ++ r)))) (.cons (.content (.function f.name)) ms) u) := by
  have hs : Spec.NoScript r := fresh_noScript spaces_nil hr
  obtain ⟨h1, h2, h3⟩ := func_facts f
  exact .plain (ns := .one _) (pl := {}) (vs := []) (tok_word hk ⟨h1, h2⟩ (spaces_apart hg) (apart_word hg) hr.solid) (free _) (.single (.cs h3)) rfl .no hs h

/-- The cells and rows of a matrix. -/
def EntriesRead (s : Str) (es : Entries) : Prop := ∀ m k k' r, es.width ≤ m + 1 → Spaces k → Spaces k' → Fresh r → ∃ w, Spaces w ∧ R (cells m (k ++ (s ++ (k' ++ r))) es.cells (w ++ r))
def GridRead (m : Nat) (s : Str) (g : Grid) : Prop := ∀ k k', Spaces k → Spaces k' → R (rows m (k ++ (s ++ k')) g.rows)

section
variable {gap : List Nat → Str} (hg : ∀ p, Spaces (gap p))
include hg

mutual
theorem operand_read : ∀ (b : Operand) (p : List Nat), b.proper = true → OperandRead (b.spaced gap p) b.node
  | .letter c h, p, _ => by
    intro k' r hk' hr
    have hf := letter_content h
    refine ⟨.chr c, k' ++ r, k', hk', fun k hk => tok_chr hk ⟨hf.2.2.1, hf.2.2.2.1, hf.2.2.2.2.1⟩, ?_⟩
    have := Reads.single (Δ := Known.none) (a := false) (s := k' ++ r) (Single.chr hf.1)
    rw [hf.2.1] at this
    exact this
  | .number ds h, p, _ => by
    intro k' r hk' hr
    obtain ⟨d, ds', rfl, hd, l, c, e, hc, h2⟩ := decimal_facts h
    have hf := digit_facts hd
    refine ⟨.chr d, ds' ++ (apart (gap (0 :: p)) ++ (k' ++ r)), apart (gap (0 :: p)) ++ k', spaces_append (spaces_apart (hg _)) hk', fun k hk => ?_, ?_⟩
    · have := tok_chr (r := ds' ++ (apart (gap (0 :: p)) ++ (k' ++ r))) hk ⟨hf.1, hf.2.1, hf.2.2.1⟩
      simpa [Operand.spaced] using this
    · refine .number hd ?_
      have e2 : d :: (ds' ++ (apart (gap (0 :: p)) ++ (k' ++ r))) = l ++ c :: (apart (gap (0 :: p)) ++ k' ++ r) := by
        have := congrArg (· ++ (apart (gap (0 :: p)) ++ (k' ++ r))) e
        simpa using this
      rw [e] at h2
      rw [e2, e]
      refine .whole h2 hc ?_
      obtain ⟨y, t, ey, hy⟩ := apart_cons (hg (0 :: p))
      rw [ey]
      intro x r' e
      cases e
      have := ws_facts hy
      unfold NumeralChar
      simp [this]
  | .named name c h, p, _ => by
    intro k' r hk' hr
    obtain ⟨h1, h2, h3⟩ := named_facts _ h
    refine ⟨.cs name, r, [], spaces_nil, fun k hk => ?_, .single (.cs h3)⟩
    have := tok_word (w := apart (gap (0 :: p)) ++ k') hk ⟨h1, h2⟩ (spaces_append (spaces_apart (hg _)) hk')
      (by rw [List.append_assoc]; exact apart_word (hg _)) hr
    simpa [Operand.spaced] using this
  | .group e, p, hn => by
    intro k' r hk' hr
    refine ⟨.chr '{', gap (0 :: p) ++ (e.spaced gap (0 :: p) ++ gap (1 :: p)) ++ '}' :: (k' ++ r), k', hk', fun k hk => ?_, ?_⟩
    · have := tok_chr (c := '{') (r := gap (0 :: p) ++ (e.spaced gap (0 :: p) ++ gap (1 :: p)) ++ '}' :: (k' ++ r)) hk (by decide)
      simpa [Operand.spaced] using this
    · have hq := through_braces.app (through_gap through_braces (hg (0 :: p)))
        (through_braces.app (expr_through through_braces hg e (0 :: p)) (through_gap through_braces (hg (1 :: p))))
      have := Reads.braces (a := false) (pass_split hq (k' ++ r)) ((expr_read e (0 :: p) hn).formula (hg _) (hg _))
      rw [expr_block] at this
      exact this
  | .fraction n d, p, hn => by
    intro k' r hk' hr
    rw [Operand.proper, Bool.and_eq_true] at hn
    refine ⟨.cs c!"frac", _, k', hk', fun k hk => ?_, Reads.frac (a := false) (by decide +kernel : primOf c!"frac" = .frac none none none none)
      (argument hg (expr_read n (0 :: p) hn.1) spaces_nil (hg (1 :: p)) (hg (2 :: p)) _) (argument hg (expr_read d (1 :: p) hn.2) (hg (3 :: p)) (hg (4 :: p)) (hg (5 :: p)) _)⟩
    rw [Operand.spaced]
    simp only [List.append_assoc]
    exact tok_braces (name := c!"frac") hk (hg _) (by decide) (by decide)
  | .root e, p, hn => by
    intro k' r hk' hr
    have hs : Starts (inBraces [] (gap (1 :: p)) (e.spaced gap (0 :: p)) (gap (2 :: p)) ++ (k' ++ r)) := starts_chr (by decide)
    refine ⟨.cs c!"sqrt", _, k', hk', fun k hk => ?_, Reads.sqrt (a := false) (by decide +kernel : primOf c!"sqrt" = .sqrt) hs.noBracket
      (argument hg (expr_read e (0 :: p) hn) spaces_nil (hg (1 :: p)) (hg (2 :: p)) _)⟩
    rw [Operand.spaced]
    simp only [List.append_assoc]
    exact tok_braces (name := c!"sqrt") hk (hg _) (by decide) (by decide)
  | .nthRoot i e, p, hn => by
    intro k' r hk' hr
    rw [Operand.proper, Bool.and_eq_true] at hn
    have hq := through_brackets.app (through_gap through_brackets (hg (1 :: p)))
        (through_brackets.app (base_through through_brackets hg i (0 :: p)) (through_gap through_brackets (hg (2 :: p))))
    have hb : Bracketed ('[' :: ((gap (1 :: p) ++ (i.spaced gap (0 :: p) ++ gap (2 :: p))) ++ ([']'] ++
        (inBraces (gap (3 :: p)) (gap (4 :: p)) (e.spaced gap (1 :: p)) (gap (5 :: p)) ++ (k' ++ r))))) _ _ := ⟨[], _, spaces_nil, rfl, pass_split hq _⟩
    refine ⟨.cs c!"sqrt", _, k', hk', fun k hk => ?_, Reads.root (a := false) (by decide +kernel : primOf c!"sqrt" = .sqrt) hb
      ((operand_read i (0 :: p) hn.1).formula (hg _) (hg _)) (argument hg (expr_read e (1 :: p) hn.2) (hg (3 :: p)) (hg (4 :: p)) (hg (5 :: p)) _)⟩
    have := tok_command (name := c!"sqrt") (x := '[') (t := (gap (1 :: p) ++ (i.spaced gap (0 :: p) ++ gap (2 :: p))) ++ ([']'] ++
        (inBraces (gap (3 :: p)) (gap (4 :: p)) (e.spaced gap (1 :: p)) (gap (5 :: p)) ++ (k' ++ r)))) hk (hg (0 :: p)) (by decide) (by decide) (by decide)
    rw [Operand.spaced]
    simpa only [List.append_assoc, List.cons_append, List.nil_append] using this
  | .accented a e, p, hn => by
    intro k' r hk' hr
    obtain ⟨name, h1, h2, h3, hp⟩ := accent_facts a
    refine ⟨.cs name, _, k', hk', fun k hk => ?_, Reads.accent (a := false) hp (argument hg (expr_read e (0 :: p) hn) spaces_nil (hg (1 :: p)) (hg (2 :: p)) _)⟩
    rw [Operand.spaced, h1]
    simp only [List.append_assoc, List.cons_append]
    exact tok_braces hk (hg _) h2 h3
  | .word g h, p, _ => by
    intro k' r hk' hr
    have hb : Braced ('{' :: (g ++ '}' :: (k' ++ r))) g (k' ++ r) :=
        ⟨[], _, spaces_nil, rfl, pass_split (through_braces.chars fun c hc => words_chars (h.2.2 c hc)) _⟩
    refine ⟨.cs c!"text", _, k', hk', fun k hk => ?_, .text (by decide +kernel : primOf c!"text" = .text none) (.braced hb)⟩
    have := tok_command (name := c!"text") (x := '{') (t := g ++ '}' :: (k' ++ r)) hk (hg (0 :: p)) (by decide) (by decide) (by decide)
    rw [Operand.spaced]
    simpa only [List.append_assoc, List.cons_append, List.nil_append] using this
  | .styled a l c h, p, _ => by
    intro k' r hk' hr
    obtain ⟨name, h1, h2, h3, hp⟩ := alphabet_facts a
    have hl := variant_letter h
    have hq := through_braces.app (through_gap through_braces (hg (1 :: p)))
        (through_braces.app (through_braces.chars (t := [l]) (by intro x hx; simp at hx; subst hx; exact letter_chars hl)) (through_gap through_braces (hg (2 :: p))))
    have hb : Braced ('{' :: ((gap (1 :: p) ++ ([l] ++ gap (2 :: p))) ++ '}' :: (k' ++ r))) (gap (1 :: p) ++ ([l] ++ gap (2 :: p))) (k' ++ r) := ⟨[], _, spaces_nil, rfl, pass_split hq _⟩
    refine ⟨.cs name, _, k', hk', fun k hk => ?_, Reads.fontGroup (a := false) hp hb ((operand_read (.letter l hl) (0 :: p) rfl).formula (hg _) (hg _))⟩
    rw [Operand.spaced, h1]
    have := tok_command (x := '{') (t := (gap (1 :: p) ++ ([l] ++ gap (2 :: p))) ++ '}' :: (k' ++ r)) hk (hg (0 :: p)) h2 h3 (by decide)
    simpa only [inBraces, List.append_assoc, List.cons_append, List.nil_append] using this
  | .fenced f e, p, hn => by
    intro k' r hk' hr
    have hp : primOf c!"left" = .left := by decide +kernel
    have hq := through_left.app (through_gap through_left (hg (1 :: p)))
        (through_left.app (expr_through through_left hg e (0 :: p)) (through_gap through_left (hg (2 :: p))))
    refine ⟨.cs c!"left", f.opening :: ((gap (1 :: p) ++ (e.spaced gap (0 :: p) ++ gap (2 :: p))) ++ (c!"\\right" ++ (gap (3 :: p) ++ f.closing :: (k' ++ r)))), k', hk', fun k hk => ?_, ?_⟩
    · have := tok_command (name := c!"left") (x := f.opening) (t := (gap (1 :: p) ++ (e.spaced gap (0 :: p) ++ gap (2 :: p))) ++ (c!"\\right" ++ (gap (3 :: p) ++ f.closing :: (k' ++ r))))
        hk (hg (0 :: p)) (by decide) (by decide) (by cases f <;> decide)
      rw [Operand.spaced]
      simpa only [List.append_assoc, List.cons_append, List.nil_append] using this
    · have ho : ∀ t, DelimText (f.opening :: t) (some f.opening) t := by
        intro t
        cases f
        · exact .chr (c := '(') (by simp [Fence.opening]) (tok_chr spaces_nil (by decide)) (by decide +kernel : _ = some ('(', DelimType.open_))
        · exact .chr (c := '[') (by simp [Fence.opening]) (tok_chr spaces_nil (by decide)) (by decide +kernel : _ = some ('[', DelimType.open_))
        · exact .chr (c := '|') (by simp [Fence.opening]) (tok_chr spaces_nil (by decide)) (by decide +kernel : _ = some ('|', DelimType.fence))
      have hc : DelimText (gap (3 :: p) ++ f.closing :: (k' ++ r)) (some f.closing) (k' ++ r) := by
        have hd : ∀ x t, isWs x = false → x ≠ '.' → (gap (3 :: p) ++ x :: t).head? ≠ some '.' := by
          intro x t hx hx'
          cases hgap : gap (3 :: p) with
          | nil => simpa using hx'
          | cons y w =>
            have := hg (3 :: p) y (by rw [hgap]; simp)
            have := (ws_facts this).2.2.1
            simpa using this
        cases f
        · exact .chr (c := ')') (hd _ _ (by decide) (by decide)) (tok_chr (hg _) (by decide)) (by decide +kernel : _ = some (')', DelimType.close))
        · exact .chr (c := ']') (hd _ _ (by decide) (by decide)) (tok_chr (hg _) (by decide)) (by decide +kernel : _ = some (']', DelimType.close))
        · exact .chr (c := '|') (hd _ _ (by decide) (by decide)) (tok_chr (hg _) (by decide)) (by decide +kernel : _ = some ('|', DelimType.fence))
      have := Reads.left (a := false) hp (ho _) (pass_split hq _) hc ((expr_read e (0 :: p) hn).formula (hg _) (hg _))
      rw [expr_block] at this
      exact this
  | .matrix g, p, hn => by
    intro k' r hk' hr
    have hq := through_matrix.app (through_gap through_matrix (hg (0 :: p)))
        (through_matrix.app (grid_through through_matrix hg g (0 :: p)) (through_gap through_matrix (hg (1 :: p))))
    refine ⟨.cs c!"begin", c!"{matrix}" ++ ((gap (0 :: p) ++ (g.spaced gap (0 :: p) ++ gap (1 :: p))) ++ (c!"\\end{matrix}" ++ (k' ++ r))), k', hk', fun k hk => ?_, ?_⟩
    · have := tok_command (name := c!"begin") (g := []) (x := '{') (t := c!"matrix}" ++ ((gap (0 :: p) ++ (g.spaced gap (0 :: p) ++ gap (1 :: p))) ++ (c!"\\end{matrix}" ++ (k' ++ r))))
        hk spaces_nil (by decide) (by decide) (by decide)
      rw [Operand.spaced]
      simpa only [List.append_assoc, List.cons_append, List.nil_append] using this
    · have hb : Braced (c!"{matrix}" ++ ((gap (0 :: p) ++ (g.spaced gap (0 :: p) ++ gap (1 :: p))) ++ (c!"\\end{matrix}" ++ (k' ++ r)))) c!"matrix"
          ((gap (0 :: p) ++ (g.spaced gap (0 :: p) ++ gap (1 :: p))) ++ (c!"\\end{matrix}" ++ (k' ++ r))) :=
        ⟨[], _, spaces_nil, rfl, pass_split (t := c!"matrix") (pass_chars (by decide)) _⟩
      have hl := starts_lines (hg (0 :: p)) (grid_starts gap g (0 :: p) (gap (1 :: p) ++ (c!"\\end{matrix}" ++ (k' ++ r))))
      have e : gap (0 :: p) ++ (g.spaced gap (0 :: p) ++ (gap (1 :: p) ++ (c!"\\end{matrix}" ++ (k' ++ r)))) =
          (gap (0 :: p) ++ (g.spaced gap (0 :: p) ++ gap (1 :: p))) ++ (c!"\\end{matrix}" ++ (k' ++ r)) := by simp
      rw [e] at hl
      have := Reads.environment (a := false) hb (.plain (sh := ⟨.matrix .center, 65535, none, none⟩) (List.Mem.head _)) hl
        (pass_split (op := c!"\\begin{matrix}") (cl := c!"\\end{matrix}") hq (k' ++ r)) (grid_read g (0 :: p) hn _ _ (hg _) (hg _))
      exact this
  | .choice g, p, hn => by
    intro k' r hk' hr
    have hq := through_cases.app (through_gap through_cases (hg (0 :: p)))
        (through_cases.app (grid_through through_cases hg g (0 :: p)) (through_gap through_cases (hg (1 :: p))))
    refine ⟨.cs c!"begin", c!"{cases}" ++ ((gap (0 :: p) ++ (g.spaced gap (0 :: p) ++ gap (1 :: p))) ++ (c!"\\end{cases}" ++ (k' ++ r))), k', hk', fun k hk => ?_, ?_⟩
    · have := tok_command (name := c!"begin") (g := []) (x := '{') (t := c!"cases}" ++ ((gap (0 :: p) ++ (g.spaced gap (0 :: p) ++ gap (1 :: p))) ++ (c!"\\end{cases}" ++ (k' ++ r))))
        hk spaces_nil (by decide) (by decide) (by decide)
      rw [Operand.spaced]
      simpa only [List.append_assoc, List.cons_append, List.nil_append] using this
    · have hb : Braced (c!"{cases}" ++ ((gap (0 :: p) ++ (g.spaced gap (0 :: p) ++ gap (1 :: p))) ++ (c!"\\end{cases}" ++ (k' ++ r)))) c!"cases"
          ((gap (0 :: p) ++ (g.spaced gap (0 :: p) ++ gap (1 :: p))) ++ (c!"\\end{cases}" ++ (k' ++ r))) :=
        ⟨[], _, spaces_nil, rfl, pass_split (t := c!"cases") (pass_chars (by decide)) _⟩
      have hl := starts_lines (hg (0 :: p)) (grid_starts gap g (0 :: p) (gap (1 :: p) ++ (c!"\\end{cases}" ++ (k' ++ r))))
      have e : gap (0 :: p) ++ (g.spaced gap (0 :: p) ++ (gap (1 :: p) ++ (c!"\\end{cases}" ++ (k' ++ r)))) =
          (gap (0 :: p) ++ (g.spaced gap (0 :: p) ++ gap (1 :: p))) ++ (c!"\\end{cases}" ++ (k' ++ r)) := by simp
      rw [e] at hl
      have := Reads.environment (a := false) hb (.plain (sh := ⟨.cases true, 1, none, none⟩) (by simp [plainEnvironments])) hl
        (pass_split (op := c!"\\begin{cases}") (cl := c!"\\end{cases}") hq (k' ++ r)) (grid_read g (0 :: p) hn _ _ (hg _) (hg _))
      exact this
theorem piece_read : ∀ (i : Scripted) (p : List Nat), i.proper = true → PieceRead (i.spaced gap p) i.node
  | .plain b, p, hn => (operand_read b (0 :: p) hn).piece
  | .sup b e, p, hn => by
    intro k k' r ms u hk hk' hr h
    rw [Scripted.proper, Bool.and_eq_true] at hn
    obtain ⟨x, t, w, hw, h1, h2⟩ := operand_read b (0 :: p) hn.1 (gap (0 :: p)) ('^' :: (e.spaced gap (1 :: p) ++ (k' ++ r)))
      (hg _) (solid_cons (by decide))
    obtain ⟨w', hw', h⟩ := h k' hk'
    refine ⟨w', hw', ?_⟩
    have := Reads.script (ns := .one b.node) (pl := {}) (vs := []) (h1 k hk) (free _) h2 rfl .no hw (.inl rfl) (index_read e (1 :: p) hn.2 (k' ++ r))
      (fun c u e => fresh_noScript hk' hr [] c u spaces_nil e) h
    refine Eq.mp (congrArg (fun t => R (elements t _ _)) ?_) this
    simp [Scripted.spaced]
  | .sub b e, p, hn => by
    intro k k' r ms u hk hk' hr h
    rw [Scripted.proper, Bool.and_eq_true] at hn
    obtain ⟨x, t, w, hw, h1, h2⟩ := operand_read b (0 :: p) hn.1 (gap (0 :: p)) ('_' :: (e.spaced gap (1 :: p) ++ (k' ++ r)))
      (hg _) (solid_cons (by decide))
    obtain ⟨w', hw', h⟩ := h k' hk'
    refine ⟨w', hw', ?_⟩
    have := Reads.script (ns := .one b.node) (pl := {}) (vs := []) (h1 k hk) (free _) h2 rfl .no hw (.inr rfl) (index_read e (1 :: p) hn.2 (k' ++ r))
      (fun c u e => fresh_noScript hk' hr [] c u spaces_nil e) h
    refine Eq.mp (congrArg (fun t => R (elements t _ _)) ?_) this
    simp [Scripted.spaced]
  | .subSup b l v, p, hn => by
    intro k k' r ms u hk hk' hr h
    rw [Scripted.proper, Bool.and_eq_true, Bool.and_eq_true] at hn
    obtain ⟨x, t, w, hw, h1, h2⟩ := operand_read b (0 :: p) hn.1.1 (gap (0 :: p)) ('_' :: (l.spaced gap (1 :: p) ++
      '^' :: (v.spaced gap (2 :: p) ++ (k' ++ r)))) (hg _) (solid_cons (by decide))
    obtain ⟨w', hw', h⟩ := h k' hk'
    refine ⟨w', hw', ?_⟩
    have := Reads.subSup (ns := .one b.node) (pl := {}) (vs := []) (h1 k hk) (free _) h2 rfl .no hw
      (index_read l (1 :: p) hn.1.2 _)
      (index_read v (2 :: p) hn.2 (k' ++ r))
      (fun c u e => fresh_noScript hk' hr [] c u spaces_nil e) h
    refine Eq.mp (congrArg (fun t => R (elements t _ _)) ?_) this
    simp [Scripted.spaced]
theorem index_read : ∀ (s : Index) (p : List Nat), s.proper = true → ∀ r, R (Judgement.operand (s.spaced gap p ++ r) (.one s.node) r {})
  | .braced e, p, hn, r => argument hg (expr_read e (0 :: p) hn) (hg _) (hg _) (hg _) r
  | .letter c h, p, _, r => by
    have hf := letter_content h
    have := Reads.single (Δ := Known.none) (a := true) (s := r) (Single.chr hf.1)
    rw [hf.2.1] at this
    rw [Index.spaced, List.append_assoc]
    refine .tokenArg (x := .chr c) ⟨tok_chr (hg _) ⟨hf.2.2.1, hf.2.2.2.1, hf.2.2.2.2.1⟩, ?_⟩ (free _) this
    exact gap_brace (hg _) hf.2.2.2.2.1 (by rintro rfl; cases h)
  | .digit c h, p, _, r => by
    have hf := digit_facts h
    rw [Index.spaced, List.append_assoc]
    refine .tokenArg (x := .chr c) ⟨tok_chr (hg _) ⟨hf.1, hf.2.1, hf.2.2.1⟩, ?_⟩ (free _) (.digit h)
    exact gap_brace (hg _) hf.2.2.1 (by rintro rfl; cases h)
theorem expr_read : ∀ (e : Expr) (p : List Nat), e.proper = true → ExprRead (e.spaced gap p) e.nodes
  | .one i, p, hn => by
    intro k k' r hk hk' hr
    exact piece_read i (0 :: p) hn k k' r .nil r hk hk' hr fun w hw => ⟨w, hw, .nil⟩
  | .next i e, p, hn => by
    intro k k' r hk hk' hr
    rw [Expr.proper, Bool.and_eq_true] at hn
    have := piece_read i (0 :: p) hn.1 k (gap (0 :: p)) (e.spaced gap (1 :: p) ++ (k' ++ r)) e.nodes r hk (hg _) (expr_starts gap e _ _).fresh
      fun w hw => expr_read e (1 :: p) hn.2 w k' r hw hk' hr
    rw [Expr.spaced, Expr.nodes]
    simpa only [List.append_assoc] using this
  | .infix i o e, p, hn => by
    intro k k' r hk hk' hr
    rw [Expr.proper, Bool.and_eq_true] at hn
    have ho : Fresh (o.spaced (gap (1 :: p)) ++ (e.spaced gap (1 :: p) ++ (k' ++ r))) := by cases o <;> exact fresh_cons (by decide)
    have := piece_read i (0 :: p) hn.1 k (gap (0 :: p)) (o.spaced (gap (1 :: p)) ++ (e.spaced gap (1 :: p) ++ (k' ++ r))) (.cons (.content o.content) e.nodes) r hk (hg _) ho fun w hw =>
      infix_read o (hg _) hw (expr_starts gap e _ _).fresh fun w hw => expr_read e (1 :: p) hn.2 w k' r hw hk' hr
    rw [Expr.spaced, Expr.nodes]
    simpa only [List.append_assoc] using this
  | .signed s e, p, hn => by
    intro k k' r hk hk' hr
    have := sign_read s (hg (0 :: p)) hk (expr_starts gap e (0 :: p) (k' ++ r)).fresh fun w hw => expr_read e (0 :: p) hn w k' r hw hk' hr
    rw [Expr.spaced, Expr.nodes]
    simpa only [List.append_assoc] using this
  | .apply f e, p, hn => by
    intro k k' r hk hk' hr
    obtain ⟨w', hw', h⟩ := expr_read e (0 :: p) hn [] k' r spaces_nil hk' hr
    refine ⟨w', hw', ?_⟩
    have := func_read f (hg (0 :: p)) hk (expr_starts gap e (0 :: p) (k' ++ r)).fresh h
    refine Eq.mp (congrArg (fun t => R (elements t _ _)) ?_) this
    simp [Expr.spaced]
  | .big op l v e, p, hn => by
    intro k k' r hk hk' hr
    rw [Expr.proper, Bool.and_eq_true, Bool.and_eq_true, Bool.and_eq_true] at hn
    replace hn := hn.1
    have hf := (expr_starts gap e (2 :: p) (k' ++ r)).fresh
    obtain ⟨w', hw', h⟩ := expr_read e (2 :: p) hn.2 (gap (1 :: p)) k' r (hg _) hk' hr
    obtain ⟨name, h1, h2, h3, hp⟩ := big_facts op
    refine ⟨w', hw', ?_⟩
    have ht := tok_command (x := '_') (t := l.spaced gap (0 :: p) ++
      '^' :: (v.spaced gap (1 :: p) ++ (gap (1 :: p) ++ (e.spaced gap (2 :: p) ++ (k' ++ r))))) hk (hg (0 :: p)) h2 h3 (by decide)
    have := Reads.subSup (w := []) (ns := .one _) (vs := []) ht (free _) (.operator hp) rfl (.yes (noWords (by simp [trimStart, isWs]))) spaces_nil
      (index_read l (0 :: p) hn.1.1 _)
      (index_read v (1 :: p) hn.1.2 _) (fun c u e' => fresh_noScript (hg (1 :: p)) hf [] c u spaces_nil e') h
    refine Eq.mp (congrArg (fun t => R (elements t _ _)) ?_) this
    simp [Expr.spaced, h1]
  | .ranged op l e, p, hn => by
    intro k k' r hk hk' hr
    rw [Expr.proper, Bool.and_eq_true, Bool.and_eq_true] at hn
    replace hn := hn.1
    have hf := (expr_starts gap e (1 :: p) (k' ++ r)).fresh
    obtain ⟨w', hw', h⟩ := expr_read e (1 :: p) hn.2 (gap (1 :: p)) k' r (hg _) hk' hr
    obtain ⟨name, h1, h2, h3, hp⟩ := big_facts op
    refine ⟨w', hw', ?_⟩
    have ht := tok_command (x := '_') (t := l.spaced gap (0 :: p) ++ (gap (1 :: p) ++ (e.spaced gap (1 :: p) ++ (k' ++ r)))) hk (hg (0 :: p)) h2 h3 (by decide)
    have := Reads.script (w := []) (c := '_') (ns := .one _) (vs := []) ht (free _) (.operator hp) rfl (.yes (noWords (by simp [trimStart, isWs]))) spaces_nil (.inr rfl)
      (index_read l (0 :: p) hn.1 _) (fun c u e' => fresh_noScript (hg (1 :: p)) hf [] c u spaces_nil e') h
    refine Eq.mp (congrArg (fun t => R (elements t _ _)) ?_) this
    simp [Expr.spaced, h1]
theorem entries_read : ∀ (es : Entries) (p : List Nat), es.proper = true → EntriesRead (es.spaced gap p) es
  | .last e, p, hn => by
    intro m k k' r _ hk hk' hr
    obtain ⟨w, hw, h⟩ := expr_read e (0 :: p) hn k k' r hk hk' hr
    exact ⟨w, hw, .lastCell h⟩
  | .cons e es, p, hn => by
    intro m k k' r hm hk hk' hr
    rw [Entries.proper, Bool.and_eq_true] at hn
    rw [Entries.width] at hm
    cases m with
    | zero => cases es <;> (rw [Entries.width] at hm; omega)
    | succ m =>
      obtain ⟨w, hw, h⟩ := expr_read e (0 :: p) hn.1 k (gap (0 :: p)) ('&' :: (gap (1 :: p) ++ (es.spaced gap (1 :: p) ++ (k' ++ r)))) hk (hg _) (fresh_cons (by decide))
      obtain ⟨w', hw', hs⟩ := entries_read es (1 :: p) hn.2 m (gap (1 :: p)) k' r (by omega) (hg _) hk' hr
      refine ⟨w', hw', ?_⟩
      have := Reads.cell h (tok_chr hw (by decide)) (fresh_noScript (hg _) (entries_starts gap es (1 :: p) (k' ++ r)).fresh) hs
      rw [Entries.spaced, Entries.cells]
      simpa only [List.append_assoc, List.cons_append, List.nil_append] using this
theorem grid_read : ∀ (g : Grid) (p : List Nat) {m : Nat}, g.proper m = true → GridRead m (g.spaced gap p) g
  | .last es, p, m, hn => by
    intro k k' hk hk'
    rw [Grid.proper, Bool.and_eq_true] at hn
    obtain ⟨w, hw, hs⟩ := entries_read es (0 :: p) hn.2 m k k' [] (of_decide_eq_true hn.1) hk hk' fresh_nil
    rw [List.append_nil, List.append_nil] at hs
    exact .lastLine hs (.blank (blank_of_spaces hw))
  | .cons es g, p, m, hn => by
    intro k k' hk hk'
    rw [Grid.proper, Bool.and_eq_true, Bool.and_eq_true] at hn
    have hst := grid_starts gap g (1 :: p) k'
    obtain ⟨w, hw, hs⟩ := entries_read es (0 :: p) hn.1.2 m k (gap (0 :: p)) ('\\' :: '\\' :: (gap (1 :: p) ++ (g.spaced gap (1 :: p) ++ k'))) (of_decide_eq_true hn.1.1) hk (hg _)
      (fresh_cons (by decide))
    have ht : NextTok (w ++ '\\' :: '\\' :: (gap (1 :: p) ++ (g.spaced gap (1 :: p) ++ k'))) (.cs c!"\\") (g.spaced gap (1 :: p) ++ k') :=
      .cs (blank_of_spaces hw) (.symbol (by decide)) (hg _) hst.fresh.solid
    have hgr := grid_read g (1 :: p) hn.2 [] k' spaces_nil hk'
    have := Reads.line hs ht rfl (by decide +kernel) hst.noBracket hst.lines (fresh_noScript (w := []) spaces_nil hst.fresh) hgr
    rw [Grid.spaced, Grid.rows]
    simpa only [List.append_assoc, List.cons_append, List.nil_append] using this
end
end

end PL.Props.Spaced
