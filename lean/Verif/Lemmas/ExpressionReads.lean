import Verif.Lemmas.Expression
set_option autoImplicit false
/-!
# The LaTeX of an expression is read as the expression
-/
namespace PL.Props
open PL PL.Lex PL.Mathml Spec Judgement

/-- What can follow an operand. -/
def Solid (r : Str) : Prop := ∀ c u, r = c :: u → isWs c = false
/-- What can follow a piece. -/
def Fresh (r : Str) : Prop := ∀ c u, r = c :: u → isWs c = false ∧ c ≠ '^' ∧ c ≠ '_'

theorem Fresh.solid {r : Str} (h : Fresh r) : Solid r := fun c u e => (h c u e).1

theorem fresh_cons {c : Char} {r : Str} (h : isWs c = false ∧ c ≠ '^' ∧ c ≠ '_') : Fresh (c :: r) := by
  intro c' u e
  cases e
  exact h

theorem solid_cons {c : Char} {r : Str} (h : isWs c = false) : Solid (c :: r) := by
  intro c' u e
  cases e
  exact h

theorem spaces_nil : Spaces [] := by simp [Spaces]
theorem spaces_one : Spaces c!" " := by intro c hc; simp at hc; subst hc; decide

theorem blank_of_spaces : ∀ {k : Str}, Spaces k → Blank k
  | [], _ => .nil
  | c :: k, h => .ws (h c (by simp)) (blank_of_spaces fun c hc => h c (by simp [hc]))

theorem fresh_noScript {w r : Str} (hw : Spaces w) (hr : Fresh r) : Spec.NoScript (w ++ r) := by
  intro v c u hv e
  have e1 := congrArg trimStart e
  rw [trimStart_ws_append hw, trimStart_ws_append hv] at e1
  have e2 : trimStart r = r := trimStart_eq_self fun c r' e => (hr c r' e).1
  rw [e2] at e1
  by_cases hc : isWs c = true
  · constructor <;> rintro rfl <;> cases hc
  · rw [trimStart_eq_self (s := c :: u) fun c' r' e => by cases e; simpa using hc] at e1
    exact (hr c u e1).2

theorem tok_chr {k r : Str} {c : Char} (hk : Spaces k) (h : c ≠ '\\' ∧ c ≠ '%' ∧ isWs c = false) : NextTok (k ++ c :: r) (.chr c) r :=
  .chr (blank_of_spaces hk) h.1 h.2.1 h.2.2

theorem tok_word {k w name r : Str} (hk : Spaces k) (hn : name ≠ [] ∧ ∀ c ∈ name, isLetter c = true) (hw : Spaces w) (h0 : ∀ c u, w ++ r = c :: u → isLetter c = false)
    (hr : Solid r) : NextTok (k ++ '\\' :: (name ++ (w ++ r))) (.cs name) r :=
  .cs (blank_of_spaces hk) (.word hn.1 hn.2 h0) hw hr

theorem split_braces (e : Expr) (r : Str) : Split ['{'] ['}'] 0 (e.source ++ '}' :: r) e.source r := pass_split (expr_through through_braces e) r

theorem braced (e : Expr) (r : Str) : Braced ('{' :: (e.source ++ '}' :: r)) e.source r := ⟨[], _, spaces_nil, rfl, split_braces e r⟩

/-- Letters are ordinary symbols. -/
theorem letter_content {c : Char} (h : isLetter c = true) : special c = false ∧ charContent c = .ordinary c false ∧ c ≠ '\\' ∧ c ≠ '%' ∧ isWs c = false ∧ c ≠ '^' ∧ c ≠ '_' ∧ c ≠ '[' := by
  have hc : c.toNat < 128 := by
    unfold isLetter at h
    simp at h
    omega
  have key : ∀ n < 128, isLetter (Char.ofNat n) = true → special (Char.ofNat n) = false ∧ charContent (Char.ofNat n) = .ordinary (Char.ofNat n) false ∧ Char.ofNat n ≠ '\\' ∧
      Char.ofNat n ≠ '%' ∧ isWs (Char.ofNat n) = false ∧ Char.ofNat n ≠ '^' ∧ Char.ofNat n ≠ '_' ∧ Char.ofNat n ≠ '[' := by decide +kernel
  have := key c.toNat hc
  rw [Char.ofNat_toNat] at this
  exact this h

theorem digit_facts {c : Char} (h : isDigit c = true) : c ≠ '\\' ∧ c ≠ '%' ∧ isWs c = false ∧ c ≠ '^' ∧ c ≠ '_' ∧ c ≠ '[' ∧ isLetter c = false := by
  have hc : c.toNat < 128 := by
    unfold isDigit at h
    simp at h
    omega
  have key : ∀ n < 128, isDigit (Char.ofNat n) = true → Char.ofNat n ≠ '\\' ∧
      Char.ofNat n ≠ '%' ∧ isWs (Char.ofNat n) = false ∧ Char.ofNat n ≠ '^' ∧ Char.ofNat n ≠ '_' ∧ Char.ofNat n ≠ '[' ∧ isLetter (Char.ofNat n) = false := by decide +kernel
  have := key c.toNat hc
  rw [Char.ofNat_toNat] at this
  exact this h

theorem named_facts : ∀ p ∈ namedLetters, p.1 ≠ [] ∧ (∀ c ∈ p.1, isLetter c = true) ∧ symbol (primOf p.1) = some (.ordinary p.2 false) := by decide +kernel

/-- How an expression starts. -/
def Starts (s : Str) : Prop := ∃ c u, s = c :: u ∧ isWs c = false ∧ c ≠ '^' ∧ c ≠ '_' ∧ c ≠ '[' ∧
  ¬ c!"\\hline" <+: s ∧ ¬ c!"\\hdashline" <+: s

theorem no_line {c : Char} {u : Str} (h : c ≠ '\\') : ¬ c!"\\hline" <+: c :: u ∧ ¬ c!"\\hdashline" <+: c :: u := by
  constructor <;> rintro ⟨t, e⟩ <;> injection e with e1 e2 <;> exact h e1.symm

theorem starts_chr {c : Char} {u : Str} (h : c ≠ '\\' ∧ isWs c = false ∧ c ≠ '^' ∧ c ≠ '_' ∧ c ≠ '[') : Starts (c :: u) :=
  ⟨c, u, rfl, h.2.1, h.2.2.1, h.2.2.2.1, h.2.2.2.2, no_line h.1⟩

theorem starts_word {w u : Str} (h0 : w.head? = some '\\') (h1 : clash c!"\\hline" w = true) (h2 : clash c!"\\hdashline" w = true) : Starts (w ++ u) := by
  cases w with
  | nil => cases h0
  | cons c w =>
    injection h0 with h0
    subst h0
    exact ⟨'\\', w ++ u, rfl, by decide, by decide, by decide, by decide, clash_prefix h1 u, clash_prefix h2 u⟩

theorem operand_starts (b : Operand) (r : Str) : Starts (b.source ++ r) := by
  cases b with
  | letter c h => have := letter_content h; exact starts_chr ⟨this.2.2.1, this.2.2.2.2.1, this.2.2.2.2.2.1, this.2.2.2.2.2.2.1, this.2.2.2.2.2.2.2⟩
  | number ds h =>
    obtain ⟨d, ds', rfl, hd, -⟩ := decimal_facts h
    have := digit_facts hd
    exact starts_chr ⟨this.1, this.2.2.1, this.2.2.2.1, this.2.2.2.2.1, this.2.2.2.2.2.1⟩
  | named name c h =>
    have key : ∀ p ∈ namedLetters, clash c!"\\hline" (c!"\\" ++ p.1 ++ c!" ") = true ∧ clash c!"\\hdashline" (c!"\\" ++ p.1 ++ c!" ") = true := by decide +kernel
    exact starts_word rfl (key _ h).1 (key _ h).2
  | group e => exact starts_chr (by decide)
  | fraction n d => rw [Operand.source]; simp only [List.append_assoc]; exact starts_word (w := c!"\\frac") rfl (by decide) (by decide)
  | root e => rw [Operand.source]; simp only [List.append_assoc]; exact starts_word (w := c!"\\sqrt") rfl (by decide) (by decide)
  | nthRoot i e => rw [Operand.source]; simp only [List.append_assoc]; exact starts_word (w := c!"\\sqrt") rfl (by decide) (by decide)
  | accented a e =>
    rw [Operand.source]
    simp only [List.append_assoc]
    cases a <;> exact starts_word rfl (by decide) (by decide)
  | word t h => rw [Operand.source]; simp only [List.append_assoc]; exact starts_word (w := c!"\\text") rfl (by decide) (by decide)
  | styled a l c h => rw [Operand.source]; simp only [List.append_assoc]; cases a <;> exact starts_word rfl (by decide) (by decide)
  | fenced f e => rw [Operand.source]; simp only [List.append_assoc]; exact starts_word (w := c!"\\left") rfl (by decide) (by decide)
  | matrix g => rw [Operand.source]; simp only [List.append_assoc]; exact starts_word (w := c!"\\begin{matrix}") rfl (by decide) (by decide)
  | choice g => rw [Operand.source]; simp only [List.append_assoc]; exact starts_word (w := c!"\\begin{cases}") rfl (by decide) (by decide)

theorem piece_starts (i : Scripted) (r : Str) : Starts (i.source ++ r) := by
  cases i <;> rw [Scripted.source] <;> (try simp only [List.append_assoc]) <;> exact operand_starts _ _

theorem expr_starts (e : Expr) (r : Str) : Starts (e.source ++ r) := by
  cases e <;> rw [Expr.source] <;> (try simp only [List.append_assoc])
  · exact piece_starts _ _
  · exact piece_starts _ _
  · exact piece_starts _ _
  · rename_i s e; cases s <;> exact starts_chr (by decide)
  · rename_i f e
    rw [← List.append_assoc (c!"\\"), ← List.append_assoc]
    cases f <;> exact starts_word rfl (by decide) (by decide)
  · rename_i op l u e
    cases op <;> exact starts_word rfl (by decide) (by decide)
  · rename_i op l e
    cases op <;> exact starts_word rfl (by decide) (by decide)

theorem entries_starts (es : Entries) (r : Str) : Starts (es.source ++ r) := by
  cases es <;> rw [Entries.source] <;> (try simp only [List.append_assoc]) <;> exact expr_starts _ _

theorem grid_starts (g : Grid) (r : Str) : Starts (g.source ++ r) := by
  cases g <;> rw [Grid.source] <;> (try simp only [List.append_assoc]) <;> exact entries_starts _ _

theorem Starts.fresh {s : Str} (h : Starts s) : Fresh s := by
  obtain ⟨c, u, rfl, h1, h2, h3, -⟩ := h
  exact fresh_cons ⟨h1, h2, h3⟩

theorem Starts.lines {s : Str} (h : Starts s) : WordSeq [(c!"\\hline", Line.solid), (c!"\\hdashline", .dashed)] s [] s := by
  obtain ⟨c, u, rfl, h1, -, -, -, h4, h5⟩ := h
  refine .nil ?_
  intro w v x t hw hm e
  cases w with
  | cons y w =>
    injection e with e1 e2
    subst e1
    have := hw c (by simp)
    rw [h1] at this
    cases this
  | nil =>
    simp only [List.mem_cons, Prod.mk.injEq, List.not_mem_nil, or_false] at hm
    rcases hm with ⟨rfl, -⟩ | ⟨rfl, -⟩
    · exact h4 ⟨t, e.symm⟩
    · exact h5 ⟨t, e.symm⟩

theorem Starts.noBracket {s : Str} (h : Starts s) : NoOptional s s := by
  obtain ⟨c, u, rfl, h1, -, -, h4, -⟩ := h
  refine .absent ?_
  intro w t hw e
  cases w with
  | cons y w =>
    injection e with e1 e2
    subst e1
    have := hw c (by simp)
    rw [h1] at this
    cases this
  | nil => injection e with e1 e2; exact h4 e1

/-! ## Reading -/

abbrev R (j : Judgement) : Prop := Reads Known.none j

/-- What is shown of an operand: after any white space, its first token stands for it, and white space may be left. -/
def OperandRead (b : Operand) : Prop := ∀ r, Solid r → ∃ x t w, Spaces w ∧ (∀ k, Spaces k → NextTok (k ++ (b.source ++ r)) x t) ∧ R (means false x t (.one b.node) (w ++ r) {})

/-- What is shown of a piece: it is read, and then what follows it. -/
def PieceRead (i : Scripted) : Prop := ∀ k r ms u, Spaces k → Fresh r → (∀ w, Spaces w → ∃ w', Spaces w' ∧ R (elements (w ++ r) ms (w' ++ u))) →
  ∃ w', Spaces w' ∧ R (elements (k ++ (i.source ++ r)) (.cons i.node ms) (w' ++ u))

def ExprRead (e : Expr) : Prop := ∀ k r, Spaces k → Fresh r → ∃ w, Spaces w ∧ R (elements (k ++ (e.source ++ r)) e.nodes (w ++ r))

theorem ExprRead.formula {e : Expr} (h : ExprRead e) : R (formula e.source e.nodes) := by
  obtain ⟨w, hw, hr⟩ := h [] [] spaces_nil (by intro c u e; cases e)
  simp only [List.nil_append, List.append_nil] at hr
  exact .whole hr (.blank (blank_of_spaces hw))

theorem ExprRead.operand {e : Expr} (h : ExprRead e) (r : Str) : R (Judgement.operand (c!"{" ++ e.source ++ c!"}" ++ r) (.one (.group none [] e.nodes)) r {}) := by
  have := Reads.groupArg (braced e r) h.formula
  rw [expr_block] at this
  simpa using this

theorem over_nil : Place.over {} {} = {} := rfl

theorem letters_of (w : Str) (h : w.all isLetter = true) : ∀ c ∈ w, isLetter c = true := by simpa using h

/-- The first token is a command with an argument in braces. -/
theorem tok_command {k name t : Str} (hk : Spaces k) (h0 : name ≠ []) (h1 : name.all isLetter = true) : NextTok (k ++ ('\\' :: (name ++ '{' :: t))) (.cs name) ('{' :: t) :=
  tok_word (w := []) hk ⟨h0, letters_of _ h1⟩ spaces_nil (by intro c u e; cases e; decide) (solid_cons (by decide))

theorem operation_facts : ∀ p ∈ operations, p.1 ≠ [] ∧ (∀ c ∈ p.1, isLetter c = true) ∧ symbol (primOf p.1) = some (.binaryOp p.2 false) := by decide +kernel
theorem relation_facts : ∀ p ∈ relations, p.1 ≠ [] ∧ (∀ c ∈ p.1, isLetter c = true) ∧ symbol (primOf p.1) = some (.relation p.2 none false) := by decide +kernel

theorem infix_read (o : Infix) (k r : Str) (ms : Nodes) (u : Str) (hk : Spaces k) (hr : Fresh r) (h : R (elements r ms u)) :
    R (elements (k ++ (o.source ++ r)) (.cons (.content o.content) ms) u) := by
  have hs : Spec.NoScript r := fresh_noScript spaces_nil hr
  have key : ∀ x, NextTok (k ++ (o.source ++ r)) x r → Single x o.content → R (elements (k ++ (o.source ++ r)) (.cons (.content o.content) ms) u) :=
    fun x h1 h2 => .plain (ns := .one _) (pl := {}) (vs := []) h1 (free _) (.single h2) rfl .no hs h
  cases o with
  | plus => exact key (.chr '+') (tok_chr hk (by decide)) (.chr (by decide))
  | minus => exact key (.chr '-') (tok_chr hk (by decide)) (.chr (by decide))
  | equals => exact key (.chr '=') (tok_chr hk (by decide)) (.chr (by decide))
  | comma => exact key (.chr ',') (tok_chr hk (by decide)) (.chr (by decide))
  | slash => exact key (.chr '/') (tok_chr hk (by decide)) (.chr (by decide))
  | asterisk => exact key (.chr '*') (tok_chr hk (by decide)) (.chr (by decide))
  | greater => exact key (.chr '>') (tok_chr hk (by decide)) (.chr (by decide))
  | colon => exact key (.chr ':') (tok_chr hk (by decide)) (.chr (by decide))
  | semicolon => exact key (.chr ';') (tok_chr hk (by decide)) (.chr (by decide))
  | operation name c hc =>
    obtain ⟨h1, h2, h3⟩ := operation_facts _ hc
    refine key (.cs name) ?_ (.cs h3)
    have := tok_word (name := name) (w := c!" ") hk ⟨h1, h2⟩ spaces_one (by intro c u e; cases e; decide) hr.solid
    simpa [Infix.source] using this
  | relation name c hc =>
    obtain ⟨h1, h2, h3⟩ := relation_facts _ hc
    refine key (.cs name) ?_ (.cs h3)
    have := tok_word (name := name) (w := c!" ") hk ⟨h1, h2⟩ spaces_one (by intro c u e; cases e; decide) hr.solid
    simpa [Infix.source] using this

theorem sign_read (s : Sign) (k r : Str) (ms : Nodes) (u : Str) (hk : Spaces k) (hr : Fresh r) (h : R (elements r ms u)) :
    R (elements (k ++ (s.source ++ r)) (.cons (.content s.content) ms) u) := by
  cases s
  · exact infix_read .plus k r ms u hk hr h
  · exact infix_read .minus k r ms u hk hr h

theorem func_facts (f : Func) : f.name ≠ [] ∧ (∀ c ∈ f.name, isLetter c = true) ∧ symbol (primOf f.name) = some (.function f.name) := by
  cases f <;> exact ⟨by decide, by decide, by decide +kernel⟩

theorem func_read (f : Func) (k r : Str) (ms : Nodes) (u : Str) (hk : Spaces k) (hr : Fresh r) (h : R (elements r ms u)) :
    R (elements (k ++ ('\\' :: (f.name ++ (c!" " ++ r)))) (.cons (.content (.function f.name)) ms) u) := by
  have hs : Spec.NoScript r := fresh_noScript spaces_nil hr
  obtain ⟨h1, h2, h3⟩ := func_facts f
  exact .plain (ns := .one _) (pl := {}) (vs := []) (tok_word hk ⟨h1, h2⟩ spaces_one (by intro c u e; cases e; decide) hr.solid) (free _) (.single (.cs h3)) rfl .no hs h

theorem PieceRead.formula {i : Scripted} (h : PieceRead i) : R (formula i.source (.one i.node)) := by
  obtain ⟨w, hw, hr⟩ := h [] [] .nil [] spaces_nil (by intro c u e; cases e) fun w hw => ⟨w, hw, .nil⟩
  simp only [List.nil_append, List.append_nil] at hr
  exact .whole hr (.blank (blank_of_spaces hw))

/-- The cells and rows of a matrix. -/
def EntriesRead (es : Entries) : Prop := ∀ m r, es.width ≤ m + 1 → Fresh r → ∃ w, Spaces w ∧ R (cells m (es.source ++ r) es.cells (w ++ r))
def GridRead (m : Nat) (g : Grid) : Prop := R (rows m g.source g.rows)

theorem entries_last {e : Expr} (h : ExprRead e) : EntriesRead (.last e) := by
  intro m r _ hr
  obtain ⟨w, hw, h⟩ := h [] r spaces_nil hr
  exact ⟨w, hw, .lastCell h⟩

theorem entries_cons {e : Expr} {es : Entries} (h : ExprRead e) (hs : EntriesRead es) : EntriesRead (.cons e es) := by
  intro m r hm hr
  rw [Entries.width] at hm
  cases m with
  | zero => cases es <;> (rw [Entries.width] at hm; omega)
  | succ m =>
    obtain ⟨w, hw, h⟩ := h [] ('&' :: (es.source ++ r)) spaces_nil (fresh_cons (by decide))
    obtain ⟨w', hw', hs⟩ := hs m r (by omega) hr
    refine ⟨w', hw', ?_⟩
    have := Reads.cell h (tok_chr hw (by decide)) (fresh_noScript (w := []) spaces_nil (entries_starts es r).fresh) hs
    rw [Entries.source, Entries.cells]
    simpa using this

theorem grid_last {m : Nat} {es : Entries} (hw : es.width ≤ m + 1) (hs : EntriesRead es) : GridRead m (.last es) := by
  obtain ⟨w, hw, hs⟩ := hs m [] hw (by intro c u e; cases e)
  rw [List.append_nil, List.append_nil] at hs
  exact .lastLine hs (.blank (blank_of_spaces hw))

theorem grid_cons {m : Nat} {es : Entries} {g : Grid} (hw : es.width ≤ m + 1) (hs : EntriesRead es) (hg : GridRead m g) : GridRead m (.cons es g) := by
  have hst := grid_starts g []
  rw [List.append_nil] at hst
  obtain ⟨w, hw, hs⟩ := hs m ('\\' :: '\\' :: g.source) hw (fresh_cons (by decide))
  have ht : NextTok (w ++ '\\' :: '\\' :: g.source) (.cs c!"\\") g.source :=
    .cs (w := []) (blank_of_spaces hw) (.symbol (by decide)) spaces_nil hst.fresh.solid
  have := Reads.line hs ht rfl (by decide +kernel) hst.noBracket hst.lines (fresh_noScript spaces_nil hst.fresh) hg
  unfold GridRead
  rw [Grid.source, Grid.rows]
  simpa using this

theorem OperandRead.piece {b : Operand} (h : OperandRead b) : PieceRead (.plain b) := by
  intro k r ms u hk hr h'
  obtain ⟨x, t, w, hw, h1, h2⟩ := h r hr.solid
  obtain ⟨w', hw', h'⟩ := h' w hw
  exact ⟨w', hw', .plain (ns := .one _) (pl := {}) (vs := []) (h1 k hk) (free _) h2 rfl .no (fresh_noScript hw hr) h'⟩

theorem OperandRead.formula {b : Operand} (h : OperandRead b) : R (formula b.source (.one b.node)) := h.piece.formula

theorem accent_facts (a : Accent) : ∃ name, a.source = '\\' :: name ∧ name ≠ [] ∧ name.all isLetter = true ∧ primOf name = .accent a.sign a.wide false := by
  cases a <;> exact ⟨_, rfl, by decide, by decide, by decide +kernel⟩

theorem alphabet_facts (a : Alphabet) : ∃ name, a.source = '\\' :: name ∧ name ≠ [] ∧ name.all isLetter = true ∧ primOf name = .fontGroup (some a.font) := by
  cases a <;> exact ⟨_, rfl, by decide, by decide, by decide +kernel⟩

theorem big_facts (op : BigOp) : ∃ name, op.source = '\\' :: name ∧ name ≠ [] ∧ name.all isLetter = true ∧
    Spec.operator (primOf name) = some (.largeOp op.sign false, ⟨some op.position, true, false⟩) := by
  cases op <;> exact ⟨_, rfl, by decide, by decide, by decide +kernel⟩

theorem no_brace {c : Char} {r : Str} (h1 : isWs c = false) (h2 : c ≠ '{') : ∀ w u, Spaces w → c :: r ≠ w ++ '{' :: u := by
  intro w u hw e
  cases w with
  | nil => injection e with e1; exact h2 e1
  | cons y w =>
    injection e with e1
    subst e1
    rw [hw c (by simp)] at h1
    cases h1

mutual
theorem operand_read : ∀ b : Operand, b.proper = true → OperandRead b
  | .letter c h, _ => by
    intro r hr
    have hf := letter_content h
    refine ⟨.chr c, r, [], spaces_nil, fun k hk => tok_chr hk ⟨hf.2.2.1, hf.2.2.2.1, hf.2.2.2.2.1⟩, ?_⟩
    have := Reads.single (Δ := Known.none) (a := false) (s := r) (Single.chr hf.1)
    rw [hf.2.1] at this
    exact this
  | .number ds h, _ => by
    intro r hr
    obtain ⟨d, ds', rfl, hd, l, c, e, hc, h2⟩ := decimal_facts h
    have hf := digit_facts hd
    refine ⟨.chr d, ds' ++ ' ' :: r, c!" ", spaces_one, fun k hk => ?_, ?_⟩
    · have := tok_chr (r := ds' ++ ' ' :: r) hk ⟨hf.1, hf.2.1, hf.2.2.1⟩
      simpa [Operand.source] using this
    · refine .number hd ?_
      have e2 : d :: (ds' ++ ' ' :: r) = l ++ c :: ' ' :: r := by
        have := congrArg (· ++ ' ' :: r) e
        simpa using this
      rw [e] at h2
      rw [e2, e]
      exact .whole h2 hc (by intro x r' e; cases e; unfold NumeralChar; decide)
  | .named name c h, _ => by
    intro r hr
    obtain ⟨h1, h2, h3⟩ := named_facts _ h
    refine ⟨.cs name, r, [], spaces_nil, fun k hk => ?_, .single (.cs h3)⟩
    have := tok_word (w := c!" ") hk ⟨h1, h2⟩ spaces_one (by intro c u e; cases e; decide) hr
    simpa [Operand.source] using this
  | .group e, hn => by
    intro r hr
    refine ⟨.chr '{', e.source ++ '}' :: r, [], spaces_nil, fun k hk => ?_, ?_⟩
    · have := tok_chr (c := '{') (r := e.source ++ '}' :: r) hk (by decide)
      simpa [Operand.source] using this
    · have := Reads.braces (a := false) (split_braces e r) (expr_read e hn).formula
      rw [expr_block] at this
      exact this
  | .fraction n d, hn => by
    intro r hr
    rw [Operand.proper, Bool.and_eq_true] at hn
    refine ⟨.cs c!"frac", '{' :: (n.source ++ '}' :: '{' :: (d.source ++ '}' :: r)), [], spaces_nil, fun k hk => ?_, ?_⟩
    · have := tok_command (name := c!"frac") (t := n.source ++ '}' :: '{' :: (d.source ++ '}' :: r)) hk (by decide) (by decide)
      simpa [Operand.source] using this
    · have h2 := (expr_read d hn.2).operand r
      have h1 := (expr_read n hn.1).operand (c!"{" ++ d.source ++ c!"}" ++ r)
      have hp : primOf c!"frac" = .frac none none none none := by decide +kernel
      have e : '{' :: (n.source ++ '}' :: '{' :: (d.source ++ '}' :: r)) = c!"{" ++ n.source ++ c!"}" ++ (c!"{" ++ d.source ++ c!"}" ++ r) := by simp
      rw [e]
      exact Reads.frac (a := false) hp h1 h2
  | .root e, hn => by
    intro r hr
    refine ⟨.cs c!"sqrt", '{' :: (e.source ++ '}' :: r), [], spaces_nil, fun k hk => ?_, ?_⟩
    · have := tok_command (name := c!"sqrt") (t := e.source ++ '}' :: r) hk (by decide) (by decide)
      simpa [Operand.source] using this
    · have h1 := (expr_read e hn).operand r
      have hp : primOf c!"sqrt" = .sqrt := by decide +kernel
      have hs : Starts (c!"{" ++ e.source ++ c!"}" ++ r) := starts_chr (by decide)
      have e' : '{' :: (e.source ++ '}' :: r) = c!"{" ++ e.source ++ c!"}" ++ r := by simp
      rw [e']
      exact Reads.sqrt (a := false) hp hs.noBracket h1
  | .nthRoot i e, hn => by
    intro r hr
    rw [Operand.proper, Bool.and_eq_true] at hn
    have e' : (Operand.nthRoot i e).source ++ r = '\\' :: (c!"sqrt" ++ ([] ++ ('[' :: (i.source ++ ']' :: (c!"{" ++ e.source ++ c!"}" ++ r))))) := by simp [Operand.source]
    refine ⟨.cs c!"sqrt", '[' :: (i.source ++ ']' :: (c!"{" ++ e.source ++ c!"}" ++ r)), [], spaces_nil, fun k hk => ?_, ?_⟩
    · rw [e']
      exact tok_word hk ⟨by decide, letters_of _ (by decide)⟩ spaces_nil (by intro c u e; cases e; decide) (solid_cons (by decide))
    · have h1 := (expr_read e hn.2).operand r
      have hp : primOf c!"sqrt" = .sqrt := by decide +kernel
      have hb : Bracketed ('[' :: (i.source ++ ']' :: (c!"{" ++ e.source ++ c!"}" ++ r))) i.source (c!"{" ++ e.source ++ c!"}" ++ r) :=
        ⟨[], _, spaces_nil, rfl, pass_split (base_through through_brackets i) _⟩
      exact Reads.root (a := false) hp hb (operand_read i hn.1).formula h1
  | .accented a e, hn => by
    intro r hr
    obtain ⟨name, h1, h2, h3, hp⟩ := accent_facts a
    refine ⟨.cs name, '{' :: (e.source ++ '}' :: r), [], spaces_nil, fun k hk => ?_, ?_⟩
    · have := tok_command (t := e.source ++ '}' :: r) hk h2 h3
      simpa [Operand.source, h1] using this
    · have h1 := (expr_read e hn).operand r
      have e' : '{' :: (e.source ++ '}' :: r) = c!"{" ++ e.source ++ c!"}" ++ r := by simp
      rw [e']
      exact Reads.accent (a := false) hp h1
  | .word g h, _ => by
    intro r hr
    have hp : primOf c!"text" = .text none := by decide +kernel
    refine ⟨.cs c!"text", '{' :: (g ++ '}' :: r), [], spaces_nil, fun k hk => ?_, ?_⟩
    · have := tok_command (name := c!"text") (t := g ++ '}' :: r) hk (by decide) (by decide)
      simpa [Operand.source] using this
    · have hb : Braced ('{' :: (g ++ '}' :: r)) g r :=
        ⟨[], _, spaces_nil, rfl, pass_split (through_braces.chars fun c hc => words_chars (h.2.2 c hc)) _⟩
      exact .text hp (.braced hb)
  | .styled a l c h, _ => by
    intro r hr
    obtain ⟨name, h1, h2, h3, hp⟩ := alphabet_facts a
    refine ⟨.cs name, '{' :: ([l] ++ '}' :: r), [], spaces_nil, fun k hk => ?_, ?_⟩
    · have := tok_command (t := [l] ++ '}' :: r) hk h2 h3
      simpa [Operand.source, h1] using this
    · have hl := variant_letter h
      have hb : Braced ('{' :: ([l] ++ '}' :: r)) [l] r :=
        ⟨[], _, spaces_nil, rfl, pass_split (through_braces.chars (t := [l]) (by intro x hx; simp at hx; subst hx; exact letter_chars hl)) _⟩
      exact Reads.fontGroup (a := false) hp hb (operand_read (.letter l hl) rfl).formula
  | .fenced f e, hn => by
    intro r hr
    have hp : primOf c!"left" = .left := by decide +kernel
    refine ⟨.cs c!"left", f.opening :: (e.source ++ (c!"\\right" ++ f.closing :: r)), [], spaces_nil, fun k hk => ?_, ?_⟩
    · have := tok_word (name := c!"left") (w := []) (r := f.opening :: (e.source ++ (c!"\\right" ++ f.closing :: r))) hk ⟨by decide, by decide⟩ spaces_nil
        (by intro c u e; cases e; cases f <;> decide) (solid_cons (by cases f <;> decide))
      simpa [Operand.source] using this
    · have ho : DelimText (f.opening :: (e.source ++ (c!"\\right" ++ f.closing :: r))) (some f.opening) (e.source ++ (c!"\\right" ++ f.closing :: r)) := by
        cases f
        · exact .chr (c := '(') (by simp [Fence.opening]) (tok_chr spaces_nil (by decide)) (by decide +kernel : _ = some ('(', DelimType.open_))
        · exact .chr (c := '[') (by simp [Fence.opening]) (tok_chr spaces_nil (by decide)) (by decide +kernel : _ = some ('[', DelimType.open_))
        · exact .chr (c := '|') (by simp [Fence.opening]) (tok_chr spaces_nil (by decide)) (by decide +kernel : _ = some ('|', DelimType.fence))
      have hc : DelimText (f.closing :: r) (some f.closing) r := by
        cases f
        · exact .chr (c := ')') (by simp [Fence.closing]) (tok_chr spaces_nil (by decide)) (by decide +kernel : _ = some (')', DelimType.close))
        · exact .chr (c := ']') (by simp [Fence.closing]) (tok_chr spaces_nil (by decide)) (by decide +kernel : _ = some (']', DelimType.close))
        · exact .chr (c := '|') (by simp [Fence.closing]) (tok_chr spaces_nil (by decide)) (by decide +kernel : _ = some ('|', DelimType.fence))
      have := Reads.left (a := false) hp ho (pass_split (expr_through through_left e) _) hc (expr_read e hn).formula
      rw [expr_block] at this
      exact this
  | .matrix g, hn => by
    intro r hr
    refine ⟨.cs c!"begin", c!"{matrix}" ++ (g.source ++ (c!"\\end{matrix}" ++ r)), [], spaces_nil, fun k hk => ?_, ?_⟩
    · have := tok_command (name := c!"begin") (t := c!"matrix}" ++ (g.source ++ (c!"\\end{matrix}" ++ r))) hk (by decide) (by decide)
      simpa [Operand.source] using this
    · have hb : Braced (c!"{matrix}" ++ (g.source ++ (c!"\\end{matrix}" ++ r))) c!"matrix" (g.source ++ (c!"\\end{matrix}" ++ r)) :=
        ⟨[], _, spaces_nil, rfl, pass_split (t := c!"matrix") (pass_chars (by decide)) _⟩
      have := Reads.environment (a := false) hb (.plain (sh := ⟨.matrix .center, 65535, none, none⟩) (List.Mem.head _)) (grid_starts g _).lines
        (pass_split (op := c!"\\begin{matrix}") (cl := c!"\\end{matrix}") (grid_through through_matrix g) r) (grid_read g hn)
      exact this
  | .choice g, hn => by
    intro r hr
    refine ⟨.cs c!"begin", c!"{cases}" ++ (g.source ++ (c!"\\end{cases}" ++ r)), [], spaces_nil, fun k hk => ?_, ?_⟩
    · have := tok_command (name := c!"begin") (t := c!"cases}" ++ (g.source ++ (c!"\\end{cases}" ++ r))) hk (by decide) (by decide)
      simpa [Operand.source] using this
    · have hb : Braced (c!"{cases}" ++ (g.source ++ (c!"\\end{cases}" ++ r))) c!"cases" (g.source ++ (c!"\\end{cases}" ++ r)) :=
        ⟨[], _, spaces_nil, rfl, pass_split (t := c!"cases") (pass_chars (by decide)) _⟩
      have := Reads.environment (a := false) hb (.plain (sh := ⟨.cases true, 1, none, none⟩) (by simp [plainEnvironments])) (grid_starts g _).lines
        (pass_split (op := c!"\\begin{cases}") (cl := c!"\\end{cases}") (grid_through through_cases g) r) (grid_read g hn)
      exact this
theorem piece_read : ∀ i : Scripted, i.proper = true → PieceRead i
  | .plain b, hn => by
    exact (operand_read b hn).piece
  | .sup b e, hn => by
    intro k r ms u hk hr h
    rw [Scripted.proper, Bool.and_eq_true] at hn
    obtain ⟨x, t, w, hw, h1, h2⟩ := operand_read b hn.1 ('^' :: (e.source ++ r)) (solid_cons (by decide))
    obtain ⟨w', hw', h⟩ := h [] spaces_nil
    refine ⟨w', hw', ?_⟩
    have := Reads.script (ns := .one b.node) (pl := {}) (vs := []) (h1 k hk) (free _) h2 rfl .no hw (.inl rfl) (index_read e hn.2 r) (fun c u e => (hr c u e).2) h
    refine Eq.mp (congrArg (fun t => R (elements t _ _)) ?_) this
    simp [Scripted.source]
  | .sub b e, hn => by
    intro k r ms u hk hr h
    rw [Scripted.proper, Bool.and_eq_true] at hn
    obtain ⟨x, t, w, hw, h1, h2⟩ := operand_read b hn.1 ('_' :: (e.source ++ r)) (solid_cons (by decide))
    obtain ⟨w', hw', h⟩ := h [] spaces_nil
    refine ⟨w', hw', ?_⟩
    have := Reads.script (ns := .one b.node) (pl := {}) (vs := []) (h1 k hk) (free _) h2 rfl .no hw (.inr rfl) (index_read e hn.2 r) (fun c u e => (hr c u e).2) h
    refine Eq.mp (congrArg (fun t => R (elements t _ _)) ?_) this
    simp [Scripted.source]
  | .subSup b l p, hn => by
    intro k r ms u hk hr h
    rw [Scripted.proper, Bool.and_eq_true, Bool.and_eq_true] at hn
    obtain ⟨x, t, w, hw, h1, h2⟩ := operand_read b hn.1.1 ('_' :: (l.source ++ '^' :: (p.source ++ r))) (solid_cons (by decide))
    obtain ⟨w', hw', h⟩ := h [] spaces_nil
    refine ⟨w', hw', ?_⟩
    have := Reads.subSup (ns := .one b.node) (pl := {}) (vs := []) (h1 k hk) (free _) h2 rfl .no hw (index_read l hn.1.2 _) (index_read p hn.2 r)
      (fun c u e => (hr c u e).2) h
    refine Eq.mp (congrArg (fun t => R (elements t _ _)) ?_) this
    simp [Scripted.source]
theorem index_read : ∀ s : Index, s.proper = true → ∀ r, R (Judgement.operand (s.source ++ r) (.one s.node) r {})
  | .braced e, hn, r => (expr_read e hn).operand r
  | .letter c h, _, r => by
    have hf := letter_content h
    have := Reads.single (Δ := Known.none) (a := true) (s := r) (Single.chr hf.1)
    rw [hf.2.1] at this
    refine .tokenArg (x := .chr c) ⟨tok_chr (k := []) spaces_nil ⟨hf.2.2.1, hf.2.2.2.1, hf.2.2.2.2.1⟩, ?_⟩ (free _) this
    exact no_brace hf.2.2.2.2.1 (by rintro rfl; cases h)
  | .digit c h, _, r => by
    have hf := digit_facts h
    refine .tokenArg (x := .chr c) ⟨tok_chr (k := []) spaces_nil ⟨hf.1, hf.2.1, hf.2.2.1⟩, ?_⟩ (free _) (.digit h)
    exact no_brace hf.2.2.1 (by rintro rfl; cases h)
theorem expr_read : ∀ e : Expr, e.proper = true → ExprRead e
  | .one i, hn => by
    intro k r hk hr
    exact piece_read i hn k r .nil r hk hr fun w hw => ⟨w, hw, .nil⟩
  | .next i e, hn => by
    intro k r hk hr
    rw [Expr.proper, Bool.and_eq_true] at hn
    have := piece_read i hn.1 k (e.source ++ r) e.nodes r hk (expr_starts e r).fresh fun w hw => expr_read e hn.2 w r hw hr
    rw [Expr.source, List.append_assoc]
    exact this
  | .infix i o e, hn => by
    intro k r hk hr
    rw [Expr.proper, Bool.and_eq_true] at hn
    have ho : Fresh (o.source ++ (e.source ++ r)) := by cases o <;> exact fresh_cons (by decide)
    obtain ⟨w', hw', h⟩ := expr_read e hn.2 [] r spaces_nil hr
    have := piece_read i hn.1 k (o.source ++ (e.source ++ r)) (.cons (.content o.content) e.nodes) r hk ho fun w hw =>
      ⟨w', hw', infix_read o w _ _ _ hw (expr_starts e r).fresh h⟩
    rw [Expr.source, List.append_assoc, List.append_assoc]
    exact this
  | .signed s e, hn => by
    intro k r hk hr
    obtain ⟨w', hw', h⟩ := expr_read e hn [] r spaces_nil hr
    refine ⟨w', hw', ?_⟩
    rw [Expr.source, List.append_assoc]
    exact sign_read s k _ _ _ hk (expr_starts e r).fresh h
  | .apply f e, hn => by
    intro k r hk hr
    obtain ⟨w', hw', h⟩ := expr_read e hn [] r spaces_nil hr
    refine ⟨w', hw', ?_⟩
    have := func_read f k _ _ _ hk (expr_starts e r).fresh h
    refine Eq.mp (congrArg (fun t => R (elements t _ _)) ?_) this
    simp [Expr.source]
  | .big op l p e, hn => by
    intro k r hk hr
    rw [Expr.proper, Bool.and_eq_true, Bool.and_eq_true, Bool.and_eq_true] at hn
    replace hn := hn.1
    obtain ⟨w', hw', h⟩ := expr_read e hn.2 [] r spaces_nil hr
    obtain ⟨name, h1, h2, h3, hp⟩ := big_facts op
    refine ⟨w', hw', ?_⟩
    have ht := tok_word (w := []) (r := '_' :: (l.source ++ '^' :: (p.source ++ (e.source ++ r)))) hk ⟨h2, letters_of _ h3⟩ spaces_nil
        (by intro c u e; cases e; decide) (solid_cons (by decide))
    have := Reads.subSup (w := []) (ns := .one _) (vs := []) ht (free _) (.operator hp) rfl (.yes (noWords (by simp [trimStart, isWs]))) spaces_nil (index_read l hn.1.1 _)
      (index_read p hn.1.2 _) (fun c u e' => ((expr_starts e r).fresh c u e').2) h
    refine Eq.mp (congrArg (fun t => R (elements t _ _)) ?_) this
    simp [Expr.source, h1]
  | .ranged op l e, hn => by
    intro k r hk hr
    rw [Expr.proper, Bool.and_eq_true, Bool.and_eq_true] at hn
    replace hn := hn.1
    obtain ⟨w', hw', h⟩ := expr_read e hn.2 [] r spaces_nil hr
    obtain ⟨name, h1, h2, h3, hp⟩ := big_facts op
    refine ⟨w', hw', ?_⟩
    have ht := tok_word (w := []) (r := '_' :: (l.source ++ (e.source ++ r))) hk ⟨h2, letters_of _ h3⟩ spaces_nil
        (by intro c u e; cases e; decide) (solid_cons (by decide))
    have := Reads.script (w := []) (c := '_') (ns := .one _) (vs := []) ht (free _) (.operator hp) rfl (.yes (noWords (by simp [trimStart, isWs]))) spaces_nil (.inr rfl)
      (index_read l hn.1 _) (fun c u e' => ((expr_starts e r).fresh c u e').2) h
    refine Eq.mp (congrArg (fun t => R (elements t _ _)) ?_) this
    simp [Expr.source, h1]
theorem entries_read : ∀ es : Entries, es.proper = true → EntriesRead es
  | .last e, hn => entries_last (expr_read e hn)
  | .cons e es, hn => by
    rw [Entries.proper, Bool.and_eq_true] at hn
    exact entries_cons (expr_read e hn.1) (entries_read es hn.2)
theorem grid_read : ∀ (g : Grid) {m : Nat}, g.proper m = true → GridRead m g
  | .last es, m, hn => by
    rw [Grid.proper, Bool.and_eq_true] at hn
    exact grid_last (of_decide_eq_true hn.1) (entries_read es hn.2)
  | .cons es g, m, hn => by
    rw [Grid.proper, Bool.and_eq_true, Bool.and_eq_true] at hn
    exact grid_cons (of_decide_eq_true hn.1.1) (entries_read es hn.1.2) (grid_read g hn.2)
end

end PL.Props
