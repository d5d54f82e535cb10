import Verif.Spec.Expression
import Verif.Props.Parts
set_option autoImplicit false
/-!
# Expressions: their tree, and how their LaTeX is read
-/
namespace PL.Props
open PL PL.Lex PL.Mathml Spec Judgement

/-! ## The tree -/

def _root_.PL.Spec.Infix.content : Infix → Content
  | .plus => .binaryOp '+' false
  | .minus => .binaryOp '−' false
  | .equals => .relation '=' none false
  | .comma => .punctuation ','
  | .slash => .binaryOp '/' false
  | .asterisk => .binaryOp '∗' false
  | .greater => .relation '>' none false
  | .colon => .relation ':' none false
  | .semicolon => .punctuation ';'
  | .operation _ c _ => .binaryOp c false
  | .relation _ c _ => .relation c none false

def _root_.PL.Spec.Sign.content : Sign → Content
  | .plus => .binaryOp '+' false
  | .minus => .binaryOp '−' false

def _root_.PL.Spec.BigOp.position : BigOp → ScriptPos
  | .integral => .right
  | .doubleIntegral => .right
  | .tripleIntegral => .right
  | .contourIntegral => .right
  | _ => .movable

def _root_.PL.Spec.Alphabet.font : Alphabet → Font
  | .bold => .bold
  | .script => .script
  | .doubleStruck => .doubleStruck
  | .fraktur => .fraktur
  | .sansSerif => .sansSerif
  | .typewriter => .monospace
  | .boldItalic => .boldItalic

mutual
def _root_.PL.Spec.Operand.node : Operand → Node
  | .letter c _ => .content (.ordinary c false)
  | .number ds _ => .content (.number ds)
  | .named _ c _ => .content (.ordinary c false)
  | .group e => .group none [] e.nodes
  | .fraction n d => .visual (.fraction none) (.two (.group none [] n.nodes) (.group none [] d.nodes))
  | .root e => .visual .squareRoot (.one (.group none [] e.nodes))
  | .nthRoot i e => .visual .root (.two (.group none [] e.nodes) i.node)
  | .accented a e => .script .sup .aboveBelow (.two (.group none [] e.nodes) (.content (.ordinary a.sign a.wide)))
  | .word t _ => .content (.text t)
  | .styled a l _ _ => .group none [.font (some a.font)] (.one (.content (.ordinary l false)))
  | .fenced f e => .group (some (some f.opening, some f.closing)) [] e.nodes
  | .matrix g => .table (.matrix .center) none g.rows
  | .choice g => .table (.cases true) none g.rows
def _root_.PL.Spec.Scripted.node : Scripted → Node
  | .plain b => b.node
  | .sup b s => .script .sup .right (.two b.node s.node)
  | .sub b s => .script .sub .right (.two b.node s.node)
  | .subSup b l u => .script .subSup .right (.three b.node l.node u.node)
def _root_.PL.Spec.Index.node : Index → Node
  | .braced e => .group none [] e.nodes
  | .letter c _ => .content (.ordinary c false)
  | .digit c _ => .content (.number [c])
def _root_.PL.Spec.Expr.nodes : Expr → Nodes
  | .one i => .one i.node
  | .next i e => .cons i.node e.nodes
  | .infix i o e => .cons i.node (.cons (.content o.content) e.nodes)
  | .signed s e => .cons (.content s.content) e.nodes
  | .apply f e => .cons (.content (.function f.name)) e.nodes
  | .big op l u e => .cons (.script .subSup op.position (.three (.content (.largeOp op.sign false)) l.node u.node)) e.nodes
  | .ranged op l e => .cons (.script .sub op.position (.two (.content (.largeOp op.sign false)) l.node)) e.nodes
def _root_.PL.Spec.Entries.cells : Entries → Cells
  | .last e => .last e.nodes
  | .cons e es => .cell e.nodes es.cells
def _root_.PL.Spec.Grid.rows : Grid → Rows
  | .last es => .last es.cells
  | .cons es g => .line es.cells none [] g.rows
end

theorem base_node (b : Operand) : ∀ sc, b.node ≠ .change sc := by
  intro sc h
  cases b <;> cases h

theorem piece_node (i : Scripted) : ∀ sc, i.node ≠ .change sc := by
  intro sc h
  cases i with
  | plain b => exact base_node b sc h
  | _ => cases h

theorem expr_nodes (e : Expr) : e.nodes.leading = [] ∧ e.nodes.body = e.nodes ∧ e.nodes.startsWithChange = false := by
  have key : ∀ (n : Node) ns, (∀ sc, n ≠ .change sc) → (Nodes.cons n ns).leading = [] ∧ (Nodes.cons n ns).body = .cons n ns ∧ (Nodes.cons n ns).startsWithChange = false := by
    intro n ns h
    cases n <;> first | exact ⟨rfl, rfl, rfl⟩ | exact absurd rfl (h _)
  cases e with
  | one i => exact key _ _ (piece_node i)
  | next i e => exact key _ _ (piece_node i)
  | «infix» i o e => exact key _ _ (piece_node i)
  | signed s e => exact key _ _ fun sc h => by cases h
  | apply f e => exact key _ _ fun sc h => by cases h
  | big op l u e => exact key _ _ fun sc h => by cases h
  | ranged op l e => exact key _ _ fun sc h => by cases h

theorem expr_block (e : Expr) (d : Option (Option Char × Option Char)) : block d [] e.nodes = .group d [] e.nodes := by
  unfold block
  rw [(expr_nodes e).1, (expr_nodes e).2.1]
  rfl

/-! ## Groups end where they should -/

/-- The two texts differ at some place. -/
def clash : Str → Str → Bool
  | x :: xs, y :: ys => x != y || clash xs ys
  | _, _ => false

theorem clash_prefix : ∀ {o w : Str}, clash o w = true → ∀ s, ¬ o <+: w ++ s
  | [], w, h, s => by cases w <;> cases h
  | _ :: _, [], h, s => by cases h
  | x :: xs, y :: ys, h, s => by
    rintro ⟨t, e⟩
    simp only [List.cons_append] at e
    injection e with e1 e2
    simp only [clash, e1, bne_self_eq_false, Bool.false_or] at h
    exact clash_prefix h s ⟨t, e2⟩

/-- A text that a search for the end of a group goes through. -/
def Pass (op cl : Str) (t : Str) : Prop := ∀ d s g r, Split op cl d s g r → Split op cl d (t ++ s) (t ++ g) r

theorem pass_append {op cl t u : Str} (h1 : Pass op cl t) (h2 : Pass op cl u) : Pass op cl (t ++ u) := by
  intro d s g r h
  rw [List.append_assoc, List.append_assoc]
  exact h1 _ _ _ _ (h2 _ _ _ _ h)

theorem pass_chars {op cl t : Str} (h : ∀ c ∈ t, c ≠ '\\' ∧ c ≠ '%' ∧ clash op [c] = true ∧ clash cl [c] = true) : Pass op cl t := by
  induction t with
  | nil => exact fun _ _ _ _ h => h
  | cons c t ih =>
    intro d s g r hs
    obtain ⟨h1, h2, h3, h4⟩ := h c (by simp)
    exact .char (clash_prefix h3 _) (clash_prefix h4 _) h1 h2 (ih (fun c hc => h c (by simp [hc])) d s g r hs)

theorem pass_word {op cl t : Str} {c : Char} (h1 : clash op ('\\' :: c :: t) = true) (h2 : clash cl ('\\' :: c :: t) = true)
    (h : ∀ c ∈ t, c ≠ '\\' ∧ c ≠ '%' ∧ clash op [c] = true ∧ clash cl [c] = true) : Pass op cl ('\\' :: c :: t) := by
  intro d s g r hs
  exact .escaped (clash_prefix h1 _) (clash_prefix h2 _) (pass_chars h d s g r hs)

theorem ws_chars {c : Char} (h : isWs c = true) : c ∉ c!"\\%{}[]" := by
  intro hc
  simp at hc
  rcases hc with rfl | rfl | rfl | rfl | rfl | rfl <;> cases h

theorem pass_spaces {op cl g : Str} (hg : Spaces g) (h1 : (op.head?.any fun c => !isWs c) = true) (h2 : (cl.head?.any fun c => !isWs c) = true) : Pass op cl g := by
  have key : ∀ {w : Str} {c : Char}, (w.head?.any fun c => !isWs c) = true → isWs c = true → clash w [c] = true := by
    intro w c h hc
    cases w with
    | nil => cases h
    | cons x w =>
      have hx : isWs x = false := by simpa using h
      have : x ≠ c := by rintro rfl; rw [hc] at hx; cases hx
      simp [clash, this]
  refine pass_chars fun c hc => ?_
  have := ws_chars (hg c hc)
  simp at this
  exact ⟨this.1, this.2.1, key h1 (hg c hc), key h2 (hg c hc)⟩

theorem clash_ws {x : Char} (hx : isWs x = true) : ∀ {op t : Str}, (op.all fun c => !isWs c) = true → clash op (t ++ c!" ") = true → clash op (t ++ [x]) = true
  | [], t, _, h => by cases t <;> cases h
  | y :: op, [], h0, _ => by
    have hy : isWs y = false := by simp at h0; exact h0.1
    have : y ≠ x := by rintro rfl; rw [hx] at hy; cases hy
    simp [clash, this]
  | y :: op, z :: t, h0, h => by
    have h0' : (op.all fun c => !isWs c) = true := by simp at h0 ⊢; exact h0.2
    simp only [List.cons_append, clash, Bool.or_eq_true] at h ⊢
    exact h.imp id (clash_ws hx h0')

/-- A word and a white space after it. -/
theorem pass_apart {op cl t : Str} {a x : Char} (hx : isWs x = true) (ho : ((op.head?.any fun c => !isWs c) && (op.all fun c => !isWs c)) = true)
    (hc : ((cl.head?.any fun c => !isWs c) && (cl.all fun c => !isWs c)) = true) (h1 : clash op ('\\' :: a :: t ++ c!" ") = true)
    (h2 : clash cl ('\\' :: a :: t ++ c!" ") = true) (h : ∀ c ∈ t, c ≠ '\\' ∧ c ≠ '%' ∧ clash op [c] = true ∧ clash cl [c] = true) : Pass op cl ('\\' :: a :: t ++ [x]) := by
  rw [Bool.and_eq_true] at ho hc
  have hp : Pass op cl [x] := pass_spaces (by intro c hc; simp at hc; subst hc; exact hx) ho.1 hc.1
  intro d s g r hs
  exact .escaped (clash_prefix (clash_ws hx ho.2 h1) _) (clash_prefix (clash_ws hx hc.2 h2) _) (pass_append (pass_chars h) hp d s g r hs)

/-- The texts that expressions are made of. -/
structure Through (Q : Str → Prop) : Prop where
  app : ∀ {s t}, Q s → Q t → Q (s ++ t)
  chars : ∀ {t}, (∀ c ∈ t, c ∉ c!"\\%{}[]") → Q t
  word : ∀ {t}, t ∈ [c!"\\frac", c!"\\sqrt", c!"\\\\", c!"\\text"] → Q t
  big : ∀ op, Q (BigOp.source op)
  accent : ∀ a, Q (Accent.source a)
  alphabet : ∀ a, Q (Alphabet.source a)
  func : ∀ f x, isWs x = true → Q (c!"\\" ++ Func.name f ++ [x])
  brackets : ∀ {t}, Q t → Q (c!"[" ++ t ++ c!"]")
  named : ∀ {name c x}, (name, c) ∈ namedLetters ++ operations ++ relations → isWs x = true → Q (c!"\\" ++ name ++ [x])
  braces : ∀ {t}, Q t → Q (c!"{" ++ t ++ c!"}")
  fence : ∀ {t f g g'}, Spaces g → Spaces g' → Q t → Q (c!"\\left" ++ g ++ [Fence.opening f] ++ t ++ c!"\\right" ++ g' ++ [Fence.closing f])
  env : ∀ {t}, Q t → Q (c!"\\begin{matrix}" ++ t ++ c!"\\end{matrix}")
  cases : ∀ {t}, Q t → Q (c!"\\begin{cases}" ++ t ++ c!"\\end{cases}")

theorem digit_chars {c : Char} (h : isDigit c = true) : c ∉ c!"\\%{}[]" := by
  intro hc
  simp at hc
  rcases hc with rfl | rfl | rfl | rfl | rfl | rfl <;> cases h

theorem numeral_chars {c : Char} (h : inNumber c = true) : c ∉ c!"\\%{}[]" := by
  intro hc
  simp at hc
  rcases hc with rfl | rfl | rfl | rfl | rfl | rfl <;> cases h

theorem words_chars {c : Char} (h : inWords c = true) : c ∉ c!"\\%{}[]" := by
  intro hc
  simp at hc
  rcases hc with rfl | rfl | rfl | rfl | rfl | rfl <;> cases h

/-- A number, with its first and its last digit. -/
theorem decimal_facts {ds : Str} (h : ds.head?.any isDigit = true ∧ ds.getLast?.any isDigit = true ∧ ∀ c ∈ ds, inNumber c = true) :
    ∃ d ds', ds = d :: ds' ∧ isDigit d = true ∧ ∃ l c, ds = l ++ [c] ∧ isDigit c = true ∧ ∀ x ∈ ds, NumeralChar x := by
  obtain ⟨h1, h2, h3⟩ := h
  cases ds with
  | nil => cases h1
  | cons d ds' =>
    refine ⟨d, ds', rfl, h1, _, _, (List.dropLast_concat_getLast (List.cons_ne_nil d ds')).symm, ?_, fun x hx => ?_⟩
    · rw [List.getLast?_eq_some_getLast (List.cons_ne_nil d ds')] at h2
      exact h2
    · have := h3 x hx
      unfold inNumber at this
      rw [Bool.or_eq_true, beq_iff_eq] at this
      exact this.imp id .inl

theorem letter_chars {c : Char} (h : isLetter c = true) : c ∉ c!"\\%{}[]" := by
  intro hc
  simp at hc
  rcases hc with rfl | rfl | rfl | rfl | rfl | rfl <;> cases h

theorem infix_through {Q : Str → Prop} (h : Through Q) (o : Infix) : Q o.source := by
  cases o
  · exact h.chars (by decide)
  · exact h.chars (by decide)
  · exact h.chars (by decide)
  · exact h.chars (by decide)
  · exact h.chars (by decide)
  · exact h.chars (by decide)
  · exact h.chars (by decide)
  · exact h.chars (by decide)
  · exact h.chars (by decide)
  · rename_i hc
    exact h.named (List.mem_append_left _ (List.mem_append_right _ hc)) (by decide : isWs ' ' = true)
  · rename_i hc
    exact h.named (List.mem_append_right _ hc) (by decide : isWs ' ' = true)

theorem variant_letter {a : Alphabet} {l c : Char} (h : (a, l, c) ∈ variants) : isLetter l = true := by
  have key : ∀ p ∈ variants, isLetter p.2.1 = true := by decide +kernel
  exact key _ h

mutual
theorem base_through {Q : Str → Prop} (h : Through Q) : ∀ b : Operand, Q b.source
  | .letter c hc => h.chars (t := [c]) (by intro x hx; simp at hx; subst hx; exact letter_chars hc)
  | .number ds hd => h.chars (t := ds ++ c!" ") (by
      intro x hx
      rcases List.mem_append.1 hx with hx | hx
      · exact numeral_chars (hd.2.2 x hx)
      · simp at hx; subst hx; decide)
  | .named name c hc => h.named (List.mem_append_left _ (List.mem_append_left _ hc)) (by decide : isWs ' ' = true)
  | .group e => h.braces (expr_through h e)
  | .fraction n d => h.app (h.app (h.word (by decide)) (h.braces (expr_through h n))) (h.braces (expr_through h d))
  | .root e => h.app (h.word (by decide)) (h.braces (expr_through h e))
  | .nthRoot i e => h.app (h.app (h.word (by decide)) (h.brackets (base_through h i))) (h.braces (expr_through h e))
  | .accented a e => h.app (h.accent a) (h.braces (expr_through h e))
  | .word t ht => h.app (h.word (by decide)) (h.braces (h.chars fun c hc => words_chars (ht.2.2 c hc)))
  | .styled a l _ hl => h.app (h.alphabet a) (h.braces (h.chars (t := [l]) (by intro x hx; simp at hx; subst hx; exact letter_chars (variant_letter hl))))
  | .fenced f e => by simpa [Operand.source] using h.fence (f := f) (g := []) (g' := []) (by simp [Spaces]) (by simp [Spaces]) (expr_through h e)
  | .matrix g => h.env (grid_through h g)
  | .choice g => h.cases (grid_through h g)
theorem piece_through {Q : Str → Prop} (h : Through Q) : ∀ i : Scripted, Q i.source
  | .plain b => base_through h b
  | .sup b s => h.app (h.app (base_through h b) (h.chars (by decide))) (index_through h s)
  | .sub b s => h.app (h.app (base_through h b) (h.chars (by decide))) (index_through h s)
  | .subSup b l u => h.app (h.app (h.app (h.app (base_through h b) (h.chars (by decide))) (index_through h l)) (h.chars (by decide))) (index_through h u)
theorem index_through {Q : Str → Prop} (h : Through Q) : ∀ s : Index, Q s.source
  | .braced e => h.braces (expr_through h e)
  | .letter c hc => h.chars (t := [c]) (by intro x hx; simp at hx; subst hx; exact letter_chars hc)
  | .digit c hc => h.chars (t := [c]) (by intro x hx; simp at hx; subst hx; exact digit_chars hc)
theorem expr_through {Q : Str → Prop} (h : Through Q) : ∀ e : Expr, Q e.source
  | .one i => piece_through h i
  | .next i e => h.app (piece_through h i) (expr_through h e)
  | .infix i o e => h.app (h.app (piece_through h i) (infix_through h o)) (expr_through h e)
  | .signed s e => h.app (by cases s <;> exact h.chars (by decide)) (expr_through h e)
  | .apply f e => h.app (h.func f ' ' (by decide : isWs ' ' = true)) (expr_through h e)
  | .big op l u e => h.app (h.app (h.app (h.app (h.app (h.big op) (h.chars (by decide))) (index_through h l)) (h.chars (by decide))) (index_through h u))
      (expr_through h e)
  | .ranged op l e => h.app (h.app (h.app (h.big op) (h.chars (by decide))) (index_through h l)) (expr_through h e)
theorem entries_through {Q : Str → Prop} (h : Through Q) : ∀ es : Entries, Q es.source
  | .last e => expr_through h e
  | .cons e es => h.app (h.app (expr_through h e) (h.chars (by decide))) (entries_through h es)
theorem grid_through {Q : Str → Prop} (h : Through Q) : ∀ g : Grid, Q g.source
  | .last es => entries_through h es
  | .cons es g => h.app (h.app (entries_through h es) (h.word (by decide))) (grid_through h g)
end

theorem through_braces : Through (Pass ['{'] ['}']) where
  app := pass_append
  chars h := pass_chars fun c hc => by
    have := h c hc
    simp at this
    simp [clash, this, Ne.symm this.2.2.1, Ne.symm this.2.2.2.1]
  word h := by
    simp only [List.mem_cons, List.not_mem_nil, or_false] at h
    rcases h with rfl | rfl | rfl | rfl <;> exact pass_word (by decide) (by decide) (by decide)
  big op := by cases op <;> exact pass_word (by decide) (by decide) (by decide)
  accent a := by cases a <;> exact pass_word (by decide) (by decide) (by decide)
  alphabet a := by cases a <;> exact pass_word (by decide) (by decide) (by decide)
  func f x hx := by cases f <;> exact pass_apart hx (by decide) (by decide) (by decide) (by decide) (by decide)
  named h hx := by
    rename_i name c x
    have key : ∀ p ∈ namedLetters ++ operations ++ relations, p.1 ≠ [] ∧ (∀ c ∈ p.1.tail, c ≠ '\\' ∧ c ≠ '%' ∧ clash ['{'] [c] = true ∧ clash ['}'] [c] = true) ∧
        clash ['{'] (c!"\\" ++ p.1 ++ c!" ") = true ∧ clash ['}'] (c!"\\" ++ p.1 ++ c!" ") = true := by decide +kernel
    obtain ⟨h1, h2, h3, h4⟩ := key _ h
    obtain ⟨a, t, rfl⟩ := List.exists_cons_of_ne_nil h1
    exact pass_apart hx (by decide) (by decide) h3 h4 h2
  brackets h := pass_append (pass_append (pass_chars (by decide)) h) (pass_chars (by decide))
  braces h d s g r hs := by
    rw [List.append_assoc, List.append_assoc, List.append_assoc, List.append_assoc]
    refine .opener (op := ['{']) (fun _ => clash_prefix (w := c!"{") (by decide) _) ?_
    exact h _ _ _ _ (.closer (cl := ['}']) (clash_prefix (w := c!"}") (by decide) _) hs)
  fence hg hg' h := by
    rename_i t f g g'
    refine pass_append (pass_append (pass_append (pass_append (pass_append (pass_append (pass_word (by decide) (by decide) (by decide)) (pass_spaces hg (by decide) (by decide))) ?_) h)
      (pass_word (by decide) (by decide) (by decide))) (pass_spaces hg' (by decide) (by decide))) ?_
    · cases f <;> exact pass_chars (by decide)
    · cases f <;> exact pass_chars (by decide)
  env h := by
    have hb : Pass ['{'] ['}'] c!"{matrix}" := by
      intro d s g r hs
      refine .opener (op := ['{']) (fun _ => clash_prefix (w := c!"{") (by decide) _) ?_
      refine pass_chars (t := c!"matrix") (by decide) _ _ _ _ ?_
      exact .closer (cl := ['}']) (clash_prefix (w := c!"}") (by decide) _) hs
    exact pass_append (pass_append (pass_append (t := c!"\\begin") (pass_word (by decide) (by decide) (by decide)) hb) h)
      (pass_append (t := c!"\\end") (pass_word (by decide) (by decide) (by decide)) hb)
  cases h := by
    have hb : Pass ['{'] ['}'] c!"{cases}" := by
      intro d s g r hs
      refine .opener (op := ['{']) (fun _ => clash_prefix (w := c!"{") (by decide) _) ?_
      refine pass_chars (t := c!"cases") (by decide) _ _ _ _ ?_
      exact .closer (cl := ['}']) (clash_prefix (w := c!"}") (by decide) _) hs
    exact pass_append (pass_append (pass_append (t := c!"\\begin") (pass_word (by decide) (by decide) (by decide)) hb) h)
      (pass_append (t := c!"\\end") (pass_word (by decide) (by decide) (by decide)) hb)

theorem through_left : Through (Pass c!"\\left" c!"\\right") where
  app := pass_append
  chars h := pass_chars fun c hc => by
    have := h c hc
    simp at this
    simp [clash, this, Ne.symm this.1]
  word h := by
    simp only [List.mem_cons, List.not_mem_nil, or_false] at h
    rcases h with rfl | rfl | rfl | rfl <;> exact pass_word (by decide) (by decide) (by decide)
  big op := by cases op <;> exact pass_word (by decide) (by decide) (by decide)
  accent a := by cases a <;> exact pass_word (by decide) (by decide) (by decide)
  alphabet a := by cases a <;> exact pass_word (by decide) (by decide) (by decide)
  func f x hx := by cases f <;> exact pass_apart hx (by decide) (by decide) (by decide) (by decide) (by decide)
  named h hx := by
    rename_i name c x
    have key : ∀ p ∈ namedLetters ++ operations ++ relations, p.1 ≠ [] ∧ (∀ c ∈ p.1.tail, c ≠ '\\' ∧ c ≠ '%' ∧ clash c!"\\left" [c] = true ∧ clash c!"\\right" [c] = true) ∧
        clash c!"\\left" (c!"\\" ++ p.1 ++ c!" ") = true ∧ clash c!"\\right" (c!"\\" ++ p.1 ++ c!" ") = true := by decide +kernel
    obtain ⟨h1, h2, h3, h4⟩ := key _ h
    obtain ⟨a, t, rfl⟩ := List.exists_cons_of_ne_nil h1
    exact pass_apart hx (by decide) (by decide) h3 h4 h2
  braces h := pass_append (pass_append (pass_chars (by decide)) h) (pass_chars (by decide))
  brackets h := pass_append (pass_append (pass_chars (by decide)) h) (pass_chars (by decide))
  fence hg hg' h d s x r hs := by
    rename_i t f g g'
    have h1 : Pass c!"\\left" c!"\\right" [f.opening] := by cases f <;> exact pass_chars (by decide)
    have h2 : Pass c!"\\left" c!"\\right" [f.closing] := by cases f <;> exact pass_chars (by decide)
    simp only [List.append_assoc]
    refine .opener (op := c!"\\left") (fun _ => clash_prefix (w := c!"\\left") (by decide) _) ?_
    refine pass_spaces hg (by decide) (by decide) _ _ _ _ (h1 _ _ _ _ (h _ _ _ _ ?_))
    exact .closer (cl := c!"\\right") (clash_prefix (w := c!"\\right") (by decide) _) (pass_spaces hg' (by decide) (by decide) _ _ _ _ (h2 _ _ _ _ hs))
  env h := pass_append (pass_append (pass_word (by decide) (by decide) (by decide)) h) (pass_word (by decide) (by decide) (by decide))
  cases h := pass_append (pass_append (pass_word (by decide) (by decide) (by decide)) h) (pass_word (by decide) (by decide) (by decide))

theorem through_matrix : Through (Pass c!"\\begin{matrix}" c!"\\end{matrix}") where
  app := pass_append
  chars h := pass_chars fun c hc => by
    have := h c hc
    simp at this
    simp [clash, this, Ne.symm this.1]
  word h := by
    simp only [List.mem_cons, List.not_mem_nil, or_false] at h
    rcases h with rfl | rfl | rfl | rfl <;> exact pass_word (by decide) (by decide) (by decide)
  big op := by cases op <;> exact pass_word (by decide) (by decide) (by decide)
  accent a := by cases a <;> exact pass_word (by decide) (by decide) (by decide)
  alphabet a := by cases a <;> exact pass_word (by decide) (by decide) (by decide)
  func f x hx := by cases f <;> exact pass_apart hx (by decide) (by decide) (by decide) (by decide) (by decide)
  named h hx := by
    rename_i name c x
    have key : ∀ p ∈ namedLetters ++ operations ++ relations, p.1 ≠ [] ∧ (∀ c ∈ p.1.tail, c ≠ '\\' ∧ c ≠ '%' ∧ clash c!"\\begin{matrix}" [c] = true ∧ clash c!"\\end{matrix}" [c] = true) ∧
        clash c!"\\begin{matrix}" (c!"\\" ++ p.1 ++ c!" ") = true ∧ clash c!"\\end{matrix}" (c!"\\" ++ p.1 ++ c!" ") = true := by decide +kernel
    obtain ⟨h1, h2, h3, h4⟩ := key _ h
    obtain ⟨a, t, rfl⟩ := List.exists_cons_of_ne_nil h1
    exact pass_apart hx (by decide) (by decide) h3 h4 h2
  braces h := pass_append (pass_append (pass_chars (by decide)) h) (pass_chars (by decide))
  brackets h := pass_append (pass_append (pass_chars (by decide)) h) (pass_chars (by decide))
  fence hg hg' h := by
    rename_i t f g g'
    refine pass_append (pass_append (pass_append (pass_append (pass_append (pass_append (pass_word (by decide) (by decide) (by decide)) (pass_spaces hg (by decide) (by decide))) ?_) h)
      (pass_word (by decide) (by decide) (by decide))) (pass_spaces hg' (by decide) (by decide))) ?_
    · cases f <;> exact pass_chars (by decide)
    · cases f <;> exact pass_chars (by decide)
  env h d s g r hs := by
    simp only [List.append_assoc]
    refine .opener (op := c!"\\begin{matrix}") (fun _ => clash_prefix (w := c!"\\begin{matrix}") (by decide) _) ?_
    exact h _ _ _ _ (.closer (cl := c!"\\end{matrix}") (clash_prefix (w := c!"\\end{matrix}") (by decide) _) hs)
  cases h := pass_append (pass_append (pass_word (by decide) (by decide) (by decide)) h) (pass_word (by decide) (by decide) (by decide))

theorem through_cases : Through (Pass c!"\\begin{cases}" c!"\\end{cases}") where
  app := pass_append
  chars h := pass_chars fun c hc => by
    have := h c hc
    simp at this
    simp [clash, this, Ne.symm this.1]
  word h := by
    simp only [List.mem_cons, List.not_mem_nil, or_false] at h
    rcases h with rfl | rfl | rfl | rfl <;> exact pass_word (by decide) (by decide) (by decide)
  big op := by cases op <;> exact pass_word (by decide) (by decide) (by decide)
  accent a := by cases a <;> exact pass_word (by decide) (by decide) (by decide)
  alphabet a := by cases a <;> exact pass_word (by decide) (by decide) (by decide)
  func f x hx := by cases f <;> exact pass_apart hx (by decide) (by decide) (by decide) (by decide) (by decide)
  named h hx := by
    rename_i name c x
    have key : ∀ p ∈ namedLetters ++ operations ++ relations, p.1 ≠ [] ∧ (∀ c ∈ p.1.tail, c ≠ '\\' ∧ c ≠ '%' ∧ clash c!"\\begin{cases}" [c] = true ∧ clash c!"\\end{cases}" [c] = true) ∧
        clash c!"\\begin{cases}" (c!"\\" ++ p.1 ++ c!" ") = true ∧ clash c!"\\end{cases}" (c!"\\" ++ p.1 ++ c!" ") = true := by decide +kernel
    obtain ⟨h1, h2, h3, h4⟩ := key _ h
    obtain ⟨a, t, rfl⟩ := List.exists_cons_of_ne_nil h1
    exact pass_apart hx (by decide) (by decide) h3 h4 h2
  braces h := pass_append (pass_append (pass_chars (by decide)) h) (pass_chars (by decide))
  brackets h := pass_append (pass_append (pass_chars (by decide)) h) (pass_chars (by decide))
  fence hg hg' h := by
    rename_i t f g g'
    refine pass_append (pass_append (pass_append (pass_append (pass_append (pass_append (pass_word (by decide) (by decide) (by decide)) (pass_spaces hg (by decide) (by decide))) ?_) h)
      (pass_word (by decide) (by decide) (by decide))) (pass_spaces hg' (by decide) (by decide))) ?_
    · cases f <;> exact pass_chars (by decide)
    · cases f <;> exact pass_chars (by decide)
  cases h d s g r hs := by
    simp only [List.append_assoc]
    refine .opener (op := c!"\\begin{cases}") (fun _ => clash_prefix (w := c!"\\begin{cases}") (by decide) _) ?_
    exact h _ _ _ _ (.closer (cl := c!"\\end{cases}") (clash_prefix (w := c!"\\end{cases}") (by decide) _) hs)
  env h := pass_append (pass_append (pass_word (by decide) (by decide) (by decide)) h) (pass_word (by decide) (by decide) (by decide))

theorem through_brackets : Through (Pass ['['] [']']) where
  app := pass_append
  chars h := pass_chars fun c hc => by
    have := h c hc
    simp at this
    simp [clash, this, Ne.symm this.2.2.2.2.1, Ne.symm this.2.2.2.2.2]
  word h := by
    simp only [List.mem_cons, List.not_mem_nil, or_false] at h
    rcases h with rfl | rfl | rfl | rfl <;> exact pass_word (by decide) (by decide) (by decide)
  big op := by cases op <;> exact pass_word (by decide) (by decide) (by decide)
  accent a := by cases a <;> exact pass_word (by decide) (by decide) (by decide)
  alphabet a := by cases a <;> exact pass_word (by decide) (by decide) (by decide)
  func f x hx := by cases f <;> exact pass_apart hx (by decide) (by decide) (by decide) (by decide) (by decide)
  named h hx := by
    rename_i name c x
    have key : ∀ p ∈ namedLetters ++ operations ++ relations, p.1 ≠ [] ∧ (∀ c ∈ p.1.tail, c ≠ '\\' ∧ c ≠ '%' ∧ clash ['['] [c] = true ∧ clash [']'] [c] = true) ∧
        clash ['['] (c!"\\" ++ p.1 ++ c!" ") = true ∧ clash [']'] (c!"\\" ++ p.1 ++ c!" ") = true := by decide +kernel
    obtain ⟨h1, h2, h3, h4⟩ := key _ h
    obtain ⟨a, t, rfl⟩ := List.exists_cons_of_ne_nil h1
    exact pass_apart hx (by decide) (by decide) h3 h4 h2
  braces h := pass_append (pass_append (pass_chars (by decide)) h) (pass_chars (by decide))
  brackets h d s g r hs := by
    rw [List.append_assoc, List.append_assoc, List.append_assoc, List.append_assoc]
    refine .opener (op := ['[']) (fun _ => clash_prefix (w := c!"[") (by decide) _) ?_
    exact h _ _ _ _ (.closer (cl := [']']) (clash_prefix (w := c!"]") (by decide) _) hs)
  fence hg hg' h := by
    rename_i t f g g'
    have hl : Pass ['['] [']'] (c!"\\left" ++ g) := pass_append (pass_word (by decide) (by decide) (by decide)) (pass_spaces hg (by decide) (by decide))
    have hr : Pass ['['] [']'] (c!"\\right" ++ g') := pass_append (pass_word (by decide) (by decide) (by decide)) (pass_spaces hg' (by decide) (by decide))
    cases f with
    | paren => simpa only [List.append_assoc] using pass_append (pass_append (pass_append (pass_append hl (pass_chars (by decide))) h) hr) (pass_chars (by decide))
    | bar => simpa only [List.append_assoc] using pass_append (pass_append (pass_append (pass_append hl (pass_chars (by decide))) h) hr) (pass_chars (by decide))
    | bracket =>
      intro d s x r hs
      have e : ∀ z : Str, c!"\\left" ++ g ++ ['['] ++ t ++ c!"\\right" ++ g' ++ [']'] ++ z = (c!"\\left" ++ g) ++ (['['] ++ (t ++ ((c!"\\right" ++ g') ++ ([']'] ++ z)))) := by simp
      refine Eq.mpr (congrArg₂ (fun a b => Split ['['] [']'] d a b r) (e s) (e x)) ?_
      refine hl _ _ _ _ ?_
      refine .opener (op := ['[']) (fun _ => clash_prefix (w := c!"[") (by decide) _) ?_
      exact h _ _ _ _ (hr _ _ _ _ (.closer (cl := [']']) (clash_prefix (w := c!"]") (by decide) _) hs))
  env h := pass_append (pass_append (pass_word (by decide) (by decide) (by decide)) h) (pass_word (by decide) (by decide) (by decide))
  cases h := pass_append (pass_append (pass_word (by decide) (by decide) (by decide)) h) (pass_word (by decide) (by decide) (by decide))

/-- The content of a group that ends here. -/
theorem pass_split {op cl t : Str} (h : Pass op cl t) (r : Str) : Split op cl 0 (t ++ (cl ++ r)) t r := by
  have := h 0 (cl ++ r) [] r .done
  simpa using this

end PL.Props
