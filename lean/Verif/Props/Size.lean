import Verif.Lemmas.Render.CostDoc
import Verif.Props.Formula
set_option autoImplicit false
/-!
# How long the rendering is (C64)

The rendering is at most linear in the size of what is rendered and in the number of columns and separators of the widest array: the renderer never
loops, and never repeats anything but the borders of arrays. It is not linear in the size alone: every line of an array repeats its separators.
-/
namespace PL.Props
open PL PL.Lex PL.Mathml Spec

/-- Whatever is rendered, errors included, and however it is nested. -/
theorem C64_bound (cfg : RCfg) (items : List RItem) (C : Nat) (hf : ShortNumbers cfg) (hc : ByteColour cfg.errorColor) (hi : ∀ i ∈ items, Within C i)
    (target : Str) (budget : Option Nat) (text : Str) (h : render cfg items target budget = .ok text) :
    text.length ≤ target.length + 1024 * (C * items.length + totalSize items) + 256 + (cfg.annotation.getD []).length := by
  unfold render at h
  cases e : write cfg (initSt items target budget) with
  | io w => rw [e] at h; cases h
  | panic p => rw [e] at h; cases h
  | ok a s =>
    rw [e] at h
    cases h
    have ho : Okay C (initSt items target budget) := by
      refine ⟨?_, ?_, ?_⟩
      · simp [initSt]
      · simp [initSt, OkState]
      · simpa [initSt] using hi
    have := write_cost hf hc ho e
    simpa [pot, initSt, charges_eq] using this

/-- A configuration that shows every number with one character. -/
def short : RCfg := { rc0 with fmt := fun _ => ['1'] }

/-- An array with a separator, with a text in it, and an error. -/
def tableAndError : List RItem := [.ok (.begin_ (.array [.separator .solid, .column .center])), .ok (.content (.text c!"abc")), .ok .end_, .err c!"oops"]

/-- A case. -/
example (text : Str) (h : pushMathml short tableAndError [] = .ok text) : text.length ≤ 1024 * (2 * 4 + 13) + 256 := by
  have := C64_bound short tableAndError 2 (fun _ => (by decide : (['1'] : Str).length ≤ 64)) ⟨by decide, by decide, by decide⟩
    (by simp [tableAndError, Spec.Within]) [] none text h
  have h1 : totalSize tableAndError = 13 := by decide
  have h2 : tableAndError.length = 4 := rfl
  rw [h1, h2] at this
  exact this

/-- It is rendered. -/
example : (match pushMathml short tableAndError [] with | .ok t => t.length | _ => 0) = 200 := by decide +kernel

/-! ### A family of inputs -/

/-- `n` line breaks. -/
def breaks : Nat → Str
  | 0 => []
  | n + 1 => '\\' :: '\\' :: breaks n

/-- An array with `n` separators, one column, and `n` line breaks. -/
def wide (n : Nat) : Str := c!"\\begin{array}{" ++ (List.replicate n '|' ++ (c!"c}" ++ (breaks n ++ c!"\\end{array}")))

def wideRows : Nat → Rows
  | 0 => .last (.last .nil)
  | n + 1 => .line (.last .nil) none [] (wideRows n)

def wideCols (n : Nat) : List ArrayCol := List.replicate n (.separator .solid) ++ [.column .center]

def wideTree (n : Nat) : Nodes := .one (.table (.array (wideCols n)) none (wideRows n))

theorem breaks_length (n : Nat) : (breaks n).length = 2 * n := by
  induction n with
  | zero => rfl
  | succ n ih => simp [breaks, ih]; omega

theorem wide_length (n : Nat) : (wide n).length = 3 * n + 27 := by
  simp [wide, breaks_length]; omega

/-- A text that is empty or starts with a backslash. -/
def Slash (s : Str) : Prop := s = [] ∨ ∃ t, s = '\\' :: t

theorem breaks_slash (n : Nat) : Slash (breaks n) := by
  cases n with
  | zero => exact .inl rfl
  | succ n => exact .inr ⟨_, rfl⟩

theorem slash_first {s w u : Str} {c : Char} (hs : Slash s) (hw : Spaces w) (e : s = w ++ c :: u) : c = '\\' ∧ w = [] := by
  cases w with
  | nil =>
    rcases hs with rfl | ⟨t, rfl⟩
    · cases e
    · cases e; exact ⟨rfl, rfl⟩
  | cons d w =>
    have hd := hw d (by simp)
    rcases hs with rfl | ⟨t, rfl⟩
    · cases e
    · cases e; exact absurd hd (by decide)

theorem breaks_lines (n : Nat) : WordSeq [(c!"\\hline", Line.solid), (c!"\\hdashline", .dashed)] (breaks n) [] (breaks n) := by
  refine .nil ?_
  intro w v u t hw hu e
  have hu' : ∃ u', u = '\\' :: 'h' :: u' := by
    simp at hu
    rcases hu with ⟨rfl, -⟩ | ⟨rfl, -⟩ <;> exact ⟨_, rfl⟩
  obtain ⟨u', rfl⟩ := hu'
  rw [List.append_assoc] at e
  obtain ⟨-, rfl⟩ := slash_first (breaks_slash n) hw e
  cases n with
  | zero => cases e
  | succ n => simp [breaks] at e

theorem breaks_rows : ∀ n, Reads Known.none (.rows 0 (breaks n) (wideRows n))
  | 0 => .lastLine (.lastCell .nil) (.blank .nil)
  | n + 1 => by
    have hs := breaks_slash n
    refine .line (.lastCell .nil) (t := '\\' :: '\\' :: breaks n) (name := c!"\\") (u := breaks n) (v := breaks n) (w := breaks n)
      (.cs (k := []) (w := []) .nil (.symbol (by decide)) (by intro c h; cases h) ?_) rfl (by decide +kernel) (.absent ?_)
      (breaks_lines n) ?_ (breaks_rows n)
    · rintro c r' e
      obtain ⟨rfl, -⟩ := slash_first hs (w := []) (by intro c h; cases h) e
      decide
    · intro w t hw e
      have := slash_first hs hw e
      simp at this
    · intro w c u hw e
      obtain ⟨rfl, -⟩ := slash_first hs hw e
      decide

theorem breaks_split (n : Nat) : Split (c!"\\begin{" ++ c!"array" ++ c!"}") (c!"\\end{" ++ c!"array" ++ c!"}") 0 (breaks n ++ c!"\\end{array}") (breaks n) [] := by
  induction n with
  | zero => exact .done (r := [])
  | succ n ih =>
    refine .escaped ?_ ?_ ih
    · rintro ⟨t, e⟩; simp at e
    · rintro ⟨t, e⟩; simp at e

theorem bars_columns (n : Nat) : ColumnsFor (List.replicate n '|' ++ ['c']) (wideCols n) := by
  induction n with
  | zero => exact .cons .center .nil
  | succ n ih => exact .cons .solid ih

theorem bars_split (n : Nat) (r : Str) : Split ['{'] ['}'] 0 (List.replicate n '|' ++ ('c' :: '}' :: r)) (List.replicate n '|' ++ ['c']) r := by
  induction n with
  | zero =>
    refine .char ?_ ?_ (by decide) (by decide) .done
    · rintro ⟨t, e⟩; simp at e
    · rintro ⟨t, e⟩; simp at e
  | succ n ih =>
    refine .char ?_ ?_ (by decide) (by decide) ih
    · rintro ⟨t, e⟩; simp at e
    · rintro ⟨t, e⟩; simp at e

theorem wide_count (n : Nat) : columnCount (wideCols n) = 1 := by
  induction n with
  | zero => rfl
  | succ n ih => exact ih

theorem wide_formula (n : Nat) : Formula (wide n) (wideTree n) := by
  have hsel : Selects c!"array" ('{' :: (List.replicate n '|' ++ (c!"c}" ++ (breaks n ++ c!"\\end{array}")))) ⟨.array (wideCols n), 0, none, none⟩
      (breaks n ++ c!"\\end{array}") := by
    have := Selects.array (name := c!"array") (st := none) (g := List.replicate n '|' ++ ['c']) (by decide)
      ⟨[], _, (by intro c h; cases h), rfl, bars_split n (breaks n ++ c!"\\end{array}")⟩ (bars_columns n) (by rw [wide_count]; decide) (by rw [wide_count]; decide)
    rw [wide_count] at this
    exact this
  have hm : Reads Known.none (.means false (.cs c!"begin") (c!"{array}{" ++ (List.replicate n '|' ++ (c!"c}" ++ (breaks n ++ c!"\\end{array}"))))
      (.one (tableNode ⟨.array (wideCols n), 0, none, none⟩ [] (wideRows n))) [] {}) := by
    refine .environment (name := c!"array") ?_ hsel ?_ (breaks_split n) (breaks_rows n)
    · refine ⟨[], _, (by intro c h; cases h), rfl, ?_⟩
      refine .char ?_ ?_ (by decide) (by decide) (.char ?_ ?_ (by decide) (by decide) (.char ?_ ?_ (by decide) (by decide)
        (.char ?_ ?_ (by decide) (by decide) (.char ?_ ?_ (by decide) (by decide) .done)))) <;> (rintro ⟨t, e⟩; simp at e)
    · refine .nil ?_
      intro w v u t hw hu e
      have hu' : ∃ u', u = '\\' :: 'h' :: u' := by
        simp at hu
        rcases hu with ⟨rfl, -⟩ | ⟨rfl, -⟩ <;> exact ⟨_, rfl⟩
      obtain ⟨u', rfl⟩ := hu'
      rw [List.append_assoc] at e
      have hs : Slash (breaks n ++ c!"\\end{array}") := by cases n <;> exact .inr ⟨_, rfl⟩
      obtain ⟨-, rfl⟩ := slash_first hs hw e
      cases n with
      | zero => simp [breaks] at e
      | succ n => simp [breaks] at e
  refine .whole (r := []) ?_ (.blank .nil)
  refine Reads.plain (ns := .one _) (ms := .nil) (x := .cs c!"begin") (r' := []) (vs := []) ?_ (free _) hm rfl .no (noScripts (by decide)) .nil
  refine .cs (k := []) (w := []) .nil (.word (name := c!"begin") (by decide) (by decide) ?_) (by intro c h; cases h) ?_
  · rintro c r' e; cases e; decide
  · rintro c r' e; cases e; decide

theorem wide_regular (n : Nat) : (wideTree n).regular = true := by
  have hr : ∀ n, (wideRows n).regular 1 = true := by
    intro n
    induction n with
    | zero => decide
    | succ n ih => simp [wideRows, Rows.regular, Cells.regular, Cells.length, Nodes.regular, ih]
  have hc : (wideCols n).any isColumn = true := by simp [wideCols, isColumn]
  have ha : alignments (.array (wideCols n)) = 0 := by simp [alignments, wideCols, isColumn, List.countP_append, List.countP_replicate]
  have hl : (wideRows n).lined = false := by cases n <;> rfl
  simp [wideTree, Nodes.one, Nodes.regular, Node.regular, tableOk, hc, ha, hr, hl]

theorem rules_wide (n : Nat) : rules (wideCols n) = List.replicate n .solid := by
  induction n with
  | zero => rfl
  | succ n ih => exact congrArg (Line.solid :: ·) ih

theorem ruled_wide (n : Nat) : ruledColumns (wideCols n) = [(.center, [])] := by
  induction n with
  | zero => rfl
  | succ n ih => exact ih

/-- Every line of the table repeats the separators. -/
theorem cell_long (n : Nat) : n ≤ (tableCell (.array (wideCols (n + 1))) 0 []).length := by
  have h : ∀ k : Nat, k ≤ ((List.replicate k Line.solid).flatMap (borderCell c!"left")).length := by
    intro k
    induction k with
    | zero => exact Nat.zero_le _
    | succ k ih =>
      have : 1 ≤ (borderCell c!"left" Line.solid).length := by decide
      simp only [List.replicate_succ, List.flatMap_cons, List.length_append]
      omega
  simp only [tableCell, rules_wide, ruled_wide, if_true]
  have := h n
  simp only [List.getElem?_cons_zero, List.length_append, List.dropLast_replicate, Nat.add_sub_cancel]
  omega

theorem rows_long (P : Printing) (n : Nat) : ∀ m, m * n ≤ ((wideRows m).markup P (.array (wideCols (n + 1))) []).length
  | 0 => by simp
  | m + 1 => by
    have h1 := rows_long P n m
    have h2 := cell_long n
    simp only [wideRows, Rows.markup, Cells.markup, Nodes.markup, linedRow, spacingRow, tag, List.nil_append, List.length_append, Nat.add_mul, Nat.one_mul]
    omega

theorem document_long (P : Printing) (xml : Bool) (ann : Option Str) (n : Nat) : (n + 1) * n ≤ (mathDocument P xml ann (wideTree (n + 1))).length := by
  have h := rows_long P n (n + 1)
  have h2 : (n + 1) * n ≤ ((wideTree (n + 1)).markup P [] {} none none).text.length := by
    simp only [wideTree, Nodes.one, Nodes.markup, Node.markup, tableElement, tag, Option.getD_none, List.length_append]
    omega
  unfold mathDocument
  cases ann <;> simp only [tag, List.length_append] <;> omega

theorem wide_defines (n : Nat) : ¬ Defines (wide n) := by
  rintro ⟨w, hw, hi⟩
  have h1 : ∀ w ∈ definingCommands, 'f' ∈ w ∨ 'o' ∈ w ∨ 'l' ∈ w := by decide
  have h2 : ∀ c ∈ wide n, c ≠ 'f' ∧ c ≠ 'o' ∧ c ≠ 'l' := by
    have hb : ∀ m, ∀ c ∈ breaks m, c = '\\' := by
      intro m
      induction m with
      | zero => intro c h; cases h
      | succ m ih =>
        intro c h
        simp only [breaks, List.mem_cons] at h
        rcases h with h | h | h
        · exact h
        · exact h
        · exact ih c h
    intro c h
    simp only [wide, List.mem_append, List.mem_replicate] at h
    rcases h with h | ⟨-, rfl⟩ | h | h | h
    · revert c; decide
    · decide
    · revert c; decide
    · rw [hb n c h]; decide
    · revert c; decide
  rcases h1 w hw with h | h | h
  · exact (h2 _ (hi.mem h)).1 rfl
  · exact (h2 _ (hi.mem h)).2.1 rfl
  · exact (h2 _ (hi.mem h)).2.2 rfl

/-- No linear bound: for every factor there is an input, parsed without errors and without definitions, whose rendering is longer than its length by
more than this factor. -/
theorem C64_false (cf : Cfg) (cfg : RCfg) (K : Nat) : ∃ inp es text, ¬ Defines inp ∧ Yields cf inp (List.map Item.ok es) ∧
    pushMathml cfg (List.map .ok es) [] = .ok text ∧ K * inp.length < text.length := by
  obtain ⟨h1, h2⟩ := C55_document cf cfg (wide (33 * K + 34)) (wideTree (33 * K + 34)) (wide_formula _) (wide_regular _) []
  refine ⟨_, _, _, ?_, h1, h2, ?_⟩
  · exact wide_defines _
  · have h3 := document_long (printing cfg) cfg.xml cfg.annotation (33 * K + 33)
    rw [wide_length]
    have h4 : K * (3 * (33 * K + 34) + 27) < (33 * K + 33 + 1) * (33 * K + 33) := by
      have : (33 * K + 33 + 1) * (33 * K + 33) = 33 * (K * (33 * K + 34)) + 33 * (33 * K + 34) := by
        rw [Nat.mul_comm, Nat.add_mul, Nat.mul_assoc]
      rw [this, Nat.mul_add]
      have h5 : K * (3 * (33 * K + 34)) = 3 * (K * (33 * K + 34)) := by rw [Nat.mul_left_comm]
      have h6 : K * 27 ≤ 33 * (33 * K + 34) := by omega
      have h7 : 0 < 30 * (K * (33 * K + 34)) + 1 := by omega
      omega
    exact Nat.lt_of_lt_of_le h4 h3

end PL.Props
