import Verif.Props.Spaced
import Verif.Props.Balanced
set_option autoImplicit false
/-!
# C81: the documents of expressions are well-formed
-/
namespace PL.Props
open PL PL.Lex PL.Mathml Spec

theorem tag_el {n : Str} {as : List (Str × Str)} {k : Nat} {t : Str} (h : El true k t)
    (ho : ∀ S, Sc true .text S (c!"<" ++ n ++ as.flatMap attr ++ c!">") .text ((n, 0) :: S))
    (hs : ∀ S, Sc true .text ((n, k) :: S) (c!"</" ++ n ++ c!">") .text (addChild S)) : El true 1 (tag n as t) := by
  intro S
  have h1 := h ((n, 0) :: S)
  rw [addN_cons, Nat.zero_add] at h1
  have := ((ho S).append h1).append (hs S)
  simpa only [tag, List.append_assoc, addN] using this

theorem plain_el {t : Str} (h : '<' ∉ t) : El true 0 t := fun _ => Sc.plain h

theorem digit_not_lt {c : Char} (h : isDigit c = true) : c ≠ '<' := by rintro rfl; exact absurd h (by decide)
theorem letter_not_lt {c : Char} (h : isLetter c = true) : c ≠ '<' := by rintro rfl; exact absurd h (by decide)

theorem sign_plain : ∀ o : Infix, o.sign ≠ '<' := by
  have h1 : ∀ p ∈ operations, p.2 ≠ '<' := by decide
  have h2 : ∀ p ∈ relations, p.2 ≠ '<' := by decide
  intro o
  cases o with
  | operation n c h => exact h1 _ h
  | relation n c h => exact h2 _ h
  | _ => decide

theorem named_plain {n : Str} {c : Char} (h : (n, c) ∈ namedLetters) : c ≠ '<' := by
  have h1 : ∀ p ∈ namedLetters, p.2 ≠ '<' := by decide
  exact h1 _ h

theorem one_el {c : Char} (h : c ≠ '<') : El true 0 [c] := plain_el (by simpa using h.symm)

theorem identifier_el {style : MathStyle} {c : Char} (h : c ≠ '<') : El true 1 (identifier style c) := by
  unfold identifier
  split <;> exact tag_el (one_el h) (fun _ => rfl) (fun _ => rfl)

theorem mo_el {c : Char} (h : c ≠ '<') : El true 1 (tag c!"mo" [] [c]) := tag_el (one_el h) (fun _ => rfl) (fun _ => rfl)

theorem stretchy_el {c : Char} (h : c ≠ '<') : El true 1 (tag c!"mo" [(c!"stretchy", c!"true")] [c]) :=
  tag_el (one_el h) (fun _ => rfl) (fun _ => rfl)

theorem mark_el {style : MathStyle} (a : Accent) : El true 1 (a.mark style) := by
  have h : a.sign ≠ '<' := by cases a <;> decide
  unfold Accent.mark
  split
  · exact stretchy_el h
  · exact identifier_el h

theorem space_el : El true 1 (void c!"mspace" [(c!"width", c!"0.1667em")]) := fun _ => rfl

theorem mrow_el {k : Nat} {t : Str} (h : El true k t) : El true 1 (tag c!"mrow" [] t) := tag_el h (fun _ => rfl) (fun _ => rfl)

section
variable (block : Bool) (style : MathStyle)

mutual
theorem operand_el : ∀ o : Operand, El true 1 (o.mathml block style)
  | .letter c h => identifier_el (letter_not_lt h)
  | .number ds h => tag_el (plain_el fun hc => absurd (h.2.2 _ hc) (by decide)) (fun _ => rfl) (fun _ => rfl)
  | .named _ c h => identifier_el (named_plain h)
  | .group e => by
    obtain ⟨k, h⟩ := expr_el e false
    exact mrow_el h
  | .fraction n d => by
    obtain ⟨j, h⟩ := expr_el n false
    obtain ⟨k, h'⟩ := expr_el d false
    exact tag_el ((mrow_el h).append (mrow_el h')) (fun _ => rfl) (fun _ => rfl)
  | .root e => by
    obtain ⟨k, h⟩ := expr_el e false
    exact tag_el (mrow_el h) (fun _ => rfl) (fun _ => rfl)
  | .nthRoot i e => by
    obtain ⟨k, h⟩ := expr_el e false
    exact tag_el ((mrow_el h).append (operand_el i)) (fun _ => rfl) (fun _ => rfl)
  | .accented a e => by
    obtain ⟨k, h⟩ := expr_el e false
    exact tag_el ((mrow_el h).append (mark_el a)) (fun _ => rfl) (fun _ => rfl)
  | .word t h => tag_el (plain_el fun hc => absurd (h.2.2 _ hc) (by decide)) (fun _ => rfl) (fun _ => rfl)
  | .styled a l c h => by
    have key : ∀ p ∈ variants, p.2.2 ≠ '<' := by decide +kernel
    exact mrow_el (tag_el (one_el (key _ h)) (fun _ => rfl) (fun _ => rfl))
  | .fenced f e => by
    obtain ⟨k, h⟩ := expr_el e false
    exact mrow_el (((stretchy_el (by cases f <;> decide)).append h).append (stretchy_el (by cases f <;> decide)))
  | .matrix g => by
    obtain ⟨k, h⟩ := grid_el g
    exact tag_el h (fun _ => rfl) (fun _ => rfl)
  | .choice g => by
    obtain ⟨k, h⟩ := grid_el g
    exact mrow_el ((stretchy_el (by decide)).append (tag_el h (fun _ => rfl) (fun _ => rfl)))
theorem scripted_el : ∀ i : Scripted, El true 1 (i.mathml block style)
  | .plain b => operand_el b
  | .sup b s => tag_el ((operand_el b).append (index_el s)) (fun _ => rfl) (fun _ => rfl)
  | .sub b s => tag_el ((operand_el b).append (index_el s)) (fun _ => rfl) (fun _ => rfl)
  | .subSup b l u => tag_el (((operand_el b).append (index_el l)).append (index_el u)) (fun _ => rfl) (fun _ => rfl)
theorem index_el : ∀ i : Index, El true 1 (i.mathml block style)
  | .braced e => by
    obtain ⟨k, h⟩ := expr_el e false
    exact mrow_el h
  | .letter c h => identifier_el (letter_not_lt h)
  | .digit c h => tag_el (one_el (digit_not_lt h)) (fun _ => rfl) (fun _ => rfl)
theorem expr_el : ∀ (e : Expr) (after : Bool), ∃ k, El true k (e.mathml block style after)
  | .one i, _ => ⟨1, scripted_el i⟩
  | .next i e, _ => by
    obtain ⟨k, h⟩ := expr_el e true
    exact ⟨_, (scripted_el i).append h⟩
  | .infix i o e, _ => by
    obtain ⟨k, h⟩ := expr_el e false
    exact ⟨_, ((scripted_el i).append (mo_el (sign_plain o))).append h⟩
  | .signed s e, after => by
    obtain ⟨k, h⟩ := expr_el e (!after)
    refine ⟨_, El.append (j := 1) ?_ h⟩
    cases after <;> cases s <;> exact tag_el (one_el (by decide)) (fun _ => rfl) (fun _ => rfl)
  | .apply f e, after => by
    obtain ⟨k, h⟩ := expr_el e false
    have hf : El true 1 (tag c!"mi" [] f.name) := tag_el (plain_el (by cases f <;> decide)) (fun _ => rfl) (fun _ => rfl)
    cases after
    · exact ⟨_, (((El.append (plain_el (t := []) (by simp)) hf).append (mo_el (by decide))).append space_el).append h⟩
    · exact ⟨_, (((space_el.append hf).append (mo_el (by decide))).append space_el).append h⟩
  | .big op l u e, _ => by
    obtain ⟨k, h⟩ := expr_el e (l.grouped || u.grouped)
    have hm : El true 1 (tag c!"mo" [(c!"movablelimits", c!"false")] [op.sign]) := tag_el (one_el (by cases op <;> decide)) (fun _ => rfl) (fun _ => rfl)
    have hb := (hm.append (index_el l)).append (index_el u)
    refine ⟨_, El.append (j := 1) ?_ h⟩
    split <;> exact tag_el hb (fun _ => rfl) (fun _ => rfl)
  | .ranged op l e, _ => by
    obtain ⟨k, h⟩ := expr_el e l.grouped
    have hm : El true 1 (tag c!"mo" [(c!"movablelimits", c!"false")] [op.sign]) := tag_el (one_el (by cases op <;> decide)) (fun _ => rfl) (fun _ => rfl)
    have hb := hm.append (index_el l)
    refine ⟨_, El.append (j := 1) ?_ h⟩
    split <;> exact tag_el hb (fun _ => rfl) (fun _ => rfl)
theorem entries_el : ∀ es : Entries, ∃ k, El true k (es.mathml block style)
  | .last e => by
    obtain ⟨k, h⟩ := expr_el e false
    exact ⟨1, tag_el h (fun _ => rfl) (fun _ => rfl)⟩
  | .cons e es => by
    obtain ⟨k, h⟩ := expr_el e false
    obtain ⟨j, h'⟩ := entries_el es
    exact ⟨_, El.append (j := 1) (tag_el h (fun _ => rfl) (fun _ => rfl)) h'⟩
theorem grid_el : ∀ g : Grid, ∃ k, El true k (g.mathml block style)
  | .last es => by
    obtain ⟨k, h⟩ := entries_el es
    exact ⟨1, tag_el h (fun _ => rfl) (fun _ => rfl)⟩
  | .cons es g => by
    obtain ⟨k, h⟩ := entries_el es
    obtain ⟨j, h'⟩ := grid_el g
    exact ⟨_, El.append (j := 1) (tag_el h (fun _ => rfl) (fun _ => rfl)) h'⟩
end
end

/-- **C81.** For every expression, in every layout, the document that the renderer writes opens and closes elements of MathML in order, and the elements for which
MathML prescribes a number of children have that number. The only condition on the configuration is that the annotation, which is copied as it is, has no `<`. -/
theorem C81_wellformed (cf : Cfg) (cfg : RCfg) (hu : TellsCapitals cfg.isUpper) (ha : ∀ a, cfg.annotation = some a → '<' ∉ a) (e : Expr) (hn : e.proper = true)
    (gap : List Nat → Str) (hg : ∀ p, Spaces (gap p)) :
    ∃ es : List Event, Yields cf e.source (es.map .ok) ∧ Yields cf (e.spaced gap []) (es.map .ok) ∧
      ∀ target, ∃ text, pushMathml cfg (es.map .ok) target = .ok (target ++ text) ∧ Tags true [] text [] := by
  obtain ⟨es, h0, h1, h2⟩ := C80_spaces_partial cf cfg hu e hn gap hg [] [] (fun _ h => absurd h (by simp)) (fun _ h => absurd h (by simp))
  refine ⟨es, h0, by simpa using h1, fun target => ⟨_, h2 target, ?_⟩⟩
  obtain ⟨k, hk⟩ := expr_el cfg.block cfg.style e false
  have := frame_tags (cfg := { cfg with fmt := fun _ => [] }) ⟨ha, fun _ => by simp⟩ hk
  refine Eq.mp (congrArg (fun t => Tags true [] t []) ?_) this
  simp only [frameStart, frameEnd, framed]
  cases cfg.annotation <;> cases cfg.block <;> cases cfg.xml <;> simp [tag, attr]

/-! ### Cases -/

/-- A comparison of a determinant and a sum, with its LaTeX as annotation. -/
example (cfg : RCfg) (hu : TellsCapitals cfg.isUpper) (ha : cfg.annotation = some determinant.source) :
    ∃ es : List Event, Yields cf0 determinant.source (es.map .ok) ∧ Yields cf0 (determinant.spaced gaps []) (es.map .ok) ∧
      ∀ target, ∃ text, pushMathml cfg (es.map .ok) target = .ok (target ++ text) ∧ Tags true [] text [] :=
  C81_wellformed cf0 cfg hu (fun a h => by rw [ha] at h; cases h; decide +kernel) determinant (by decide +kernel) gaps gaps_spaces

/-- The condition on the annotation is needed. -/
theorem C81_annotation : ∃ text, pushMathml { rc0 with annotation := some c!"a<b" } [.ok (.content (.ordinary 'a' false))] [] = .ok text ∧ ¬ Tags true [] text [] :=
  ⟨c!"<math display=\"inline\"><semantics><mrow><mi>a</mi></mrow><annotation encoding=\"application/x-tex\">a<b</annotation></semantics></math>",
    by decide +kernel, not_tags (by decide +kernel)⟩

end PL.Props
