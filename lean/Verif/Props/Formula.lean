import Verif.Lemmas.Formula.Main
import Verif.Props.Document
set_option autoImplicit false
/-!
# What a text stands for (C55)

`Formula inp ns` is a derivation in the grammar of Spec/Formula.lean: rules on texts and trees. The parser yields exactly the events of the tree, and the
renderer writes its document.
-/
namespace PL.Props
open PL PL.Lex Spec

/-- Every text that stands for a tree yields the events of the tree, and no error. -/
theorem C55_meaning (cf : Cfg) (inp : Str) (ns : Nodes) (h : Formula inp ns) : Yields cf inp (ns.events.map .ok) := by
  rcases Formula.sound Formula.stores_none h ⟨0, blen inp, inp⟩ none rfl [] (.init inp) with ⟨s', h1, sp', rfl⟩ | ⟨h1, -⟩
  · obtain ⟨s1, h2, h3⟩ := h1.exec
    cases h3
    exact exec_yields h2 rfl
  · exact absurd rfl h1

theorem run_unique {cf : Cfg} : ∀ {n m : Nat} {s : State} {its its' : List Item}, run cf n s = (its, .done) → run cf m s = (its', .done) → its = its' := by
  intro n
  induction n with
  | zero => intro m s its its' h _; cases h
  | succ n ih =>
    intro m s its its' h h'
    cases m with
    | zero => cases h'
    | succ m =>
      unfold run at h h'
      cases hs : step cf s with
      | done => rw [hs] at h h'; cases h; cases h'; rfl
      | panic p => rw [hs] at h; cases h
      | again s' => rw [hs] at h h'; exact ih h h'
      | item i s' =>
        rw [hs] at h h'
        simp only [Prod.mk.injEq] at h h'
        rw [← h.1, ← h'.1]
        exact congrArg _ (ih (Prod.ext rfl h.2) (Prod.ext rfl h'.2))

/-- A text stands for one sequence of events at most. -/
theorem C55_unique (inp : Str) (ns ms : Nodes) (h : Formula inp ns) (h' : Formula inp ms) : ns.events = ms.events := by
  obtain ⟨n, hn⟩ := C55_meaning ⟨true, fun _ => 0⟩ inp ns h
  obtain ⟨m, hm⟩ := C55_meaning ⟨true, fun _ => 0⟩ inp ms h'
  exact List.map_inj_right (fun _ _ e => by injection e) |>.1 (run_unique hn hm)

/-- From the text to the document: parsing and rendering writes what the specification of documents says about the tree. -/
theorem C55_document (cf : Cfg) (cfg : Mathml.RCfg) (inp : Str) (ns : Nodes) (h : Formula inp ns) (hr : ns.regular = true) (target : Str) :
    Yields cf inp (ns.events.map .ok) ∧
    Mathml.pushMathml cfg (ns.events.map .ok) target = .ok (target ++ mathDocument (Mathml.printing cfg) cfg.xml cfg.annotation ns) :=
  ⟨C55_meaning cf inp ns h, C53_tree_partial cfg ns hr target⟩

/-! ### A case -/

theorem nextTok_cs {s n r : Str} (h : token s = .ok (.cs n) r) : NextTok s (.cs n) r := nextTok_iff.2 ⟨_, h, rfl⟩
theorem nextTok_chr {s r : Str} {c : Char} (h : token s = .ok (.chr c r) r) : NextTok s (.chr c) r := nextTok_iff.2 ⟨_, h, rfl⟩
theorem noBrace {s : Str} (h : (trimStart s).head? ≠ some '{') : ∀ w u, Spaces w → s ≠ w ++ '{' :: u := by
  rintro w u hw rfl
  rw [trimStart_ws_append hw] at h
  exact h rfl
theorem noWords {s : Str} (h : (trimStart s).head? ≠ some '\\') : WordSeq [(c!"\\limits", true), (c!"\\nolimits", false)] s [] s := by
  refine .nil ?_
  rintro w v u t hw hu rfl
  rw [List.append_assoc, trimStart_ws_append hw] at h
  simp at hu
  rcases hu with ⟨rfl, -⟩ | ⟨rfl, -⟩ <;> exact h rfl
theorem noScripts {s : Str} (h : NoScriptAfter s) : Spec.NoScript s := Formula.noScript_iff.2 h
theorem noScriptHere {s : Str} (h : NoScriptNext s) : NoScriptHere s := Formula.noScriptHere_iff.2 h
instance (s : Str) : Decidable (NoScriptAfter s) := inferInstanceAs (Decidable (_ ∧ _))
instance (s : Str) : Decidable (NoScriptNext s) := inferInstanceAs (Decidable (_ ∧ _))

theorem free (x : Word) : Known.none.Free x := fun _ _ => rfl

/-- `\sum\limits_i \frac x{y^2}` is a sum with a limit below it, and a fraction. -/
example : Formula c!"\\sum\\limits_i \\frac x{y^2}" (.two
    (.script .sub .aboveBelow (.two (.content (.largeOp '∑' false)) (.content (.ordinary 'i' false))))
    (.visual (.fraction none) (.two (.content (.ordinary 'x' false))
      (.group none [] (.one (.script .sup .right (.two (.content (.ordinary 'y' false)) (.content (.number c!"2"))))))))) := by
  have y2 : Formula c!"y^2" (.one (.script .sup .right (.two (.content (.ordinary 'y' false)) (.content (.number c!"2"))))) :=
    .whole (.script (ns := .one _) (ks := .one _) (x := .chr 'y') (t := c!"^2") (r := c!"^2") (pl := {}) (vs := []) (w := []) (v := c!"2") (v' := []) (c := '^') (pl' := {})
      (nextTok_chr (by decide +kernel)) (free _) (.single (.chr (by decide))) rfl .no (by simp [Spaces]) (.inl rfl)
      (.tokenArg (x := .chr '2') (t := []) ⟨nextTok_chr (by decide +kernel), noBrace (by decide)⟩ (free _) (.digit (by decide)))
      (noScriptHere (by decide)) .nil) (.blank .nil)
  have tail : Reads Known.none (.elements c!" \\frac x{y^2}" (.one (.visual (.fraction none) (.two (.content (.ordinary 'x' false))
      (.group none [] (.one (.script .sup .right (.two (.content (.ordinary 'y' false)) (.content (.number c!"2"))))))))) []) :=
    .plain (ns := .one _) (x := .cs c!"frac") (t := c!"x{y^2}") (r := []) (pl := {}) (vs := []) (r' := [])
      (nextTok_cs (by decide +kernel)) (free _)
      (.frac (ns := .one _) (ms := .one _) (l := none) (r := none) (bar := none) (style := none) (t := c!"{y^2}") (pl := {}) (pl' := {}) (by decide +kernel)
        (.tokenArg (x := .chr 'x') (t := c!"{y^2}") ⟨nextTok_chr (by decide +kernel), noBrace (by decide)⟩ (free _) (.single (.chr (by decide))))
        (.groupArg (braceArgument_iff.1 (by decide +kernel)) y2))
      rfl .no (noScripts (by decide)) .nil
  exact .whole (.script (ns := .one _) (ks := .one _) (x := .cs c!"sum") (t := c!"\\limits_i \\frac x{y^2}") (r := c!"\\limits_i \\frac x{y^2}") (pl := ⟨some .movable, true, false⟩)
      (vs := [true]) (w := []) (v := c!"i \\frac x{y^2}") (v' := c!" \\frac x{y^2}") (c := '_') (pl' := {})
      (nextTok_cs (by decide +kernel)) (free _) (.operator (by decide +kernel)) rfl
      (.yes (.cons (w := []) (u := c!"\\limits") (by simp [Spaces]) (by simp) (noWords (by decide))))
      (by simp [Spaces]) (.inr rfl)
      (.tokenArg (x := .chr 'i') (t := c!" \\frac x{y^2}") ⟨nextTok_chr (by decide +kernel), noBrace (by decide)⟩ (free _) (.single (.chr (by decide))))
      (noScriptHere (by decide)) tail) (.blank .nil)

end PL.Props
