import Verif.Props.Formula
import Verif.Props.Recovery
set_option autoImplicit false
/-!
# What a text with macros stands for (C56)

`Document Known.none inp ns` is a derivation in the grammar of Spec/Formula.lean, with definitions between the elements and calls of the macros they define:
a call stands for what its replacement stands for (Spec/Expansion.lean). The parser yields the events of the tree, unless it reaches its limits on expansions.
-/
namespace PL.Props
open PL PL.Lex Spec

/-- Every text that stands for a tree yields the events of the tree; or it yields some of them from the first on, and then the error that says that the
limits on expansions are reached. -/
theorem C56_meaning_partial (cf : Cfg) (inp : Str) (ns : Nodes) (h : Document Known.none inp ns) :
    Yields cf inp (ns.events.map .ok) ∨
    ∃ n es ctx, es <+: ns.events ∧ (run cf n (State.init inp)).1 = es.map .ok ++ [.err .macroRecursionLimit ctx] := by
  rcases Formula.meaning cf h with h | ⟨es, ctx, s, h1, h2⟩
  · exact .inl h
  · obtain ⟨n, hn⟩ := exec_run h2 (n' := 0) rfl
    exact .inr ⟨n, es, ctx, h1, by rw [hn]; simp⟩

theorem run_prefix {cf : Cfg} : ∀ {n m : Nat} {s : State} {its : List Item}, run cf n s = (its, .done) → (run cf m s).1 <+: its := by
  intro n
  induction n with
  | zero => intro m s its h; cases h
  | succ n ih =>
    intro m s its h
    cases m with
    | zero => exact List.nil_prefix
    | succ m =>
      unfold run at h ⊢
      cases hs : step cf s with
      | done => rw [hs] at h; cases h; exact List.nil_prefix
      | panic p => rw [hs] at h; cases h
      | again s' => rw [hs] at h; exact ih h
      | item i s' =>
        rw [hs] at h
        simp only [Prod.mk.injEq] at h ⊢
        rw [← h.1]
        exact (List.prefix_cons_inj i).2 (ih (Prod.ext rfl h.2))

/-- A parse without errors yields exactly the events of the tree. -/
theorem C56_agrees_partial (cf : Cfg) (inp : Str) (ns : Nodes) (es : List Event) (h : Document Known.none inp ns) (hy : Yields cf inp (es.map .ok)) :
    es = ns.events := by
  obtain ⟨m, hm⟩ := hy
  rcases C56_meaning_partial cf inp ns h with ⟨n, hn⟩ | ⟨n, fs, ctx, -, hn⟩
  · exact List.map_inj_right (fun _ _ e => by injection e) |>.1 (run_unique hm hn)
  · have hp := run_prefix (m := n) hm
    rw [hn] at hp
    have : Item.err .macroRecursionLimit ctx ∈ es.map Item.ok := hp.subset (by simp)
    simp at this

/-- Such a parse is rendered as the specification of documents says about the tree. -/
theorem C56_document_partial (cf : Cfg) (cfg : Mathml.RCfg) (inp : Str) (ns : Nodes) (es : List Event) (h : Document Known.none inp ns)
    (hy : Yields cf inp (es.map .ok)) (hr : ns.regular = true) (target : Str) :
    Mathml.pushMathml cfg (es.map .ok) target = .ok (target ++ mathDocument (Mathml.printing cfg) cfg.xml cfg.annotation ns) := by
  rw [C56_agrees_partial cf inp ns es h hy]
  exact C53_tree_partial cfg ns hr target

/-- Two texts that stand for the same tree yield the same events, if they yield no errors: macros can be replaced by hand. -/
theorem C56_by_hand_partial (cf : Cfg) (inp inp' : Str) (ns : Nodes) (es es' : List Event) (h : Document Known.none inp ns) (h' : Document Known.none inp' ns)
    (hy : Yields cf inp (es.map .ok)) (hy' : Yields cf inp' (es'.map .ok)) : es = es' :=
  (C56_agrees_partial cf inp ns es h hy).trans (C56_agrees_partial cf inp' ns es' h' hy').symm

/-! ### A case -/

/-- `\def\a#1{#1^2}\a y` is a square. -/
theorem square_document : Document Known.none c!"\\def\\a#1{#1^2}\\a y" (.one (.script .sup .right (.two (.content (.ordinary 'y' false)) (.content (.number c!"2"))))) := by
  have hd : Known.none.set c!"a" (.plain [] [[]] false c!"#1^2") c!"a" = some (.plain [] [[]] false c!"#1^2") := by simp [Known.set]
  have free : ∀ c, (Known.none.set c!"a" (.plain [] [[]] false c!"#1^2")).Free (.chr c) := fun c n h => by cases h
  refine .define (ns := .nil) .nil (.def_ (t := c!"\\a#1{#1^2}\\a y") (name := c!"a") (pt := c!"#1") (rt := c!"#1^2") (r := c!"\\a y") (pre := []) (ds := [[]]) (b := false)
    (nextTok_cs (by decide +kernel)) rfl (definition_iff.1 (by decide +kernel))
    (.plain (pre := []) (by simp) (.cons (d := []) (s := []) (by omega) (by simp) .nil))
    (.param (i := 1) (by omega) (by decide) (by omega) (.char (by decide) (.char (by decide) .nil)))) (.formula (.whole (.call (name := c!"a") (t := c!"y")
      (body := c!"y^2") (r := []) (nextTok_cs (by decide +kernel)) hd
      (.plain (s := c!"y") (args := [c!"y"]) (.plain (fun _ => rfl) (.char (k := []) .nil (by decide) (by decide) (by decide) (by intro h; revert h; decide)) .nil)
        (.param (i := 1) (a := c!"y") (by omega) (by omega) rfl (.char (by decide) (.char (by decide) .nil))))
      (fun u name c t _ _ h => by cases h) (noScripts (by decide))
      (.script (ns := .one _) (ks := .one _) (x := .chr 'y') (t := c!"^2") (r := c!"^2") (pl := {}) (vs := []) (w := []) (v := c!"2") (v' := []) (c := '^') (pl' := {})
        (nextTok_chr (by decide +kernel)) (free _) (.single (.chr (by decide))) rfl .no (by simp [Spaces]) (.inl rfl)
        (.tokenArg (x := .chr '2') (t := []) ⟨nextTok_chr (by decide +kernel), noBrace (by decide)⟩ (free _) (.digit (by decide)))
        (noScriptHere (by decide)) .nil)) (.blank .nil)))

/-! ### Where calls do not stand for their replacement -/

/-- A macro that is the argument of a command or a script, without braces, is not expanded: the grammar excludes these texts. With braces it is. -/
theorem C56_arguments_false : ([c!"\\def\\a{2}x^\\a", c!"\\def\\a{2}\\frac\\a3", c!"\\def\\a{2}x^{\\a}"].map fun i => (run cf0 60 (State.init i)).1.map Item.bare) =
    [[.inr .unknownPrimitive], [.inr .unknownPrimitive, .inl (.visual (.fraction none)), .inl (.content (.number c!"3"))],
      [.inl (.script .sup .right), .inl (.content (.ordinary 'x' false)), .inl (.begin_ .normal), .inl (.content (.number c!"2")), .inl .end_]] := by
  decide +kernel

/-- A command that is redefined keeps its first meaning there. -/
theorem C56_redefined_false : (run cf0 60 (State.init c!"\\def\\alpha{x}2^\\alpha\\alpha")).1.map Item.bare =
    [.inl (.script .sup .right), .inl (.content (.number c!"2")), .inl (.content (.ordinary 'α' false)), .inl (.content (.ordinary 'x' false))] := by
  decide +kernel

/-- A replacement that begins with a script gets an empty base, not the element before the call. -/
theorem C56_script_false : (run cf0 60 (State.init c!"\\def\\sq{^2}x\\sq")).1.map Item.bare =
    [.inl (.content (.ordinary 'x' false)), .inl (.script .sup .right), .inl (.begin_ .normal), .inl .end_, .inl (.content (.number c!"2"))] := by
  decide +kernel

/-- Definitions made in a group hold after it, and `\let` refers to the meaning the other macro has at the time of the call. -/
theorem C56_scope_false : ([c!"{\\def\\a{x}}\\a", c!"\\def\\b{x}\\let\\a\\b\\def\\b{y}\\a"].map fun i => (run cf0 60 (State.init i)).1.map Item.bare) =
    [[.inl (.begin_ .normal), .inl .end_, .inl (.content (.ordinary 'x' false))], [.inl (.content (.ordinary 'y' false))]] := by
  decide +kernel

/-- `\newcommand` without a number of parameters, or with a name that is not in braces, is refused. -/
theorem C56_newcommand_false : ([c!"\\newcommand{\\a}{x}", c!"\\newcommand\\a[0]{x}"].map fun i => (run cf0 60 (State.init i)).1.head?.map Item.bare) =
    [some (.inr .argument), some (.inr .groupArgument)] := by
  decide +kernel

/-- A script after `\newcommand` has no base at all. -/
theorem C56_script_after_definition_false : (run cf0 60 (State.init c!"\\newcommand{\\a}[0]{x}^2")).1.map Item.bare =
    [.inl (.script .sup .right), .inl (.content (.number c!"2"))] := by
  decide +kernel

end PL.Props
