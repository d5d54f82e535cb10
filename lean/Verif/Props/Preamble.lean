import Verif.Lemmas.March
import Verif.Lemmas.Wider
import Verif.Props.Symbols
import Verif.Props.Effect
import Verif.Props.Layout
import Verif.Spec.Preamble
set_option autoImplicit false
/-!
# C68: definitions that are not used change nothing

A preamble of definitions can be put before a text that does not use them.
-/
namespace PL.Props
open PL PL.Lex PL.Macros Spec PL.Formula

variable {cf : Cfg}

/-- After the text has been parsed, giving the items, the name is a macro. -/
def Bound (cf : Cfg) (t : Str) (its : List Item) (name : Str) : Prop := ∃ s, Reached cf t its s ∧ s.macros.get name ≠ none

theorem exec_same {s s0 s' : State} {es : List Item} (h : step cf s0 = step cf s) (he : Exec cf s es s') : es = [] ∧ s' = s ∨ Exec cf s0 es s' := by
  induction he with
  | init => exact .inl ⟨rfl, rfl⟩
  | @item es s1 it s2 h1 hst ih =>
    rcases ih with ⟨rfl, rfl⟩ | ih
    · exact .inr (Exec.init.item (h.trans hst))
    · exact .inr (ih.item hst)
  | @again es s1 s2 h1 hst ih =>
    rcases ih with ⟨rfl, rfl⟩ | ih
    · exact .inr (Exec.init.again (h.trans hst))
    · exact .inr (ih.again hst)

/-- The definitions are carried out. -/
theorem exec_preamble {Δ Δ' : Known} {D : Ctx} {s t : Str} (hS : Stores cf D Δ) (h : Preamble Δ s Δ' t) {c : Sl} (A : Option AlignCount) (B : List Instr) (sp : Spans)
    (hc : trimStart c.cs = trimStart s) :
    ∃ D' c', Stores cf D' Δ' ∧ trimStart c'.cs = trimStart t ∧ Exec cf ⟨.sub c A :: B, [], D, sp⟩ [] ⟨.sub c' A :: B, [], D', sp⟩ := by
  induction h generalizing D c with
  | nil => exact ⟨D, c, hS, hc, .init⟩
  | cons h1 _ ih =>
    obtain ⟨D1, c1, hS1, hc1, e1⟩ := sound_define hS h1 A B sp hc
    obtain ⟨D2, c2, hS2, hc2, e2⟩ := ih hS1 hc1
    exact ⟨D2, c2, hS2, hc2, e1.trans e2⟩

theorem meaningless_prim {name : Str} (h : Meaningless name) : primOf name = .unknown := by
  refine Decidable.byContradiction fun hu => ?_
  rcases C57_names name hu with h1 | h1 | h1
  · exact h.unknown h1
  · exact h1 h.noDelimiter
  · obtain ⟨c, hc, hc'⟩ := h.visible
    rw [h1 c hc] at hc'
    cases hc'

/-- Definitions before a text. If their names are not those of commands, and the text alone is parsed without errors and does not define the names itself, then the
text yields the same events after the definitions. Only if the text has macros of its own, the limit for expansions may be reached instead. -/
theorem C68_unused_partial (cf : Cfg) (inp t : Str) (Δ : Known) (its : List Item) (hp : Preamble Known.none inp Δ t) (hm : ∀ n, Δ n ≠ none → Meaningless n)
    (hy : Yields cf t its) (hn : NoErr its) (hb : ∀ n, Δ n ≠ none → ¬ Bound cf t its n) :
    Yields cf inp its ∨ (∃ n, Bound cf t its n) ∧ ∃ fs ctx s, fs <+: its ∧ Reached cf inp (fs ++ [.err .macroRecursionLimit ctx]) s := by
  obtain ⟨n, hy⟩ := hy
  obtain ⟨s', he, hs'⟩ := yields_exec hy
  obtain ⟨D', c', hS, hc, hx⟩ := exec_preamble (cf := cf) (c := whole inp) stores_none hp none [] (Spans.init inp) rfl
  have hx : Exec cf (State.init inp) [] ⟨[.sub c' none], [], D', Spans.init inp⟩ := hx
  have hU : Idle D' := fun n h => meaningless_prim (hm n fun h0 => h ((hS n).1.1 h0))
  let s0 : State := ⟨[.sub ⟨0, blen t, c'.cs⟩ none], [], [], Spans.init t⟩
  have h0 : step cf s0 = step cf (State.init t) := by
    have e1 := step_trim (cf := cf) (s := s0) (c := ⟨0, blen t, c'.cs⟩) (A := none) (B := [])
    have e2 := step_trim (cf := cf) (s := s0) (c := ⟨0, blen t, t⟩) (A := none) (B := [])
    dsimp only at e1 e2
    rw [hc] at e1
    exact e1.symm.trans e2
  rcases exec_same h0 he with ⟨-, rfl⟩ | he0
  · cases hs'
  have hw : Wider D' s0 ⟨[.sub c' none], [], D', Spans.init inp⟩ := ⟨rfl, rfl, rfl⟩
  have hcl : Clear D' s'.macros := by
    intro n h
    refine Decidable.byContradiction fun h1 => ?_
    exact hb n (fun h2 => h ((hS n).1.1 h2)) ⟨s', reached_iff.2 he, h1⟩
  rcases (exec_more hU hx (fun _ h => by cases h) hw he0 hn).2 hcl with ⟨t', h1, h2⟩ | ⟨⟨n, h1⟩, fs, ctx, t', h2, h3⟩
  · refine .inl (exec_yields (hx.trans h1) ?_)
    have := h2.stack
    rw [hs'] at this
    exact List.map_eq_nil_iff.1 this
  · exact .inr ⟨⟨n, s', reached_iff.2 he, h1⟩, fs, ctx, t', h2, reached_iff.2 (hx.trans h3)⟩

/-- If moreover the texts lie in memory as in the arena, the limit for expansions is not reached either. -/
theorem C68_unused (cf : Cfg) (inp t : Str) (Δ : Known) (its : List Item) (hl : Stacked cf t) (hl' : Stacked cf inp) (hp : Preamble Known.none inp Δ t)
    (hm : ∀ n, Δ n ≠ none → Meaningless n) (hy : Yields cf t its) (hn : NoErr its) (hb : ∀ n, Δ n ≠ none → ¬ Bound cf t its n) : Yields cf inp its := by
  obtain ⟨n, hy⟩ := hy
  obtain ⟨s', he, hs'⟩ := yields_exec hy
  obtain ⟨D', c', hS, hc, hx⟩ := exec_preamble (cf := cf) (c := whole inp) stores_none hp none [] (Spans.init inp) rfl
  have hx : Exec cf (State.init inp) [] ⟨[.sub c' none], [], D', Spans.init inp⟩ := hx
  have hU : Idle D' := fun n h => meaningless_prim (hm n fun h0 => h ((hS n).1.1 h0))
  have hcl : Clear D' s'.macros := by
    intro n h
    refine Decidable.byContradiction fun h1 => ?_
    exact hb n (fun h2 => h ((hS n).1.1 h2)) ⟨s', reached_iff.2 he, h1⟩
  obtain ⟨t', h1, h2⟩ := exec_roomier_text (c := ⟨0, blen t, t⟩) (D := []) hU hl hl' .init hx hc he hn hs' hcl
  refine exec_yields (hx.trans h1) ?_
  have := h2.stack
  rw [hs'] at this
  exact List.map_eq_nil_iff.1 this

/-- If the text defines nothing, it yields the same events. -/
theorem C68_plain (cf : Cfg) (inp t : Str) (Δ : Known) (its : List Item) (hp : Preamble Known.none inp Δ t) (hm : ∀ n, Δ n ≠ none → Meaningless n)
    (hd : ¬ Defines t) (hy : Yields cf t its) (hn : NoErr its) : Yields cf inp its := by
  have hnone : ∀ n, ¬ Bound cf t its n := by
    rintro n ⟨s, h1, h2⟩
    rw [((reached_iff.1 h1).base.nodef hd).1] at h2
    exact h2 rfl
  rcases C68_unused_partial cf inp t Δ its hp hm hy hn (fun n _ => hnone n) with h | ⟨⟨n, h⟩, -⟩
  · exact h
  · exact absurd h (hnone n)

/-! ### Cases -/

/-- `\def\a#1{#1^2}` before `t`. -/
theorem preamble_square {t : Str} (h : token (c!"\\def\\a#1{#1^2}" ++ t) = .ok (.cs c!"def") (c!"\\a#1{#1^2}" ++ t))
    (hd : DefCommand (c!"\\a#1{#1^2}" ++ t) c!"a" c!"#1" c!"#1^2" t) :
    Preamble Known.none (c!"\\def\\a#1{#1^2}" ++ t) (Known.none.set c!"a" (.plain [] [[]] false c!"#1^2")) t :=
  .cons (.def_ (name := c!"a") (pt := c!"#1") (rt := c!"#1^2") (pre := []) (ds := [[]]) (b := false) (nextTok_cs h) rfl hd
    (.plain (pre := []) (by simp) (.cons (d := []) (s := []) (by omega) (by simp) .nil))
    (.param (i := 1) (by omega) (by decide) (by omega) (.char (by decide) (.char (by decide) .nil)))) .nil

theorem square_names {n : Str} (h : Known.none.set c!"a" (.plain [] [[]] false c!"#1^2") n ≠ none) : n = c!"a" := by
  unfold Known.set at h
  split at h
  · assumption
  · exact absurd rfl h

theorem meaningless_a : Meaningless c!"a" := ⟨by decide +kernel, by decide +kernel, 'a', by simp, by decide⟩

/-- A fraction after a definition. -/
example : Yields cf0 c!"\\def\\a#1{#1^2}\\frac xy" ([.visual (.fraction none), .content (.ordinary 'x' false), .content (.ordinary 'y' false)].map .ok) :=
  C68_plain cf0 _ c!"\\frac xy" _ _ (preamble_square (by decide +kernel) (definition_iff.1 (by decide +kernel))) (fun n h => by rw [square_names h]; exact meaningless_a)
    (by unfold Defines; decide +kernel) ⟨20, by decide +kernel⟩ (by intro i hi; simp at hi; rcases hi with rfl | rfl | rfl <;> exact ⟨_, rfl⟩)

/-- A text with a macro of its own after a definition. -/
example : Yields cf0 c!"\\def\\a#1{#1^2}\\def\\b{y}\\b" [.ok (.content (.ordinary 'y' false))] :=
  C68_unused cf0 _ c!"\\def\\b{y}\\b" _ _ (stacked_of 20 (by decide +kernel) (by decide +kernel)) (stacked_of 30 (by decide +kernel) (by decide +kernel))
    (preamble_square (by decide +kernel) (definition_iff.1 (by decide +kernel))) (fun n h => by rw [square_names h]; exact meaningless_a)
    ⟨20, by decide +kernel⟩ (by intro i hi; simp at hi; subst hi; exact ⟨_, rfl⟩) (by
      rintro n h ⟨s, h1, h2⟩
      rw [square_names h] at h2
      have h3 := reached_visits (n := 20) (by decide +kernel) h1
      have h4 : ∀ s ∈ visits cf0 20 (State.init c!"\\def\\b{y}\\b"), s.macros.get c!"a" = none := by decide +kernel
      exact h2 (h4 s h3))

/-- The conditions are needed. A definition changes a text that uses a command of the same name. It changes a text that defines the name if there is no such macro. It
makes a text fail that defines the name, although the name is not written in the text. -/
theorem C68_false : ([c!"\\alpha", c!"\\providecommand{\\fo}[0]{y}\\fo", c!"\\def\\m#1{\\newcommand{\\f#1}[0]{y}}\\m o"].map fun t => (run cf0 60 (State.init t)).1.map Item.bare) =
      [[.inl (.content (.ordinary 'α' false))], [.inl (.content (.ordinary 'y' false))], []] ∧
    ([c!"\\def\\alpha{x}\\alpha", c!"\\def\\fo{x}\\providecommand{\\fo}[0]{y}\\fo", c!"\\def\\fo{x}\\def\\m#1{\\newcommand{\\f#1}[0]{y}}\\m o"].map fun t => (run cf0 60 (State.init t)).1.map Item.bare) =
      [[.inl (.content (.ordinary 'x' false))], [.inl (.content (.ordinary 'x' false))], [.inr .macroAlreadyDefined, .inl (.content (.delimiter '[' none .open_)), .inl (.content (.number c!"0")),
        .inl (.content (.delimiter ']' none .close)), .inl (.begin_ .normal), .inl (.content (.ordinary 'y' false)), .inl .end_]] ∧
    ¬ c!"\\fo" <:+: c!"\\def\\m#1{\\newcommand{\\f#1}[0]{y}}\\m o" := by
  decide +kernel

end PL.Props
