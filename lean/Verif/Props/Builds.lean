import Verif.Lemmas.Builds
import Verif.Lemmas.Render.Builds
import Verif.Props.Output
import Verif.Props.Recovery
import Verif.Props.Complete
set_option autoImplicit false
/-!
# Builds with and without overflow checks (C66)

`Cfg.overflowChecks` and `RCfg.checks` say whether arithmetic overflow panics, as in a debug build, or wraps, as in a release build.
-/
namespace PL.Props
open PL PL.Lex PL.Mathml Spec

/-- However far the items are taken, both builds give the same and end in the same state; unless the checked build panics with an overflow, and then the
items it has given are the first of the others. -/
theorem C66_items (cf : Cfg) (inp : Str) (n : Nat) :
    run cf n (State.init inp) = run { cf with overflowChecks := false } n (State.init inp) ∨
    ((run cf n (State.init inp)).2 = .panic .overflow ∧
      (run cf n (State.init inp)).1 <+: (run { cf with overflowChecks := false } n (State.init inp)).1) :=
  run_agree cf n (State.init inp)

/-- What the checked build parses to the end, the unchecked build parses to the same items. -/
theorem C66_yields (cf : Cfg) (inp : Str) (its : List Item) (h : Yields cf inp its) : Yields { cf with overflowChecks := false } inp its := by
  obtain ⟨n, hn⟩ := h
  rcases C66_items cf inp n with h | ⟨h, -⟩
  · exact ⟨n, h ▸ hn⟩
  · rw [hn] at h
    cases h

/-- What the unchecked build parses to the end, the checked build parses to the same items, or it panics with an overflow. -/
theorem C66_checked (cf : Cfg) (inp : Str) (its : List Item) (h : Yields { cf with overflowChecks := false } inp its) :
    Yields cf inp its ∨ ∃ first, first <+: its ∧ Panics cf inp first .overflow := by
  obtain ⟨n, hn⟩ := h
  rcases C66_items cf inp n with h | ⟨h, hp⟩
  · exact .inl ⟨n, h.trans hn⟩
  · rw [hn] at hp
    exact .inr ⟨_, hp, n, Prod.ext rfl h⟩

/-- Both builds render the same, to a string or to a writer that fails, unless the checked build panics with an overflow. -/
theorem C66_rendering (cfg : RCfg) (items : List RItem) :
    (∀ target, pushMathml cfg items target = .panic .overflow ∨ pushMathml cfg items target = pushMathml { cfg with checks := false } items target) ∧
    (∀ k, writeMathml cfg items k = .panic .overflow ∨ writeMathml cfg items k = writeMathml { cfg with checks := false } items k) :=
  ⟨fun target => render_agree cfg items target none, fun k => render_agree cfg items [] (some k)⟩

/-- What a build without overflow checks accepts of the regular texts is a text of the grammar, or a build with checks panics on it with an overflow. -/
theorem C61_release (cf : Cfg) (hov : cf.overflowChecks = false) (inp : Str) (hr : Regular inp) (its : List Item) (h : Yields cf inp its) (hn : NoErr its) :
    (∃ ns, Formula inp ns ∧ its = ns.events.map .ok) ∨ ∃ first, first <+: its ∧ Panics { cf with overflowChecks := true } inp first .overflow := by
  have e : cf = { ({ cf with overflowChecks := true } : Cfg) with overflowChecks := false } := by cases cf; simp_all
  rw [e] at h
  rcases C66_checked { cf with overflowChecks := true } inp its h with h | h
  · exact .inl (C61_exact _ rfl inp hr its h hn)
  · exact .inr h

/-! ### Cases -/

/-- A text without large numbers. -/
example : run cf0 40 (State.init c!"\\char65\\begin{alignat}{2}a&b\\end{alignat}") =
    run { cf0 with overflowChecks := false } 40 (State.init c!"\\char65\\begin{alignat}{2}a&b\\end{alignat}") ∧ cf0.overflowChecks = true ∧
    (run cf0 40 (State.init c!"\\char65\\begin{alignat}{2}a&b\\end{alignat}")).2 = .done := by decide +kernel

/-- The second case occurs: the unchecked build takes the number of a character modulo 2⁶⁴, and the number of columns modulo 2¹⁶. -/
theorem C66_wraps :
    run cf0 20 (State.init c!"x\\char18446744073709551681") = ([.ok (.content (.ordinary 'x' false))], .panic .overflow) ∧
    run { cf0 with overflowChecks := false } 20 (State.init c!"x\\char18446744073709551681") =
      ([.ok (.content (.ordinary 'x' false)), .ok (.content (.ordinary 'A' false))], .done) ∧
    (run cf0 20 (State.init c!"\\begin{alignat}{32768}a&b\\end{alignat}")).2 = .panic .overflow ∧
    (run { cf0 with overflowChecks := false } 20 (State.init c!"\\begin{alignat}{32768}a&b\\end{alignat}")).1.map Item.bare =
      [.inl (.begin_ (.alignat 32768 true)), .inl (.content (.ordinary 'a' false)), .inr .alignment, .inl (.content (.ordinary 'b' false)), .inl .end_] := by
  decide +kernel

/-- Both cases of `C61_release` occur. -/
example : Regular c!"x\\char65" ∧ Regular c!"x\\char18446744073709551681" ∧
    run cf1 20 (State.init c!"x\\char65") = run cf0 20 (State.init c!"x\\char65") :=
  ⟨simple_regular (by decide +kernel), simple_regular (by decide +kernel), by decide +kernel⟩

end PL.Props
