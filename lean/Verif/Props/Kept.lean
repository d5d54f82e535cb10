import Verif.Lemmas.Render.Takes
import Verif.Props.Output
set_option autoImplicit false
/-!
# Nothing is lost in the rendering (C70)
-/
namespace PL.Props
open PL PL.Mathml Spec

theorem kept_loop (cfg : RCfg) : ∀ (n : Nat) (s : RSt) (a : PUnit) (s' : RSt), s.budget = none → mainLoop cfg n s = .ok a s' →
    ∃ t, Between s s' (s.peeked ++ s.rest) t ∧ InOrder (s.peeked ++ s.rest) t
  | 0, s, a, s', _, e => by cases e
  | n + 1, s, a, s', hb, e => by
    unfold mainLoop at e
    obtain ⟨o, s1, e1, e2⟩ := ok_bind e
    have hn : o = none ∧ s1 = s ∧ s.peeked ++ s.rest = [] ∨
        ∃ i, o = some i ∧ s1.budget = none ∧ s1.out = s.out ∧ s.peeked ++ s.rest = i :: (s1.peeked ++ s1.rest) := by
      unfold next at e1
      cases hp : s.peeked with
      | cons i p =>
        rw [hp] at e1
        cases e1
        exact .inr ⟨i, rfl, hb, rfl, rfl⟩
      | nil =>
        rw [hp] at e1
        cases hr : s.rest with
        | cons i r =>
          rw [hr] at e1
          cases e1
          exact .inr ⟨i, rfl, hb, rfl, by simp⟩
        | nil =>
          rw [hr] at e1
          cases e1
          exact .inl ⟨rfl, rfl, rfl⟩
    rcases hn with ⟨rfl, rfl, h0⟩ | ⟨i, rfl, hb1, ho, hi⟩
    · cases e2
      rw [h0]
      exact ⟨[], ⟨hb, by simp, by simp⟩, .nil _⟩
    · obtain ⟨_, s2, e3, e4⟩ := ok_bind e2
      obtain ⟨_, s3, e5, e6⟩ := ok_bind e4
      obtain ⟨_, s4, e7, e8⟩ := ok_bind e6
      cases e5
      obtain ⟨d, t, h1, h2⟩ := keeps_event cfg i s1 _ s2 hb1 e3
      obtain ⟨g1, -, g3, u, g4, -⟩ := (tells_closeLoop _).run s2 _ s4 h1.budget e7
      obtain ⟨v, k1, k2⟩ := kept_loop cfg n s4 a s' g1 e8
      have e0 : s.peeked ++ s.rest = (i :: d) ++ (s4.peeked ++ s4.rest) := by rw [hi, h1.items, g3]; rfl
      refine ⟨t ++ u ++ v, ⟨k1.budget, ?_, ?_⟩, ?_⟩
      · have h5 : s'.peeked ++ s'.rest = [] := by simpa using k1.items
        rw [h5, List.append_nil]
      · rw [k1.out, g4, h1.out, ho, List.append_assoc, List.append_assoc, List.append_assoc]
      · rw [e0]
        exact (h2.more u).append k2

/-- Whatever is rendered, balanced or not, with errors or without: if rendering returns, every content, group, script, root, fraction and space and
every error message appears in the output, in the order of the items. -/
theorem C70_kept (cfg : RCfg) (items : List RItem) (target text : Str) (h : pushMathml cfg items target = .ok text) :
    ∃ t, text = target ++ t ∧ InOrder items t := by
  simp only [pushMathml, render, write_none cfg (initSt items target none) rfl] at h
  cases e : inner cfg (core (initSt items target none)) with
  | io w => rw [e] at h; cases h
  | panic p => rw [e] at h; cases h
  | ok a d =>
    rw [e] at h
    cases h
    unfold inner at e
    obtain ⟨s, s1, e1, e2⟩ := ok_bind e
    cases e1
    obtain ⟨_, s2, e3, e4⟩ := ok_bind e2
    obtain ⟨t, h1, h2⟩ := kept_loop cfg _ _ _ s2 rfl e3
    have rest : Tells (do
        if (← W.get).recov then cleanup (← W.get).env
        let s ← W.get
        if !s.env.isEmpty || s.sts.length ≠ 1 then
          cleanup s.env
          W.modify fun s => { s with sts := s.sts.drop (s.sts.length - 1) } : W PUnit) Any := by
      have := tells_cleanup
      repeat' with_reducible first | exact this _ | tells1
    obtain ⟨-, -, -, u, g4, -⟩ := rest.run s2 a d h1.budget e4
    refine ⟨frameStart cfg ++ (t ++ u) ++ frameEnd cfg, ?_, ?_⟩
    · rw [g4, h1.out]
      simp [core, initSt]
    · exact ((h2.more u).before _).more _

/-- The condition says something: a text without one of the characters of a message does not show the error. -/
theorem C70_needed (c : Char) (m : Str) (t : Str) (hm : c ∈ m) (ht : c ∉ t) : ¬ InOrder [.err m] t := by
  intro h
  cases h with
  | cons u hx _ =>
    obtain ⟨k, rfl⟩ := hx
    exact ht (by simp [hm])

/-- An example in which the error is inside a fraction that is never finished, and the group is never closed. -/
example : ∃ t, pushMathml rc0 [.ok (.begin_ .normal), .ok (.visual (.fraction none)), .ok (.content (.number c!"12")), .err c!"oops",
    .ok (.visual .negation), .ok (.content (.relation '=' none false))] [] = .ok t ∧
    t = c!"<math display=\"inline\"><mrow><mfrac><mn>12</mn><merror style=\"border-color: #b22222\"><mtext>oops</mtext></merror></mfrac><mo>≠</mo></math>" :=
  ⟨_, by decide +kernel, rfl⟩

end PL.Props
