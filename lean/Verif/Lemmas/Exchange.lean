import Verif.Lemmas.Swap
import Verif.Lemmas.Wider
set_option autoImplicit false
/-!
# Executions with macros that mean the same
-/
namespace PL
open PL.Lex Spec

variable {cf : Cfg}

/-- The same texts and events up to the places of the texts, and macros that mean the same. -/
structure Instead (cf : Cfg) (x y : HSt) : Prop where
  same : y.er = (swapped (x, y.macros)).er
  macros : Serves cf x.macros y.macros

theorem liftH_instead {x y : HSt} {sp sp' : Spans} {a b : HTok} (h : Instead cf x y) (hab : a.er = b.er) {d : Option Desc} {x1 : PSt}
    (e : liftH (atom cf a) ⟨x, sp⟩ = .ok d x1) : ∃ y1, liftH (atom cf b) ⟨y, sp'⟩ = .ok d y1 ∧ Instead cf x1.h y1.h := by
  dsimp only [liftH] at e ⊢
  cases e1 : atom cf a x with
  | err k s => rw [e1] at e; cases e
  | panic p => rw [e1] at e; cases e
  | ok d' x' =>
    rw [e1] at e
    cases e
    obtain ⟨m1, g, h1⟩ := swap_atom (cf := cf) (s := (x, y.macros)) a h.macros _ _ e1
    have e2 := hom_atom (cf := cf) a (swapped (x, y.macros))
    rw [h1, ← h.same, hab, hom_atom (cf := cf) b y] at e2
    cases e3 : atom cf b y with
    | err k s => rw [e3] at e2; cases e2
    | panic p => rw [e3] at e2; cases e2
    | ok d2 y' =>
      rw [e3] at e2
      have ⟨h3, h4⟩ : d2 = d ∧ y'.er = (swapped (x', m1)).er := by simpa [Res.mapBoth] using e2
      subst h3
      have h5 : y'.macros = m1 := show y'.er.macros = (swapped (x', m1)).er.macros from congrArg HSt.macros h4
      exact ⟨_, rfl, by rw [h5]; exact h4, by rw [h5]; exact g⟩

theorem parseLoop_instead : ∀ (n : Nat) {x y : HSt} {sp sp' : Spans}, Instead cf x y → ∀ {d : Option Desc} {x1 : PSt},
    parseLoop cf n ⟨x, sp⟩ = .ok d x1 → (∃ y1, parseLoop cf n ⟨y, sp'⟩ = .ok d y1 ∧ Instead cf x1.h y1.h) ∨
      (∃ z, parseLoop cf n ⟨y, sp'⟩ = .err .macroRecursionLimit z) ∨ parseLoop cf n ⟨y, sp'⟩ = .panic .assertion
  | 0, x, y, sp, sp', h, d, x1, e => by cases e
  | n + 1, x, y, sp, sp', ⟨h, hS⟩, d, x1, e => by
    obtain ⟨⟨c1, c2, c3⟩, xb, a1, a2, a3, a4, a5, m⟩ := x
    obtain ⟨⟨y1, y2, y3⟩, yb, b1, b2, b3, b4, b5, m'⟩ := y
    simp only [HSt.er, swapped, HSt.mk.injEq, Sl.er, Sl.mk.injEq, true_and] at h
    obtain ⟨rfl, hb, rfl, rfl, rfl, rfl, rfl, -⟩ := h
    have he : ∀ c c' : Sl, c.cs = c'.cs → Instead cf (⟨c, xb, b1, b2, b3, b4, b5, m⟩ : HSt) ⟨c', yb, b1, b2, b3, b4, b5, m'⟩ := by
      intro c c' hc
      refine ⟨?_, hS⟩
      simp only [HSt.er, swapped, Sl.er, hc, hb]
    rw [parseLoop] at e ⊢
    simp only at e ⊢
    cases ht : token y3 with
    | panic p => rw [ht] at e; cases e
    | err k rest =>
      rw [ht] at e
      dsimp only at e ⊢
      split at e
      · rename_i hk
        cases e
        exact .inl ⟨⟨⟨⟨y1, y2, rest⟩, yb, b1, b2, b3, b4, b5, m'⟩, sp'⟩, if_pos hk, he ⟨c1, c2, rest⟩ ⟨y1, y2, rest⟩ rfl⟩
      · cases e
    | ok t rest =>
      rw [ht] at e
      cases t with
      | chr c r =>
        dsimp only at e ⊢
        exact .inl (liftH_instead (sp' := sp') (b := HTok.ofTok ⟨y1, y2, y3⟩ (.chr c r)) (he ⟨c1, c2, rest⟩ ⟨y1, y2, rest⟩ rfl) (by rw [HTok.er_ofTok, HTok.er_ofTok]; rfl) e)
      | cs name =>
        dsimp only at e ⊢
        cases ho : Macros.tryExpand cf m name rest with
        | none =>
          have hg : m.get name = none := by
            unfold Macros.tryExpand at ho
            cases hg : m.get name with
            | none => rfl
            | some df => rw [hg] at ho; cases ho
          have hy : Macros.tryExpand cf m' name rest = none := by unfold Macros.tryExpand; rw [(hS name).1.1 hg]; rfl
          simp only [ho] at e
          simp only [hy]
          exact .inl (liftH_instead (sp' := sp') (b := .cs name) (he ⟨c1, c2, rest⟩ ⟨y1, y2, rest⟩ rfl) rfl e)
        | some o =>
          rw [ho] at e
          cases o with
          | panic p => cases e
          | err k =>
            dsimp only at e
            split at e <;> cases e
          | ok new consumed =>
            obtain ⟨k', hy⟩ := (hS name).2 _ _ _ ho
            rw [hy]
            dsimp only at e ⊢
            split at e
            · cases e
            · by_cases hl' : (decide (sp'.exps.length ≥ maxExpansionDepth) || decide (sp'.total ≥ maxExpansionBytes)) = true
              · rw [if_pos hl']
                exact .inr (.inl ⟨_, rfl⟩)
              · rw [if_neg hl']
                revert e
                generalize Spans.add cf _ _ new ⟨c1, c2, _⟩ _ = o1
                generalize Spans.add cf _ _ new ⟨y1, y2, _⟩ _ = o2
                intro e
                cases o1 with
                | none => cases e
                | some s1 =>
                  cases o2 with
                  | none => exact .inr (.inr rfl)
                  | some s2 => exact parseLoop_instead n (he ⟨sp.nalloc + 1, blen new, new⟩ ⟨sp'.nalloc + 1, blen new, new⟩ rfl) e

/-! ### Steps -/

/-- The same texts and events up to the places of the texts, and macros that mean the same. -/
structure Exchanged (cf : Cfg) (s t : State) : Prop where
  stack : t.stack.map Instr.er = s.stack.map Instr.er
  buf : t.buf.map Instr.er = s.buf.map Instr.er
  macros : Serves cf s.macros t.macros

/-- The same step with other macros. -/
inductive InStep (cf : Cfg) : Step → Step → Prop
  | again {s t} : Exchanged cf s t → InStep cf (.again s) (.again t)
  | item {e s t} : Exchanged cf s t → InStep cf (.item (.ok e) s) (.item (.ok e) t)

theorem step_exchanged {s t : State} (h : Exchanged cf s t) {s' : State} (hst : step cf s = .again s' ∨ ∃ e, step cf s = .item (.ok e) s')
    {j : Str} {its' : List Item} (ht : Exec cf (State.init j) its' t) (hn' : NoErr its') : InStep cf (step cf s) (step cf t) ∨ Formula.Limit cf t := by
  cases hss : s.stack with
  | nil => unfold step at hst; rw [hss] at hst; rcases hst with h1 | ⟨e, h1⟩ <;> cases h1
  | cons x rest =>
    have hm := h.stack
    rw [hss] at hm
    obtain ⟨y, rest', hts, hy, hr'⟩ := instr_map_cons (show t.stack.map Instr.er = x.er :: rest.map Instr.er from hm)
    cases x with
    | ev e =>
      cases y with
      | sub c A => cases hy
      | ev e' =>
        cases hy
        have e1 : step cf s = .item (.ok e) { s with stack := rest } := by unfold step; rw [hss]
        have e2 : step cf t = .item (.ok e) { t with stack := rest' } := by unfold step; rw [hts]
        rw [e1, e2]
        exact .inl (.item ⟨hr', h.buf, h.macros⟩)
    | sub c A =>
      cases y with
      | ev e => cases hy
      | sub c' A' =>
        have hA : A' = A := by injection hy
        subst hA
        have hc : c'.er = c.er := by injection hy
        have hcs : c'.cs = c.cs := show c'.er.cs = c.er.cs from congrArg Sl.cs hc
        by_cases hb : trimStart c.cs = []
        · have e1 : step cf s = .again { s with stack := rest } := by
            unfold step
            rw [hss]
            simp only
            rw [if_pos (by simp [hb])]
          have e2 : step cf t = .again { t with stack := rest' } := by
            unfold step
            rw [hts]
            simp only
            rw [if_pos (by simp [hcs, hb])]
          rw [e1, e2]
          exact .inl (.again ⟨hr', h.buf, h.macros⟩)
        · have hb' : trimStart c'.cs ≠ [] := by rw [hcs]; exact hb
          have e1 := Formula.step_text (cf := cf) hss hb
          have e2 := Formula.step_text (cf := cf) hts hb'
          have hstart : Instead cf (startSt s c A').h (startSt t c' A').h := by
            refine ⟨?_, h.macros⟩
            unfold startSt HSt.er swapped Sl.er
            simp only [h.buf, hcs]
          cases hp : parse cf (startSt s c A') with
          | panic p => rw [hp] at e1; rw [e1] at hst; rcases hst with h1 | ⟨e, h1⟩ <;> cases h1
          | err k st =>
            rw [hp] at e1
            dsimp only at e1
            rw [e1] at hst
            split at hst <;> rcases hst with h1 | ⟨e, h1⟩ <;> cases h1
          | ok d x =>
            have h1 := parseLoop_instead (maxExpansionDepth + 2) (sp := (startSt s c A').sp) (sp' := (startSt t c' A').sp) hstart hp
            rw [hp] at e1
            dsimp only at e1
            cases hu : unstage x.h.buf (.sub x.h.content x.h.align :: rest) d with
            | error p => rw [hu] at e1; rw [e1] at hst; rcases hst with h1 | ⟨e, h1⟩ <;> cases h1
            | ok st =>
              rw [hu] at e1
              dsimp only at e1
              rcases h1 with ⟨y, hp', hxy, hS'⟩ | ⟨z, hp'⟩ | hp'
              · have hp' : parse cf (startSt t c' A') = .ok d y := hp'
                rw [hp'] at e2
                dsimp only at e2
                have a1 : y.h.content.er = x.h.content.er := congrArg HSt.content hxy
                have a2 : y.h.align = x.h.align := show y.h.er.align = (swapped (x.h, y.h.macros)).er.align from congrArg HSt.align hxy
                have a3 : y.h.buf.map Instr.er = x.h.buf.map Instr.er := congrArg HSt.buf hxy
                have m1 := unstage_map x.h.buf (.sub x.h.content x.h.align :: rest) d
                have m2 := unstage_map y.h.buf (.sub y.h.content y.h.align :: rest') d
                have m3 : (Instr.sub x.h.content x.h.align :: rest).map Instr.er = (Instr.sub y.h.content y.h.align :: rest').map Instr.er := by
                  simp [Instr.er, a1, a2, hr']
                rw [← a3, m3, m2, hu] at m1
                cases hu2 : unstage y.h.buf (.sub y.h.content y.h.align :: rest') d with
                | error p => rw [hu2] at m1; cases m1
                | ok st2 =>
                  rw [hu2] at m1 e2
                  have m4 : st2.map Instr.er = st.map Instr.er := by simpa [Except.map] using m1
                  rw [e1, e2]
                  exact .inl (.again ⟨m4, rfl, hS'⟩)
              · refine .inr ?_
                rcases Formula.step_err hts hb' ht.base.calls hp' with h3 | h3
                · exact h3
                · exact absurd rfl (Formula.exec_assertion ht hn' h3).1
              · have hp' : parse cf (startSt t c' A') = .panic .assertion := hp'
                rw [hp'] at e2
                exact absurd rfl (Formula.exec_assertion ht hn' e2).1

/-- Executions without errors are the same with other macros, unless the limit for expansions stops the other one. -/
theorem exec_exchanged {j : Str} {its' es : List Item} {s s' t : State}
    (ht : Exec cf (State.init j) its' t) (hn' : NoErr its') (h : Exchanged cf s t) (he : Exec cf s es s') (hes : NoErr es) :
    (∃ t', Exec cf t es t' ∧ Exchanged cf s' t') ∨ ∃ fs ctx t', fs <+: es ∧ Exec cf t (fs ++ [.err .macroRecursionLimit ctx]) t' := by
  induction he with
  | init => exact .inl ⟨t, .init, h⟩
  | @item es s1 it s2 h1 hst ih =>
    have hes1 : NoErr es := fun x hx => hes x (by simp [hx])
    obtain ⟨e, rfl⟩ := hes it (by simp)
    rcases ih hes1 with ⟨t1, h2, h3⟩ | ⟨fs, ctx, t', h2, h3⟩
    · rcases step_exchanged h3 (.inr ⟨e, hst⟩) (ht.trans h2) (noErr_append.2 ⟨hn', hes1⟩) with h4 | ⟨ctx, u, h4⟩
      · rw [hst] at h4
        generalize hst' : step cf t1 = w at h4
        cases h4 with
        | item hw => exact .inl ⟨_, h2.item hst', hw⟩
      · exact .inr ⟨es, ctx, u, List.prefix_append _ _, h2.item h4⟩
    · exact .inr ⟨fs, ctx, t', h2.trans (List.prefix_append _ _), h3⟩
  | @again es s1 s2 h1 hst ih =>
    rcases ih hes with ⟨t1, h2, h3⟩ | ⟨fs, ctx, t', h2, h3⟩
    · rcases step_exchanged h3 (.inl hst) (ht.trans h2) (noErr_append.2 ⟨hn', hes⟩) with h4 | ⟨ctx, u, h4⟩
      · rw [hst] at h4
        generalize hst' : step cf t1 = w at h4
        cases h4 with
        | again hw => exact .inl ⟨_, h2.again hst', hw⟩
      · exact .inr ⟨es, ctx, u, List.prefix_rfl, h2.item h4⟩
    · exact .inr ⟨fs, ctx, t', h2, h3⟩

end PL
