import Verif.Lemmas.More
import Verif.Lemmas.Shift
set_option autoImplicit false
/-!
# Executions with more macros

Macros whose names mean nothing otherwise, and which the text does not define, are never called by a text that is parsed without errors.
-/
namespace PL
open PL.Lex Spec

variable {cf : Cfg} {M' : Macros.Ctx}

/-- The names mean nothing to the parser. -/
def Idle (M' : Macros.Ctx) : Prop := ∀ n, M'.get n ≠ none → primOf n = .unknown

theorem liftH_more {x y : HSt} {sp sp' : Spans} {a b : HTok} (h : y.er = (x.plus M').er) (hab : a.er = b.er) {d : Option Desc} {x1 : PSt}
    (e : liftH (atom cf a) ⟨x, sp⟩ = .ok d x1) : Grows x.macros x1.h.macros ∧ (Clear M' x1.h.macros →
      ∃ y1, liftH (atom cf b) ⟨y, sp'⟩ = .ok d y1 ∧ y1.h.er = (x1.h.plus M').er) := by
  dsimp only [liftH] at e ⊢
  cases e1 : atom cf a x with
  | err k s => rw [e1] at e; cases e
  | panic p => rw [e1] at e; cases e
  | ok d' x' =>
    rw [e1] at e
    cases e
    obtain ⟨g, h1⟩ := more_atom (M' := M') (cf := cf) a _ _ e1
    refine ⟨g, fun hc => ?_⟩
    have e2 := hom_atom (cf := cf) a (x.plus M')
    rw [h1 hc, ← h, hab, hom_atom (cf := cf) b y] at e2
    cases e3 : atom cf b y with
    | err k s => rw [e3] at e2; cases e2
    | panic p => rw [e3] at e2; cases e2
    | ok d2 y' =>
      rw [e3] at e2
      have ⟨h3, h4⟩ : d2 = d ∧ y'.er = (x'.plus M').er := by simpa [Res.mapBoth] using e2
      subst h3
      exact ⟨_, rfl, h4⟩

theorem atom_unknown {name : Str} (h : primOf name = .unknown) (x : HSt) : ∃ s, atom cf (.cs name) x = .err .unknownPrimitive s := by
  refine ⟨x, ?_⟩
  have : handleToken cf (tokenFuel x.content) (.cs name) x = .err .unknownPrimitive x := by
    show execPrim cf _ (primOf name) x = _
    rw [h]; rfl
  unfold atom
  rw [M.run_bind]
  show ((handleToken cf (tokenFuel x.content) (.cs name) >>= fun _ => _) x : Res HSt (Option Desc)) = _
  rw [M.run_bind, this]

theorem parseLoop_more (hU : Idle M') : ∀ (n : Nat) {x y : HSt} {sp sp' : Spans}, y.er = (x.plus M').er → ∀ {d : Option Desc} {x1 : PSt},
    parseLoop cf n ⟨x, sp⟩ = .ok d x1 → Grows x.macros x1.h.macros ∧ (Clear M' x1.h.macros →
      (∃ y1, parseLoop cf n ⟨y, sp'⟩ = .ok d y1 ∧ y1.h.er = (x1.h.plus M').er) ∨
      (∃ n, x.macros.get n ≠ none) ∧ ((∃ z, parseLoop cf n ⟨y, sp'⟩ = .err .macroRecursionLimit z) ∨ parseLoop cf n ⟨y, sp'⟩ = .panic .assertion))
  | 0, x, y, sp, sp', h, d, x1, e => by cases e
  | n + 1, x, y, sp, sp', h, d, x1, e => by
    obtain ⟨⟨c1, c2, c3⟩, xb, a1, a2, a3, a4, a5, m⟩ := x
    obtain ⟨⟨y1, y2, y3⟩, yb, b1, b2, b3, b4, b5, m'⟩ := y
    simp only [HSt.er, HSt.plus, HSt.mk.injEq, Sl.er, Sl.mk.injEq, true_and] at h
    obtain ⟨rfl, hb, rfl, rfl, rfl, rfl, rfl, rfl⟩ := h
    have he : ∀ c c' : Sl, c.cs = c'.cs → (⟨c', yb, b1, b2, b3, b4, b5, m ++ M'⟩ : HSt).er = ((⟨c, xb, b1, b2, b3, b4, b5, m⟩ : HSt).plus M').er := by
      intro c c' hc
      simp only [HSt.er, HSt.plus, Sl.er, hc, hb]
    rw [parseLoop] at e ⊢
    simp only at e ⊢
    cases ht : token y3 with
    | panic p => rw [ht] at e; cases e
    | err k rest =>
      rw [ht] at e
      dsimp only at e ⊢
      split at e
      · rename_i hk
        cases e
        exact ⟨.rfl', fun _ => .inl ⟨⟨⟨⟨y1, y2, rest⟩, yb, b1, b2, b3, b4, b5, m ++ M'⟩, sp'⟩, if_pos hk, he ⟨c1, c2, rest⟩ ⟨y1, y2, rest⟩ rfl⟩⟩
      · cases e
    | ok t rest =>
      rw [ht] at e
      cases t with
      | chr c r =>
        dsimp only at e ⊢
        obtain ⟨g, h1⟩ := liftH_more (sp' := sp') (b := HTok.ofTok ⟨y1, y2, y3⟩ (.chr c r)) (he ⟨c1, c2, rest⟩ ⟨y1, y2, rest⟩ rfl) (by rw [HTok.er_ofTok, HTok.er_ofTok]; rfl) e
        exact ⟨g, fun hc => .inl (h1 hc)⟩
      | cs name =>
        dsimp only at e ⊢
        cases hg : m.get name with
        | none =>
          have hx : Macros.tryExpand cf m name rest = none := by unfold Macros.tryExpand; rw [hg]; rfl
          simp only [hx] at e
          cases hg' : M'.get name with
          | some df =>
            exfalso
            obtain ⟨s, h1⟩ := atom_unknown (cf := cf) (hU name (by rw [hg']; simp)) _
            simp only [liftH, HTok.ofTok] at e
            rw [h1] at e
            cases e
          | none =>
            have hy : Macros.tryExpand cf (m ++ M') name rest = none := by unfold Macros.tryExpand; rw [get_append, hg, hg']; rfl
            simp only [hy]
            obtain ⟨g, h1⟩ := liftH_more (sp' := sp') (b := .cs name) (he ⟨c1, c2, rest⟩ ⟨y1, y2, rest⟩ rfl) rfl e
            exact ⟨g, fun hc => .inl (h1 hc)⟩
        | some df =>
          have hy : Macros.tryExpand cf (m ++ M') name rest = Macros.tryExpand cf m name rest := by
            unfold Macros.tryExpand; rw [get_append, hg]; rfl
          rw [hy]
          have hm : ∃ n, m.get n ≠ none := ⟨name, by rw [hg]; simp⟩
          cases ho : Macros.tryExpand cf m name rest with
          | none => unfold Macros.tryExpand at ho; rw [hg] at ho; cases ho
          | some o =>
            rw [ho] at e
            cases o with
            | panic p => cases e
            | err k =>
              dsimp only at e
              split at e <;> cases e
            | ok new consumed =>
              dsimp only at e ⊢
              split at e
              · cases e
              · by_cases hl' : (decide (sp'.exps.length ≥ maxExpansionDepth) || decide (sp'.total ≥ maxExpansionBytes)) = true
                · rw [if_pos hl']
                  revert e
                  generalize Spans.add cf _ _ new ⟨c1, c2, _⟩ _ = o1
                  intro e
                  cases o1 with
                  | none => cases e
                  | some s1 => exact ⟨(parseLoop_more hU n (sp' := sp') (he _ _ rfl) e).1, fun _ => .inr ⟨hm, .inl ⟨_, rfl⟩⟩⟩
                · rw [if_neg hl']
                  revert e
                  generalize Spans.add cf _ _ new ⟨c1, c2, _⟩ _ = o1
                  generalize Spans.add cf _ _ new ⟨y1, y2, _⟩ _ = o2
                  intro e
                  cases o1 with
                  | none => cases e
                  | some s1 =>
                    cases o2 with
                    | none => exact ⟨(parseLoop_more hU n (sp' := sp') (he _ _ rfl) e).1, fun _ => .inr ⟨hm, .inr rfl⟩⟩
                    | some s2 => exact parseLoop_more hU n (he ⟨sp.nalloc + 1, blen new, new⟩ ⟨sp'.nalloc + 1, blen new, new⟩ rfl) e

/-! ### Steps -/

/-- The same texts and events up to the places of the texts, and more macros. -/
structure Wider (M' : Macros.Ctx) (s t : State) : Prop where
  stack : t.stack.map Instr.er = s.stack.map Instr.er
  buf : t.buf.map Instr.er = s.buf.map Instr.er
  macros : t.macros = s.macros ++ M'

/-- The same step with more macros. -/
inductive Likewise (M' : Macros.Ctx) : Step → Step → Prop
  | again {s t} : Wider M' s t → Likewise M' (.again s) (.again t)
  | item {e s t} : Wider M' s t → Likewise M' (.item (.ok e) s) (.item (.ok e) t)

theorem step_more (hU : Idle M') {s t : State} (h : Wider M' s t) {s' : State} (hst : step cf s = .again s' ∨ ∃ e, step cf s = .item (.ok e) s') :
    Grows s.macros s'.macros ∧ (∀ j its', Exec cf (State.init j) its' t → NoErr its' → Clear M' s'.macros →
      Likewise M' (step cf s) (step cf t) ∨ (∃ n, s.macros.get n ≠ none) ∧ Formula.Limit cf t) := by
  cases hss : s.stack with
  | nil => unfold step at hst; rw [hss] at hst; rcases hst with h1 | ⟨e, h1⟩ <;> cases h1
  | cons x rest =>
    have hm := h.stack
    rw [hss] at hm
    obtain ⟨y, rest', hts, hy, hr'⟩ := instr_map_cons (show t.stack.map Instr.er = x.er :: rest.map Instr.er from hm)
    cases x with
    | ev e =>
      cases y with
      | sub c A => cases hy
      | ev e' =>
        cases hy
        have e1 : step cf s = .item (.ok e) { s with stack := rest } := by unfold step; rw [hss]
        have e2 : step cf t = .item (.ok e) { t with stack := rest' } := by unfold step; rw [hts]
        rw [e1] at hst
        rcases hst with h1 | ⟨e, h1⟩ <;> cases h1
        refine ⟨.rfl', fun _ _ _ _ _ => .inl ?_⟩
        rw [e1, e2]
        exact .item ⟨hr', h.buf, h.macros⟩
    | sub c A =>
      cases y with
      | ev e => cases hy
      | sub c' A' =>
        have hA : A' = A := by injection hy
        subst hA
        have hc : c'.er = c.er := by injection hy
        have hcs : c'.cs = c.cs := show c'.er.cs = c.er.cs from congrArg Sl.cs hc
        by_cases hb : trimStart c.cs = []
        · have e1 : step cf s = .again { s with stack := rest } := by
            unfold step
            rw [hss]
            simp only
            rw [if_pos (by simp [hb])]
          have e2 : step cf t = .again { t with stack := rest' } := by
            unfold step
            rw [hts]
            simp only
            rw [if_pos (by simp [hcs, hb])]
          rw [e1] at hst
          rcases hst with h1 | ⟨e, h1⟩ <;> cases h1
          refine ⟨.rfl', fun _ _ _ _ _ => .inl ?_⟩
          rw [e1, e2]
          exact .again ⟨hr', h.buf, h.macros⟩
        · have hb' : trimStart c'.cs ≠ [] := by rw [hcs]; exact hb
          have e1 := Formula.step_text (cf := cf) hss hb
          have e2 := Formula.step_text (cf := cf) hts hb'
          have hstart : (startSt t c' A').h.er = ((startSt s c A').h.plus M').er := by
            unfold startSt HSt.er HSt.plus Sl.er
            simp only [h.buf, h.macros, hcs]
          cases hp : parse cf (startSt s c A') with
          | panic p => rw [hp] at e1; rw [e1] at hst; rcases hst with h1 | ⟨e, h1⟩ <;> cases h1
          | err k st =>
            rw [hp] at e1
            dsimp only at e1
            rw [e1] at hst
            split at hst <;> rcases hst with h1 | ⟨e, h1⟩ <;> cases h1
          | ok d x =>
            obtain ⟨g, h1⟩ := parseLoop_more hU (maxExpansionDepth + 2) (sp := (startSt s c A').sp) (sp' := (startSt t c' A').sp) hstart hp
            rw [hp] at e1
            dsimp only at e1
            cases hu : unstage x.h.buf (.sub x.h.content x.h.align :: rest) d with
            | error p => rw [hu] at e1; rw [e1] at hst; rcases hst with h1 | ⟨e, h1⟩ <;> cases h1
            | ok st =>
              rw [hu] at e1
              dsimp only at e1
              rw [e1] at hst
              rcases hst with h2 | ⟨e, h2⟩ <;> cases h2
              refine ⟨g, fun j its' ht hn' hcl => ?_⟩
              rcases h1 hcl with ⟨y, hp', hxy⟩ | ⟨hm, ⟨z, hp'⟩ | hp'⟩
              · have hp' : parse cf (startSt t c' A') = .ok d y := hp'
                rw [hp'] at e2
                dsimp only at e2
                have a1 : y.h.content.er = x.h.content.er := congrArg HSt.content hxy
                have a2 : y.h.align = x.h.align := show y.h.er.align = (x.h.plus M').er.align from congrArg HSt.align hxy
                have a3 : y.h.buf.map Instr.er = x.h.buf.map Instr.er := congrArg HSt.buf hxy
                have a4 : y.h.macros = x.h.macros ++ M' := show y.h.er.macros = (x.h.plus M').er.macros from congrArg HSt.macros hxy
                have m1 := unstage_map x.h.buf (.sub x.h.content x.h.align :: rest) d
                have m2 := unstage_map y.h.buf (.sub y.h.content y.h.align :: rest') d
                have m3 : (Instr.sub x.h.content x.h.align :: rest).map Instr.er = (Instr.sub y.h.content y.h.align :: rest').map Instr.er := by
                  simp [Instr.er, a1, a2, hr']
                rw [← a3, m3, m2, hu] at m1
                cases hu2 : unstage y.h.buf (.sub y.h.content y.h.align :: rest') d with
                | error p => rw [hu2] at m1; cases m1
                | ok st2 =>
                  rw [hu2] at m1 e2
                  have m4 : st2.map Instr.er = st.map Instr.er := by simpa [Except.map] using m1
                  rw [e1, e2]
                  exact .inl (.again ⟨m4, rfl, a4⟩)
              · refine .inr ⟨hm, ?_⟩
                rcases Formula.step_err hts hb' ht.base.calls hp' with h3 | h3
                · exact h3
                · exact absurd rfl (Formula.exec_assertion ht hn' h3).1
              · have hp' : parse cf (startSt t c' A') = .panic .assertion := hp'
                rw [hp'] at e2
                exact absurd rfl (Formula.exec_assertion ht hn' e2).1

theorem step_grows {s s' : State} (hst : step cf s = .again s' ∨ ∃ e, step cf s = .item (.ok e) s') : Grows s.macros s'.macros :=
  (step_more (M' := []) (fun _ h => absurd rfl h) ⟨rfl, rfl, by simp⟩ hst).1

/-- Executions without errors are the same with more macros, unless the limit for expansions stops the other one. -/
theorem exec_more (hU : Idle M') {j : Str} {its' es : List Item} {s s' t : State}
    (ht : Exec cf (State.init j) its' t) (hn' : NoErr its') (h : Wider M' s t) (he : Exec cf s es s') (hes : NoErr es) :
    Grows s.macros s'.macros ∧ (Clear M' s'.macros → (∃ t', Exec cf t es t' ∧ Wider M' s' t') ∨
      (∃ n, s'.macros.get n ≠ none) ∧ ∃ fs ctx t', fs <+: es ∧ Exec cf t (fs ++ [.err .macroRecursionLimit ctx]) t') := by
  induction he with
  | init => exact ⟨.rfl', fun _ => .inl ⟨t, .init, h⟩⟩
  | @item es s1 it s2 h1 hst ih =>
    have hes1 : NoErr es := fun x hx => hes x (by simp [hx])
    obtain ⟨e, rfl⟩ := hes it (by simp)
    obtain ⟨g1, ih⟩ := ih hes1
    have g2 : Grows s1.macros s2.macros := step_grows (.inr ⟨e, hst⟩)
    refine ⟨g1.trans g2, fun hc => ?_⟩
    rcases ih (hc.back g2) with ⟨t1, h2, h3⟩ | ⟨⟨n, hx⟩, fs, ctx, t', h2, h3⟩
    · obtain ⟨g2, h4⟩ := step_more hU h3 (.inr ⟨e, hst⟩)
      rcases h4 _ _ (ht.trans h2) (noErr_append.2 ⟨hn', hes1⟩) hc with h4 | ⟨⟨n, hx⟩, ctx, u, h4⟩
      · rw [hst] at h4
        generalize hst' : step cf t1 = w at h4
        cases h4 with
        | item hw => exact .inl ⟨_, h2.item hst', hw⟩
      · exact .inr ⟨⟨n, g2 n hx⟩, es, ctx, u, List.prefix_append _ _, h2.item h4⟩
    · exact .inr ⟨⟨n, g2 n hx⟩, fs, ctx, t', h2.trans (List.prefix_append _ _), h3⟩
  | @again es s1 s2 h1 hst ih =>
    obtain ⟨g1, ih⟩ := ih hes
    have g2 : Grows s1.macros s2.macros := step_grows (.inl hst)
    refine ⟨g1.trans g2, fun hc => ?_⟩
    rcases ih (hc.back g2) with ⟨t1, h2, h3⟩ | ⟨⟨n, hx⟩, fs, ctx, t', h2, h3⟩
    · obtain ⟨g2, h4⟩ := step_more hU h3 (.inl hst)
      rcases h4 _ _ (ht.trans h2) (noErr_append.2 ⟨hn', hes⟩) hc with h4 | ⟨⟨n, hx⟩, ctx, u, h4⟩
      · rw [hst] at h4
        generalize hst' : step cf t1 = w at h4
        cases h4 with
        | again hw => exact .inl ⟨_, h2.again hst', hw⟩
      · exact .inr ⟨⟨n, g2 n hx⟩, es, ctx, u, List.prefix_rfl, h2.item h4⟩
    · exact .inr ⟨⟨n, g2 n hx⟩, fs, ctx, t', h2, h3⟩

end PL
