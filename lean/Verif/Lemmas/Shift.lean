import Verif.Lemmas.Frame
import Verif.Lemmas.Formula.Steps
set_option autoImplicit false
/-!
# Executions depend on the texts only, with definitions

Where texts are stored, and what was expanded before, matters for the limit for expansions only, as long as there is no error.
-/
namespace PL
open PL.Lex Spec

variable {cf : Cfg}

/-- The same outcome up to the places of texts, or one of the two stops at the limit for expansions or does not find the place of a call. -/
inductive PSim : Res PSt (Option Desc) → Res PSt (Option Desc) → Prop
  | ok {d x y} : x.h.er = y.h.er → PSim (.ok d x) (.ok d y)
  | err {e x y} : x.h.er = y.h.er → PSim (.err e x) (.err e y)
  | panic {p} : PSim (.panic p) (.panic p)
  | limitLeft {x r} : PSim (.err .macroRecursionLimit x) r
  | limitRight {x r} : PSim r (.err .macroRecursionLimit x)
  | lostLeft {r} : PSim (.panic .assertion) r
  | lostRight {r} : PSim r (.panic .assertion)

theorem liftH_sim {x y : HSt} {sp sp' : Spans} {a b : HTok} (h : x.er = y.er) (hab : a.er = b.er) :
    PSim (liftH (atom cf a) ⟨x, sp⟩) (liftH (atom cf b) ⟨y, sp'⟩) := by
  have e1 := hom_atom (cf := cf) a x
  have e2 := hom_atom (cf := cf) b y
  rw [h, hab, e2] at e1
  dsimp only [liftH]
  cases h1 : atom cf a x with
  | ok d x' =>
    rw [h1] at e1
    cases h2 : atom cf b y with
    | ok d' y' =>
      rw [h2] at e1
      have ⟨h3, h4⟩ : d' = d ∧ y'.er = x'.er := by simpa [Res.mapBoth] using e1
      subst h3
      exact .ok h4.symm
    | err a b => rw [h2] at e1; cases e1
    | panic p => rw [h2] at e1; cases e1
  | err e x' =>
    rw [h1] at e1
    cases h2 : atom cf b y with
    | err e' y' =>
      rw [h2] at e1
      have ⟨h3, h4⟩ : e' = e ∧ y'.er = x'.er := by simpa [Res.mapBoth] using e1
      subst h3
      exact .err h4.symm
    | ok a b => rw [h2] at e1; cases e1
    | panic p => rw [h2] at e1; cases e1
  | panic p =>
    rw [h1] at e1
    cases h2 : atom cf b y with
    | panic q =>
      rw [h2] at e1
      have : q = p := by simpa [Res.mapBoth] using e1
      subst this
      exact .panic
    | ok a b => rw [h2] at e1; cases e1
    | err a b => rw [h2] at e1; cases e1

theorem parseLoop_sim : ∀ (n : Nat) {x y : HSt} {sp sp' : Spans}, x.er = y.er → PSim (parseLoop cf n ⟨x, sp⟩) (parseLoop cf n ⟨y, sp'⟩)
  | 0, x, y, sp, sp', h => .panic
  | n + 1, x, y, sp, sp', h => by
    obtain ⟨⟨x1, x2, x3⟩, xb, a1, a2, a3, a4, a5, m⟩ := x
    obtain ⟨⟨y1, y2, y3⟩, yb, b1, b2, b3, b4, b5, m'⟩ := y
    simp only [HSt.er, HSt.mk.injEq, Sl.er, Sl.mk.injEq, true_and] at h
    obtain ⟨rfl, hb, rfl, rfl, rfl, rfl, rfl, rfl⟩ := h
    have he : ∀ c c' : Sl, c.cs = c'.cs → (⟨c, xb, a1, a2, a3, a4, a5, m⟩ : HSt).er = (⟨c', yb, a1, a2, a3, a4, a5, m⟩ : HSt).er := by
      intro c c' hc
      simp only [HSt.er, Sl.er, hc, hb]
    rw [parseLoop]
    simp only
    cases token x3 with
    | panic p => exact .panic
    | err e rest =>
      dsimp only
      split
      · exact .ok (he _ _ rfl)
      · exact .err (he _ _ rfl)
    | ok t rest =>
      cases t with
      | chr c r => exact liftH_sim (he _ _ rfl) (by rw [HTok.er_ofTok, HTok.er_ofTok]; rfl)
      | cs name =>
        dsimp only
        cases Macros.tryExpand cf m name rest with
        | none => exact liftH_sim (he _ _ rfl) rfl
        | some o =>
          cases o with
          | panic p => exact .panic
          | err e =>
            dsimp only
            split
            · exact .limitLeft
            · split
              · exact .limitRight
              · exact .err (he _ _ rfl)
          | ok new consumed =>
            dsimp only
            by_cases hl : (decide (sp.exps.length ≥ maxExpansionDepth) || decide (sp.total ≥ maxExpansionBytes)) = true
            · rw [if_pos hl]
              exact .limitLeft
            · rw [if_neg hl]
              by_cases hl' : (decide (sp'.exps.length ≥ maxExpansionDepth) || decide (sp'.total ≥ maxExpansionBytes)) = true
              · rw [if_pos hl']
                exact .limitRight
              · rw [if_neg hl']
                generalize Spans.add cf _ _ new ⟨x1, x2, _⟩ _ = o1
                generalize Spans.add cf _ _ new ⟨y1, y2, _⟩ _ = o2
                cases o1 with
                | none => exact .lostLeft
                | some s1 =>
                  cases o2 with
                  | none => exact .lostRight
                  | some s2 => exact parseLoop_sim n (he _ _ rfl)

/-! ### Steps -/

/-- The same texts, events and macros up to the places of the texts, with more below. -/
structure Twin (B : List Instr) (s t : State) : Prop where
  stack : ∃ top, t.stack = top ++ B ∧ s.stack.map Instr.er = top.map Instr.er
  buf : s.buf.map Instr.er = t.buf.map Instr.er
  macros : s.macros = t.macros

theorem Twin.start {B : List Instr} {s t : State} {c c' : Sl} {A : Option AlignCount} (h : Twin B s t) (hc : c.cs = c'.cs) : (startSt s c A).h.er = (startSt t c' A).h.er := by
  unfold startSt HSt.er Sl.er
  simp only [h.buf, h.macros, hc]

theorem er_map_append {x : List Instr} {y B : List Instr} (h : x.map Instr.er = y.map Instr.er) : (x ++ B).map Instr.er = (y ++ B).map Instr.er := by
  rw [List.map_append, List.map_append, h]

/-- What the twin does, when the state takes a step. -/
theorem step_twin {B : List Instr} {i j : Str} {its its' : List Item} {s t : State} (hs : Exec cf (State.init i) its s) (hn : NoErr its)
    (ht : Exec cf (State.init j) its' t) (hn' : NoErr its') (h : Twin B s t) (hne : s.stack ≠ []) :
    Formula.Limit cf s ∨ Formula.Limit cf t ∨ match step cf s with
      | .done => False
      | .panic p => step cf t = .panic p
      | .again s' => ∃ t', step cf t = .again t' ∧ Twin B s' t'
      | .item (.ok e) s' => ∃ t', step cf t = .item (.ok e) t' ∧ Twin B s' t'
      | .item (.err k _) _ => ∃ ctx t', step cf t = .item (.err k ctx) t' := by
  obtain ⟨top, hts, her⟩ := h.stack
  cases hss : s.stack with
  | nil => exact absurd hss hne
  | cons x rest =>
    obtain ⟨y, rest', rfl, hy, hr'⟩ := instr_map_cons (show top.map Instr.er = x.er :: rest.map Instr.er by rw [← her, hss]; rfl)
    cases x with
    | ev e =>
      cases y with
      | sub c A => cases hy
      | ev e' =>
        cases hy
        refine .inr (.inr ?_)
        unfold step
        rw [hss, hts]
        exact ⟨_, rfl, ⟨rest', rfl, hr'.symm⟩, h.buf, h.macros⟩
    | sub c A =>
      cases y with
      | ev e => cases hy
      | sub c' A' =>
        have hA : A' = A := by injection hy
        subst hA
        have hc : c'.er = c.er := by injection hy
        have hcs : c'.cs = c.cs := show c'.er.cs = c.er.cs from congrArg Sl.cs hc
        by_cases hb : trimStart c.cs = []
        · refine .inr (.inr ?_)
          have e1 : step cf s = .again { s with stack := rest } := by
            unfold step
            rw [hss]
            simp only
            rw [if_pos (by simp [hb])]
          have e2 : step cf t = .again { t with stack := rest' ++ B } := by
            unfold step
            rw [hts]
            simp only [List.cons_append]
            rw [if_pos (by simp [hcs, hb])]
          rw [e1]
          exact ⟨_, e2, ⟨rest', rfl, hr'.symm⟩, h.buf, h.macros⟩
        · have hb' : trimStart c'.cs ≠ [] := by rw [hcs]; exact hb
          have hts' : t.stack = .sub c' A' :: (rest' ++ B) := hts
          have e1 := Formula.step_text (cf := cf) hss hb
          have e2 := Formula.step_text (cf := cf) hts' hb'
          have hsim : PSim (parse cf (startSt s c A')) (parse cf (startSt t c' A')) := parseLoop_sim (cf := cf) (maxExpansionDepth + 2) (h.start hcs.symm)
          have errL : ∀ {k x}, parse cf (startSt s c A') = .err k x → ∃ ctx s', step cf s = .item (.err k ctx) s' := by
            intro k x e
            rcases Formula.step_err hss hb hs.base.calls e with h1 | h1
            · exact h1
            · exact absurd rfl (Formula.exec_assertion hs hn h1).1
          have errR : ∀ {k x}, parse cf (startSt t c' A') = .err k x → ∃ ctx s', step cf t = .item (.err k ctx) s' := by
            intro k x e
            rcases Formula.step_err hts' hb' ht.base.calls e with h1 | h1
            · exact h1
            · exact absurd rfl (Formula.exec_assertion ht hn' h1).1
          generalize hr1 : parse cf (startSt s c A') = r1 at hsim
          generalize hr2 : parse cf (startSt t c' A') = r2 at hsim
          cases hsim with
          | limitLeft => exact .inl (errL hr1)
          | limitRight => exact .inr (.inl (errR hr2))
          | lostLeft =>
            rw [hr1] at e1
            exact absurd rfl (Formula.exec_assertion hs hn e1).1
          | lostRight =>
            rw [hr2] at e2
            exact absurd rfl (Formula.exec_assertion ht hn' e2).1
          | panic =>
            rw [hr1] at e1
            rw [hr2] at e2
            rw [e1]
            exact .inr (.inr e2)
          | err =>
            obtain ⟨ctx, s', h1⟩ := errL hr1
            rw [h1]
            exact .inr (.inr (errR hr2))
          | @ok d x y hxy =>
            obtain ⟨pre1, u1⟩ : ∃ st, unstage x.h.buf (.sub x.h.content x.h.align :: rest) d = .ok st := by
              obtain ⟨pre, h1⟩ := Formula.step_ok hss (hs.base.wf c A' (by simp [hss])) hb hr1
              rw [e1, hr1] at h1
              dsimp only at h1
              cases hu : unstage x.h.buf (.sub x.h.content x.h.align :: rest) d with
              | error p => rw [hu] at h1; cases h1
              | ok st => exact ⟨st, rfl⟩
            have a1 : y.h.content.er = x.h.content.er := (congrArg HSt.content hxy).symm
            have a2 : y.h.align = x.h.align := (show x.h.er.align = y.h.er.align from congrArg HSt.align hxy).symm
            have a3 : y.h.buf.map Instr.er = x.h.buf.map Instr.er := (congrArg HSt.buf hxy).symm
            have a4 : x.h.macros = y.h.macros := show x.h.er.macros = y.h.er.macros from congrArg HSt.macros hxy
            have m1 := unstage_map x.h.buf (.sub x.h.content x.h.align :: rest) d
            have m2 := unstage_map y.h.buf (.sub y.h.content y.h.align :: rest') d
            have m3 : (Instr.sub x.h.content x.h.align :: rest).map Instr.er = (Instr.sub y.h.content y.h.align :: rest').map Instr.er := by
              simp [Instr.er, a1, a2, hr']
            rw [← a3, m3, m2, u1] at m1
            cases hu : unstage y.h.buf (.sub y.h.content y.h.align :: rest') d with
            | error p => rw [hu] at m1; cases m1
            | ok st =>
              rw [hu] at m1
              have m4 : st.map Instr.er = pre1.map Instr.er := by simpa [Except.map] using m1
              have u2 := unstage_over y.h.buf (.sub y.h.content y.h.align :: rest') B d
              rw [hu] at u2
              rw [hr1] at e1
              rw [hr2] at e2
              simp only [u1] at e1
              have u2 : unstage y.h.buf (.sub y.h.content y.h.align :: (rest' ++ B)) d = .ok (st ++ B) := u2
              simp only [u2] at e2
              rw [e1]
              exact .inr (.inr ⟨_, e2, ⟨st, rfl, m4.symm⟩, rfl, a4⟩)

theorem noErr_append {a b : List Item} : NoErr (a ++ b) ↔ NoErr a ∧ NoErr b := by
  unfold NoErr
  simp only [List.mem_append]
  exact ⟨fun h => ⟨fun i hi => h i (.inl hi), fun i hi => h i (.inr hi)⟩, fun h i hi => hi.elim (h.1 i) (h.2 i)⟩

/-- Executions without errors correspond, unless the limit for expansions stops the twin. -/
theorem exec_twin {B : List Instr} {i j : Str} {its its' es : List Item} {s s' t : State} (hs : Exec cf (State.init i) its s) (hn : NoErr its)
    (ht : Exec cf (State.init j) its' t) (hn' : NoErr its') (h : Twin B s t) (he : Exec cf s es s') (hes : NoErr es) :
    (∃ t', Exec cf t es t' ∧ Twin B s' t') ∨ ∃ fs ctx t', fs <+: es ∧ Exec cf t (fs ++ [.err .macroRecursionLimit ctx]) t' := by
  induction he with
  | init => exact .inl ⟨t, .init, h⟩
  | @item es s1 it s2 h1 hst ih =>
    have hes1 : NoErr es := fun x hx => hes x (by simp [hx])
    obtain ⟨e, rfl⟩ := hes it (by simp)
    rcases ih hes1 with ⟨t1, h2, h3⟩ | ⟨fs, ctx, t', h2, h3⟩
    · have hne : s1.stack ≠ [] := by intro h0; unfold step at hst; rw [h0] at hst; cases hst
      rcases step_twin (hs.trans h1) (noErr_append.2 ⟨hn, hes1⟩) (ht.trans h2) (noErr_append.2 ⟨hn', hes1⟩) h3 hne with ⟨ctx, u, h4⟩ | ⟨ctx, u, h4⟩ | h4
      · rw [hst] at h4; cases h4
      · exact .inr ⟨es, ctx, u, List.prefix_append _ _, h2.item h4⟩
      · rw [hst] at h4
        obtain ⟨t', h5, h6⟩ := h4
        exact .inl ⟨t', h2.item h5, h6⟩
    · exact .inr ⟨fs, ctx, t', h2.trans (List.prefix_append _ _), h3⟩
  | @again es s1 s2 h1 hst ih =>
    rcases ih hes with ⟨t1, h2, h3⟩ | ⟨fs, ctx, t', h2, h3⟩
    · have hne : s1.stack ≠ [] := by intro h0; unfold step at hst; rw [h0] at hst; cases hst
      rcases step_twin (hs.trans h1) (noErr_append.2 ⟨hn, hes⟩) (ht.trans h2) (noErr_append.2 ⟨hn', hes⟩) h3 hne with ⟨ctx, u, h4⟩ | ⟨ctx, u, h4⟩ | h4
      · rw [hst] at h4; cases h4
      · exact .inr ⟨es, ctx, u, List.prefix_rfl, h2.item h4⟩
      · rw [hst] at h4
        obtain ⟨t', h5, h6⟩ := h4
        exact .inl ⟨t', h2.again h5, h6⟩
    · exact .inr ⟨fs, ctx, t', h2, h3⟩

end PL
