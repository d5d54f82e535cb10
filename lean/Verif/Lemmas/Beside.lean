import Verif.Lemmas.March
set_option autoImplicit false
/-!
# Executions of the same text at two places

If the texts lie as in the arena and as much was expanded before, then the same text with the same macros yields the same items at two places, also as far as the limit for
expansions and panics are concerned, up to the first error.
-/
namespace PL
open PL.Lex Spec

variable {cf : Cfg}

/-- The same outcome, up to the places of texts. -/
inductive PEven : Res PSt (Option Desc) → Res PSt (Option Desc) → Prop
  | ok {d x y} : x.h.pin = y.h.pin → Level x.sp y.sp → PEven (.ok d x) (.ok d y)
  | err {e x y} : PEven (.err e x) (.err e y)
  | panic {p} : PEven (.panic p) (.panic p)

theorem liftH_even {x y : HSt} {sp sp' : Spans} {a b : HTok} (h : x.pin = y.pin) (hab : a.pin = b.pin) (hL : Level sp sp') :
    PEven (liftH (atom cf a) ⟨x, sp⟩) (liftH (atom cf b) ⟨y, sp'⟩) := by
  have e1 := pin_atom (cf := cf) a x
  have e2 := pin_atom (cf := cf) b y
  rw [h, hab, e2] at e1
  dsimp only [liftH]
  cases h1 : atom cf a x with
  | ok d x' =>
    rw [h1] at e1
    cases h2 : atom cf b y with
    | ok d' y' =>
      rw [h2] at e1
      have ⟨h3, h4⟩ : d' = d ∧ y'.pin = x'.pin := by simpa [Res.mapBoth] using e1
      subst h3
      exact .ok h4.symm hL
    | err a b => rw [h2] at e1; cases e1
    | panic p => rw [h2] at e1; cases e1
  | err e x' =>
    rw [h1] at e1
    cases h2 : atom cf b y with
    | err e' y' =>
      rw [h2] at e1
      have ⟨h3, h4⟩ : e' = e ∧ y'.pin = x'.pin := by simpa [Res.mapBoth] using e1
      subst h3
      exact .err
    | ok a b => rw [h2] at e1; cases e1
    | panic p => rw [h2] at e1; cases e1
  | panic p =>
    rw [h1] at e1
    cases h2 : atom cf b y with
    | panic q =>
      rw [h2] at e1
      have : q = p := by simpa [Res.mapBoth] using e1
      subst this
      exact .panic
    | ok a b => rw [h2] at e1; cases e1
    | err a b => rw [h2] at e1; cases e1

theorem parseLoop_even : ∀ (n : Nat) {x y : HSt} {sp sp' : Spans}, x.pin = y.pin → Abreast cf ⟨x, sp⟩ ⟨y, sp'⟩ → PEven (parseLoop cf n ⟨x, sp⟩) (parseLoop cf n ⟨y, sp'⟩)
  | 0, x, y, sp, sp', h, _ => .panic
  | n + 1, x, y, sp, sp', h, hM => by
    obtain ⟨⟨x1, x2, x3⟩, xb, a1, a2, a3, a4, a5, m⟩ := x
    obtain ⟨⟨y1, y2, y3⟩, yb, b1, b2, b3, b4, b5, m'⟩ := y
    simp only [HSt.pin, HSt.mk.injEq, Sl.pin, Sl.mk.injEq, true_and] at h
    obtain ⟨⟨rfl, rfl⟩, hb, rfl, rfl, rfl, rfl, rfl, rfl⟩ := h
    have he : ∀ c c' : Sl, c.src = c'.src → c.cs = c'.cs → (⟨c, xb, a1, a2, a3, a4, a5, m⟩ : HSt).pin = (⟨c', yb, a1, a2, a3, a4, a5, m⟩ : HSt).pin := by
      intro c c' h0 hc
      simp only [HSt.pin, Sl.pin, h0, hc, hb]
    have hlen : sp'.exps.length = sp.exps.length := by simpa using (congrArg List.length hM.level.ids).symm
    rw [parseLoop]
    simp only
    cases token x3 with
    | panic p => exact .panic
    | err e rest =>
      dsimp only
      split
      · exact .ok (he _ _ rfl rfl) hM.level
      · exact .err
    | ok t rest =>
      cases t with
      | chr c r => exact liftH_even (he _ _ rfl rfl) (by rw [HTok.pin_ofTok, HTok.pin_ofTok]; rfl) hM.level
      | cs name =>
        dsimp only
        cases Macros.tryExpand cf m name rest with
        | none => exact liftH_even (he _ _ rfl rfl) rfl hM.level
        | some o =>
          cases o with
          | panic p => exact .panic
          | err e =>
            dsimp only
            rw [hlen, ← hM.level.total]
            split
            · exact .err
            · exact .err
          | ok new consumed =>
            dsimp only
            rw [hlen, ← hM.level.total, ← hM.level.count]
            split
            · exact .err
            · obtain ⟨i, es, j, es', f1, f2, f3⟩ := hM.found { (⟨x1, x2, x3⟩ : Sl) with cs := trimStart x3 } { (⟨x1, y2, x3⟩ : Sl) with cs := trimStart x3 }
                ((Sub.refl _).suffix (trimStart_suffix _)) ((Sub.refl _).suffix (trimStart_suffix _))
              simp only at f1 f2
              simp only [Spans.add, Spans.reach, f1, f2, Option.map_some]
              refine parseLoop_even n (he _ _ rfl rfl) ?_
              exact Abreast.new ⟨_, _, rfl, rfl⟩ ⟨_, _, rfl, rfl⟩ ⟨rfl, rfl, by simp [f3]⟩

/-! ### Steps -/

/-- The same texts, events and macros up to the places of the texts, with more below, and as much expanded. -/
structure Beside (B : List Instr) (s t : State) : Prop where
  stack : ∃ top, t.stack = top ++ B ∧ s.stack.map Instr.pin = top.map Instr.pin
  buf : s.buf.map Instr.pin = t.buf.map Instr.pin
  macros : s.macros = t.macros
  level : Level s.sp t.sp

theorem Beside.start {B : List Instr} {s t : State} {c c' : Sl} {A : Option AlignCount} (h : Beside B s t) (h0 : c.src = c'.src) (hc : c.cs = c'.cs) :
    (startSt s c A).h.pin = (startSt t c' A).h.pin := by
  unfold startSt HSt.pin Sl.pin
  simp only [h.buf, h.macros, hc, h0]

end PL

namespace PL.Props
open PL PL.Lex Spec

variable {cf : Cfg}

/-- What is done beside, when the state takes a step. -/
theorem step_beside {B : List Instr} {i j : Str} (hl : Stacked cf i) (hl' : Stacked cf j) {its its' : List Item} {s t : State} (hs : Exec cf (State.init i) its s) (hn : NoErr its)
    (ht : Exec cf (State.init j) its' t) (hn' : NoErr its') (h : Beside B s t) (hne : s.stack ≠ []) :
    match PL.step cf s with
      | .done => False
      | .panic p => PL.step cf t = .panic p
      | .again s' => ∃ t', PL.step cf t = .again t' ∧ Beside B s' t'
      | .item (.ok e) s' => ∃ t', PL.step cf t = .item (.ok e) t' ∧ Beside B s' t'
      | .item (.err k _) _ => ∃ ctx t', PL.step cf t = .item (.err k ctx) t' := by
  obtain ⟨top, hts, her⟩ := h.stack
  cases hss : s.stack with
  | nil => exact absurd hss hne
  | cons x rest =>
    obtain ⟨y, rest', rfl, hy, hr'⟩ := instr_pin_cons (show top.map Instr.pin = x.pin :: rest.map Instr.pin by rw [← her, hss]; rfl)
    cases x with
    | ev e =>
      cases y with
      | sub c A => cases hy
      | ev e' =>
        cases hy
        unfold PL.step
        rw [hss, hts]
        exact ⟨_, rfl, ⟨rest', rfl, hr'.symm⟩, h.buf, h.macros, h.level⟩
    | sub c A =>
      cases y with
      | ev e => cases hy
      | sub c' A' =>
        have hA : A' = A := by injection hy
        subst hA
        have hc : c'.pin = c.pin := by injection hy
        have hcs : c'.cs = c.cs := show c'.pin.cs = c.pin.cs from congrArg Sl.cs hc
        have hsrc : c'.src = c.src := show c'.pin.src = c.pin.src from congrArg Sl.src hc
        by_cases hb : trimStart c.cs = []
        · have e1 : PL.step cf s = .again { s with stack := rest } := by
            unfold PL.step
            rw [hss]
            simp only
            rw [if_pos (by simp [hb])]
          have e2 : PL.step cf t = .again { t with stack := rest' ++ B } := by
            unfold PL.step
            rw [hts]
            simp only [List.cons_append]
            rw [if_pos (by simp [hcs, hb])]
          rw [e1]
          exact ⟨_, e2, ⟨rest', rfl, hr'.symm⟩, h.buf, h.macros, h.level⟩
        · have hb' : trimStart c'.cs ≠ [] := by rw [hcs]; exact hb
          have hts' : t.stack = .sub c' A' :: (rest' ++ B) := hts
          have e1 := Formula.step_text (cf := cf) hss hb
          have e2 := Formula.step_text (cf := cf) hts' hb'
          have hsim : PEven (parse cf (startSt s c A')) (parse cf (startSt t c' A')) := parseLoop_even (cf := cf) (maxExpansionDepth + 2) (h.start hsrc.symm hcs.symm)
              (abreast_start hl hl' hs hn ht hn' h.level hss hts' hsrc hb hb')
          have errL : ∀ {k x}, parse cf (startSt s c A') = .err k x → ∃ ctx s', PL.step cf s = .item (.err k ctx) s' := by
            intro k x e
            rcases Formula.step_err hss hb hs.base.calls e with h1 | h1
            · exact h1
            · exact absurd rfl (Formula.exec_assertion hs hn h1).1
          have errR : ∀ {k x}, parse cf (startSt t c' A') = .err k x → ∃ ctx s', PL.step cf t = .item (.err k ctx) s' := by
            intro k x e
            rcases Formula.step_err hts' hb' ht.base.calls e with h1 | h1
            · exact h1
            · exact absurd rfl (Formula.exec_assertion ht hn' h1).1
          generalize hr1 : parse cf (startSt s c A') = r1 at hsim
          generalize hr2 : parse cf (startSt t c' A') = r2 at hsim
          cases hsim with
          | panic =>
            rw [hr1] at e1
            rw [hr2] at e2
            rw [e1]
            exact e2
          | err =>
            obtain ⟨ctx, s', h1⟩ := errL hr1
            rw [h1]
            exact errR hr2
          | @ok d x y hxy hL =>
            obtain ⟨pre1, u1⟩ : ∃ st, unstage x.h.buf (.sub x.h.content x.h.align :: rest) d = .ok st := by
              obtain ⟨pre, h1⟩ := Formula.step_ok hss (hs.base.wf c A' (by simp [hss])) hb hr1
              rw [e1, hr1] at h1
              dsimp only at h1
              cases hu : unstage x.h.buf (.sub x.h.content x.h.align :: rest) d with
              | error p => rw [hu] at h1; cases h1
              | ok st => exact ⟨st, rfl⟩
            have a1 : y.h.content.pin = x.h.content.pin := (congrArg HSt.content hxy).symm
            have a2 : y.h.align = x.h.align := (show x.h.pin.align = y.h.pin.align from congrArg HSt.align hxy).symm
            have a3 : y.h.buf.map Instr.pin = x.h.buf.map Instr.pin := (congrArg HSt.buf hxy).symm
            have a4 : x.h.macros = y.h.macros := show x.h.pin.macros = y.h.pin.macros from congrArg HSt.macros hxy
            have m1 := unstage_pin x.h.buf (.sub x.h.content x.h.align :: rest) d
            have m2 := unstage_pin y.h.buf (.sub y.h.content y.h.align :: rest') d
            have m3 : (Instr.sub x.h.content x.h.align :: rest).map Instr.pin = (Instr.sub y.h.content y.h.align :: rest').map Instr.pin := by
              simp [Instr.pin, a1, a2, hr']
            rw [← a3, m3, m2, u1] at m1
            cases hu : unstage y.h.buf (.sub y.h.content y.h.align :: rest') d with
            | error p => rw [hu] at m1; cases m1
            | ok st =>
              rw [hu] at m1
              have m4 : st.map Instr.pin = pre1.map Instr.pin := by simpa [Except.map] using m1
              have u2 := unstage_over y.h.buf (.sub y.h.content y.h.align :: rest') B d
              rw [hu] at u2
              rw [hr1] at e1
              rw [hr2] at e2
              simp only [u1] at e1
              have u2 : unstage y.h.buf (.sub y.h.content y.h.align :: (rest' ++ B)) d = .ok (st ++ B) := u2
              simp only [u2] at e2
              rw [e1]
              exact ⟨_, e2, ⟨st, rfl, m4.symm⟩, rfl, a4, hL⟩

/-- Executions without errors correspond. -/
theorem exec_beside {B : List Instr} {i j : Str} (hl : Stacked cf i) (hl' : Stacked cf j) {its its' es : List Item} {s s' t : State} (hs : Exec cf (State.init i) its s)
    (hn : NoErr its) (ht : Exec cf (State.init j) its' t) (hn' : NoErr its') (h : Beside B s t) (he : Exec cf s es s') (hes : NoErr es) :
    ∃ t', Exec cf t es t' ∧ Beside B s' t' := by
  induction he with
  | init => exact ⟨t, .init, h⟩
  | @item es s1 it s2 h1 hst ih =>
    have hes1 : NoErr es := fun x hx => hes x (by simp [hx])
    obtain ⟨e, rfl⟩ := hes it (by simp)
    obtain ⟨t1, h2, h3⟩ := ih hes1
    have hne : s1.stack ≠ [] := by intro h0; unfold PL.step at hst; rw [h0] at hst; cases hst
    have h4 := step_beside hl hl' (hs.trans h1) (noErr_append.2 ⟨hn, hes1⟩) (ht.trans h2) (noErr_append.2 ⟨hn', hes1⟩) h3 hne
    rw [hst] at h4
    obtain ⟨t', h5, h6⟩ := h4
    exact ⟨t', h2.item h5, h6⟩
  | @again es s1 s2 h1 hst ih =>
    obtain ⟨t1, h2, h3⟩ := ih hes
    have hne : s1.stack ≠ [] := by intro h0; unfold PL.step at hst; rw [h0] at hst; cases hst
    have h4 := step_beside hl hl' (hs.trans h1) (noErr_append.2 ⟨hn, hes⟩) (ht.trans h2) (noErr_append.2 ⟨hn', hes⟩) h3 hne
    rw [hst] at h4
    obtain ⟨t', h5, h6⟩ := h4
    exact ⟨t', h2.again h5, h6⟩

end PL.Props
