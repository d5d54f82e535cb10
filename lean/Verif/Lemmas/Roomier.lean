import Verif.Lemmas.Level
import Verif.Lemmas.Wider
set_option autoImplicit false
/-!
# Executions with more macros, with the expansions
-/
namespace PL
open PL.Lex Spec

variable {cf : Cfg} {M' : Macros.Ctx}

theorem liftH_ahead {x y : HSt} {sp sp' : Spans} {a b : HTok} (h : y.pin = (x.plus M').pin) (hab : a.pin = b.pin) {d : Option Desc} {x1 : PSt}
    (e : liftH (atom cf a) ⟨x, sp⟩ = .ok d x1) : Grows x.macros x1.h.macros ∧ (Clear M' x1.h.macros →
      ∃ y1, liftH (atom cf b) ⟨y, sp'⟩ = .ok d y1 ∧ y1.h.pin = (x1.h.plus M').pin) := by
  dsimp only [liftH] at e ⊢
  cases e1 : atom cf a x with
  | err k s => rw [e1] at e; cases e
  | panic p => rw [e1] at e; cases e
  | ok d' x' =>
    rw [e1] at e
    cases e
    obtain ⟨g, h1⟩ := more_atom (M' := M') (cf := cf) a _ _ e1
    refine ⟨g, fun hc => ?_⟩
    have e2 := pin_atom (cf := cf) a (x.plus M')
    rw [h1 hc, ← h, hab, pin_atom (cf := cf) b y] at e2
    cases e3 : atom cf b y with
    | err k s => rw [e3] at e2; cases e2
    | panic p => rw [e3] at e2; cases e2
    | ok d2 y' =>
      rw [e3] at e2
      have ⟨h3, h4⟩ : d2 = d ∧ y'.pin = (x'.plus M').pin := by simpa [Res.mapBoth] using e2
      subst h3
      exact ⟨_, rfl, h4⟩

theorem parseLoop_ahead (hU : Idle M') : ∀ (n : Nat) {x y : HSt} {sp sp' : Spans}, y.pin = (x.plus M').pin → ∀ {d : Option Desc} {x1 : PSt},
    parseLoop cf n ⟨x, sp⟩ = .ok d x1 → Grows x.macros x1.h.macros ∧ (Abreast cf ⟨x, sp⟩ ⟨y, sp'⟩ → Clear M' x1.h.macros →
      ∃ y1, parseLoop cf n ⟨y, sp'⟩ = .ok d y1 ∧ y1.h.pin = (x1.h.plus M').pin ∧ Level x1.sp y1.sp)
  | 0, x, y, sp, sp', h, d, x1, e => by cases e
  | n + 1, x, y, sp, sp', h, d, x1, e => by
    obtain ⟨⟨c1, c2, c3⟩, xb, a1, a2, a3, a4, a5, m⟩ := x
    obtain ⟨⟨y1, y2, y3⟩, yb, b1, b2, b3, b4, b5, m'⟩ := y
    simp only [HSt.pin, HSt.plus, HSt.mk.injEq, Sl.pin, Sl.mk.injEq, true_and] at h
    obtain ⟨⟨rfl, rfl⟩, hb, rfl, rfl, rfl, rfl, rfl, rfl⟩ := h
    have he : ∀ c c' : Sl, c.src = c'.src → c.cs = c'.cs → (⟨c', yb, b1, b2, b3, b4, b5, m ++ M'⟩ : HSt).pin = ((⟨c, xb, b1, b2, b3, b4, b5, m⟩ : HSt).plus M').pin := by
      intro c c' hc hc'
      simp only [HSt.pin, HSt.plus, Sl.pin, hc, hc', hb]
    have lift : ∀ {a b : HTok} {x y : HSt}, y.pin = (x.plus M').pin → a.pin = b.pin → liftH (atom cf a) ⟨x, sp⟩ = .ok d x1 →
        Grows x.macros x1.h.macros ∧ (Level sp sp' → Clear M' x1.h.macros → ∃ y1, liftH (atom cf b) ⟨y, sp'⟩ = .ok d y1 ∧ y1.h.pin = (x1.h.plus M').pin ∧ Level x1.sp y1.sp) := by
      intro a b x y h1 h2 h3
      obtain ⟨g, h4⟩ := liftH_ahead (sp' := sp') h1 h2 h3
      refine ⟨g, fun hL hc => ?_⟩
      obtain ⟨z, h4, h5⟩ := h4 hc
      refine ⟨z, h4, h5, ?_⟩
      have s1 : x1.sp = sp := by
        unfold liftH at h3
        cases e1 : atom cf a x <;> rw [e1] at h3 <;> cases h3
        rfl
      have s2 : z.sp = sp' := by
        unfold liftH at h4
        cases e1 : atom cf b y <;> rw [e1] at h4 <;> cases h4
        rfl
      rw [s1, s2]
      exact hL
    rw [parseLoop] at e ⊢
    simp only at e ⊢
    cases ht : token y3 with
    | panic p => rw [ht] at e; cases e
    | err k rest =>
      rw [ht] at e
      dsimp only at e ⊢
      split at e
      · rename_i hk
        cases e
        exact ⟨.rfl', fun hM _ => ⟨⟨⟨⟨y1, y2, rest⟩, yb, b1, b2, b3, b4, b5, m ++ M'⟩, sp'⟩, if_pos hk, he ⟨y1, c2, rest⟩ ⟨y1, y2, rest⟩ rfl rfl, hM.level⟩⟩
      · cases e
    | ok t rest =>
      rw [ht] at e
      cases t with
      | chr c r =>
        dsimp only at e ⊢
        obtain ⟨g, h1⟩ := lift (b := HTok.ofTok ⟨y1, y2, y3⟩ (.chr c r)) (he ⟨y1, c2, rest⟩ ⟨y1, y2, rest⟩ rfl rfl) (by rw [HTok.pin_ofTok, HTok.pin_ofTok]; rfl) e
        exact ⟨g, fun hM => h1 hM.level⟩
      | cs name =>
        dsimp only at e ⊢
        cases hg : m.get name with
        | none =>
          have hx : Macros.tryExpand cf m name rest = none := by unfold Macros.tryExpand; rw [hg]; rfl
          simp only [hx] at e
          cases hg' : M'.get name with
          | some df =>
            exfalso
            obtain ⟨s, h1⟩ := atom_unknown (cf := cf) (hU name (by rw [hg']; simp)) _
            simp only [liftH, HTok.ofTok] at e
            rw [h1] at e
            cases e
          | none =>
            have hy : Macros.tryExpand cf (m ++ M') name rest = none := by unfold Macros.tryExpand; rw [get_append, hg, hg']; rfl
            simp only [hy]
            obtain ⟨g, h1⟩ := lift (b := .cs name) (he ⟨y1, c2, rest⟩ ⟨y1, y2, rest⟩ rfl rfl) rfl e
            exact ⟨g, fun hM => h1 hM.level⟩
        | some df =>
          have hy : Macros.tryExpand cf (m ++ M') name rest = Macros.tryExpand cf m name rest := by
            unfold Macros.tryExpand; rw [get_append, hg]; rfl
          rw [hy]
          cases ho : Macros.tryExpand cf m name rest with
          | none => unfold Macros.tryExpand at ho; rw [hg] at ho; cases ho
          | some o =>
            rw [ho] at e
            cases o with
            | panic p => cases e
            | err k =>
              dsimp only at e
              split at e <;> cases e
            | ok new consumed =>
              dsimp only at e ⊢
              split at e
              · cases e
              · rename_i hl
                refine ⟨?_, fun hM hc => ?_⟩
                · revert e
                  generalize Spans.add cf _ _ new ⟨y1, c2, _⟩ _ = o1
                  intro e
                  cases o1 with
                  | none => cases e
                  | some s1 => exact (parseLoop_ahead hU n (sp' := sp') (he _ _ rfl rfl) e).1
                · have hlen : sp'.exps.length = sp.exps.length := by simpa using (congrArg List.length hM.level.ids).symm
                  rw [hlen, ← hM.level.total, ← hM.level.count, if_neg hl]
                  obtain ⟨i, es, j, es', f1, f2, f3⟩ := hM.found { (⟨y1, c2, y3⟩ : Sl) with cs := trimStart y3 } { (⟨y1, y2, y3⟩ : Sl) with cs := trimStart y3 }
                    ((Sub.refl _).suffix (trimStart_suffix _)) ((Sub.refl _).suffix (trimStart_suffix _))
                  simp only at f1 f2
                  simp only [Spans.add, Spans.reach, f1, f2, Option.map_some] at e ⊢
                  have hn := he ⟨sp.nalloc + 1, blen new, new⟩ ⟨sp.nalloc + 1, blen new, new⟩ rfl rfl
                  refine (parseLoop_ahead hU n hn e).2 ?_ hc
                  exact Abreast.new ⟨_, _, rfl, rfl⟩ ⟨_, _, rfl, rfl⟩ ⟨rfl, rfl, by simp [f3]⟩

/-! ### Steps -/

/-- The same texts and events in the same allocations, more macros, and as many expansions. -/
structure Roomier (M' : Macros.Ctx) (s t : State) : Prop where
  stack : t.stack.map Instr.pin = s.stack.map Instr.pin
  buf : t.buf.map Instr.pin = s.buf.map Instr.pin
  macros : t.macros = s.macros ++ M'
  level : Level s.sp t.sp

/-- The same step with more macros. -/
inductive StepRoomier (M' : Macros.Ctx) : Step → Step → Prop
  | again {s t} : Roomier M' s t → StepRoomier M' (.again s) (.again t)
  | item {e s t} : Roomier M' s t → StepRoomier M' (.item (.ok e) s) (.item (.ok e) t)

theorem step_ahead (hU : Idle M') {s t : State} (h : Roomier M' s t) {s' : State} (hst : step cf s = .again s' ∨ ∃ e, step cf s = .item (.ok e) s') :
    Grows s.macros s'.macros ∧ ((∀ c A rest c' rest', s.stack = .sub c A :: rest → t.stack = .sub c' A :: rest' → c'.src = c.src → trimStart c.cs ≠ [] →
      Abreast cf (startSt s c A) (startSt t c' A)) → Clear M' s'.macros → StepRoomier M' (step cf s) (step cf t)) := by
  cases hss : s.stack with
  | nil => unfold step at hst; rw [hss] at hst; rcases hst with h1 | ⟨e, h1⟩ <;> cases h1
  | cons x rest =>
    have hm := h.stack
    rw [hss] at hm
    obtain ⟨y, rest', hts, hy, hr'⟩ := instr_pin_cons (show t.stack.map Instr.pin = x.pin :: rest.map Instr.pin from hm)
    cases x with
    | ev e =>
      cases y with
      | sub c A => cases hy
      | ev e' =>
        cases hy
        have e1 : step cf s = .item (.ok e) { s with stack := rest } := by unfold step; rw [hss]
        have e2 : step cf t = .item (.ok e) { t with stack := rest' } := by unfold step; rw [hts]
        rw [e1] at hst
        rcases hst with h1 | ⟨e, h1⟩ <;> cases h1
        refine ⟨.rfl', fun _ _ => ?_⟩
        rw [e1, e2]
        exact .item ⟨hr', h.buf, h.macros, h.level⟩
    | sub c A =>
      cases y with
      | ev e => cases hy
      | sub c' A' =>
        have hA : A' = A := by injection hy
        subst hA
        have hc : c'.pin = c.pin := by injection hy
        have hcs : c'.cs = c.cs := show c'.pin.cs = c.pin.cs from congrArg Sl.cs hc
        have hsrc : c'.src = c.src := show c'.pin.src = c.pin.src from congrArg Sl.src hc
        by_cases hb : trimStart c.cs = []
        · have e1 : step cf s = .again { s with stack := rest } := by
            unfold step
            rw [hss]
            simp only
            rw [if_pos (by simp [hb])]
          have e2 : step cf t = .again { t with stack := rest' } := by
            unfold step
            rw [hts]
            simp only
            rw [if_pos (by simp [hcs, hb])]
          rw [e1] at hst
          rcases hst with h1 | ⟨e, h1⟩ <;> cases h1
          refine ⟨.rfl', fun _ _ => ?_⟩
          rw [e1, e2]
          exact .again ⟨hr', h.buf, h.macros, h.level⟩
        · have hb' : trimStart c'.cs ≠ [] := by rw [hcs]; exact hb
          have e1 := Formula.step_text (cf := cf) hss hb
          have e2 := Formula.step_text (cf := cf) hts hb'
          have hstart : (startSt t c' A').h.pin = ((startSt s c A').h.plus M').pin := by
            unfold startSt HSt.pin HSt.plus Sl.pin
            simp only [h.buf, h.macros, hcs, hsrc]
          cases hp : parse cf (startSt s c A') with
          | panic p => rw [hp] at e1; rw [e1] at hst; rcases hst with h1 | ⟨e, h1⟩ <;> cases h1
          | err k st =>
            rw [hp] at e1
            dsimp only at e1
            rw [e1] at hst
            split at hst <;> rcases hst with h1 | ⟨e, h1⟩ <;> cases h1
          | ok d x =>
            obtain ⟨g, h1⟩ := parseLoop_ahead hU (maxExpansionDepth + 2) (sp := (startSt s c A').sp) (sp' := (startSt t c' A').sp) hstart hp
            rw [hp] at e1
            dsimp only at e1
            cases hu : unstage x.h.buf (.sub x.h.content x.h.align :: rest) d with
            | error p => rw [hu] at e1; rw [e1] at hst; rcases hst with h1 | ⟨e, h1⟩ <;> cases h1
            | ok st =>
              rw [hu] at e1
              dsimp only at e1
              rw [e1] at hst
              rcases hst with h2 | ⟨e, h2⟩ <;> cases h2
              refine ⟨g, fun hM hcl => ?_⟩
              obtain ⟨y, hp', hxy, hL⟩ := h1 (hM c A' rest c' rest' rfl hts hsrc hb) hcl
              have hp' : parse cf (startSt t c' A') = .ok d y := hp'
              rw [hp'] at e2
              dsimp only at e2
              have a1 : y.h.content.pin = x.h.content.pin := congrArg HSt.content hxy
              have a2 : y.h.align = x.h.align := show y.h.pin.align = (x.h.plus M').pin.align from congrArg HSt.align hxy
              have a3 : y.h.buf.map Instr.pin = x.h.buf.map Instr.pin := congrArg HSt.buf hxy
              have a4 : y.h.macros = x.h.macros ++ M' := show y.h.pin.macros = (x.h.plus M').pin.macros from congrArg HSt.macros hxy
              have m1 := unstage_pin x.h.buf (.sub x.h.content x.h.align :: rest) d
              have m2 := unstage_pin y.h.buf (.sub y.h.content y.h.align :: rest') d
              have m3 : (Instr.sub x.h.content x.h.align :: rest).map Instr.pin = (Instr.sub y.h.content y.h.align :: rest').map Instr.pin := by
                simp [Instr.pin, a1, a2, hr']
              rw [← a3, m3, m2, hu] at m1
              cases hu2 : unstage y.h.buf (.sub y.h.content y.h.align :: rest') d with
              | error p => rw [hu2] at m1; cases m1
              | ok st2 =>
                rw [hu2] at m1 e2
                have m4 : st2.map Instr.pin = st.map Instr.pin := by simpa [Except.map] using m1
                rw [e1, e2]
                exact .again ⟨m4, rfl, a4, hL⟩

/-- An execution begins with a step. -/
theorem Exec.split {s s' : State} {es : List Item} (h : Exec cf s es s') : (es = [] ∧ s' = s) ∨ (∃ s1, step cf s = .again s1 ∧ Exec cf s1 es s') ∨
    ∃ i s1 es', step cf s = .item i s1 ∧ Exec cf s1 es' s' ∧ es = i :: es' := by
  induction h with
  | init => exact .inl ⟨rfl, rfl⟩
  | @item es s1 it s2 h1 hst ih =>
    rcases ih with ⟨rfl, rfl⟩ | ⟨u, h2, h3⟩ | ⟨i, u, es', h2, h3, rfl⟩
    · exact .inr (.inr ⟨it, s2, [], hst, .init, rfl⟩)
    · exact .inr (.inl ⟨u, h2, h3.item hst⟩)
    · exact .inr (.inr ⟨i, u, _, h2, h3.item hst, rfl⟩)
  | @again es s1 s2 h1 hst ih =>
    rcases ih with ⟨rfl, rfl⟩ | ⟨u, h2, h3⟩ | ⟨i, u, es', h2, h3, rfl⟩
    · exact .inr (.inl ⟨s2, hst, .init⟩)
    · exact .inr (.inl ⟨u, h2, h3.again hst⟩)
    · exact .inr (.inr ⟨i, u, _, h2, h3.again hst, rfl⟩)

theorem exec_grows {s s' : State} {es : List Item} (h : Exec cf s es s') (hes : NoErr es) : Grows s.macros s'.macros := by
  induction h with
  | init => exact .rfl'
  | @item es s1 it s2 h1 hst ih =>
    obtain ⟨e, rfl⟩ := hes it (by simp)
    exact (ih fun x hx => hes x (by simp [hx])).trans (step_grows (.inr ⟨e, hst⟩))
  | again h1 hst ih => exact (ih hes).trans (step_grows (.inl hst))

end PL
