import Verif.Lemmas.Scripts
set_option autoImplicit false
/-! # A token with its scripts -/
namespace PL
open Lex Spec Macros H

variable {cf : Cfg} {st : Bool} {o : Sl} {s s' : HSt} {d : List Instr}

/-- The outcome of a round: the staged instructions `D`, after an optional script event, go in front of the rest. -/
structure AtomPost (st : Bool) (o : Sl) (s s' : HSt) (x : Option Desc) (pre D : List Instr) : Prop where
  unst : ∀ stack, unstage s'.buf stack x = .ok (pre ++ s.buf ++ D ++ stack)
  head : pre = [] ∨ ∃ ty p, pre = [.ev (.script ty p)]
  flat : Flat D
  shape : Shape st s.align s'.align (pre ++ D)
  sub : Sub s'.content o
  subs : ∀ x al, Instr.sub x al ∈ D → Sub x o
  mac : ∀ x ∈ s'.macros, x ∈ s.macros ∨ Defines o.cs ∧ DefFrom o.cs x.2
  smac : st = true → s'.macros = s.macros
  weight : W (pre ++ D) + 16 * s'.len ≤ 16 * s.len + 9
  single : x.isSome = true → NoScript s'.content.cs

/-- The state in which a token is handled. -/
structure Fresh (s : HSt) (t : HTok) : Prop where
  harg : s.harg = false
  mods : s.allowMods = false
  skip : s.skip = false
  text : match t with
    | .chr c ctx => ctx.cs = c :: s.content.cs
    | .cs _ => True

theorem atom_some {s1 s2 : HSt} {x : Desc} {d : List Instr} (e1 : Ext st o s s1 d) (f1 : Flat d)
    (sh : ∀ ty p k, Elems st (scriptOperands ty - 1) k → Shape st s.align s1.align (.ev (.script ty p) :: (d ++ k)))
    (hw : W d + 16 * s1.len ≤ 16 * s.len + 18)
    (hx : ScrPost st o s1 s2 (some x)) : ∃ pre D, AtomPost st o s s2 (some x) pre D := by
  obtain ⟨sub, sup, ty, p, dd, he, x2, a2, hord, fs, fp, hel, hwt, hns, _⟩ := hx
  have x3 := e1.trans x2
  have hD : ∀ stack, unstage s2.buf stack (some x) = .ok ([.ev (.script ty p)] ++ s.buf ++ (d ++ (sub ++ sup)) ++ stack) := by
    intro stack
    obtain ⟨ev, xs, xp⟩ := x
    simp only at he hord
    subst he
    rw [x2.buf, e1.buf]
    rcases hord with ⟨rfl, rfl, rfl⟩ | ⟨rfl, rfl, rfl⟩
    · have := unstage_sub (s.buf ++ d) sub sup stack (.script ty p)
      rw [e1.buf]
      rw [← List.append_assoc, this]
      simp
    · have := unstage_sup (s.buf ++ d) sub sup stack (.script ty p)
      rw [e1.buf]
      rw [← List.append_assoc, this]
      simp
  have hmem : ∀ i, i ∈ d ++ (sub ++ sup) → i ∈ d ++ dd := by
    intro i hi
    rcases hord with ⟨rfl, _⟩ | ⟨rfl, _⟩
    · exact hi
    · simp at hi ⊢; rcases hi with h | h | h <;> simp [h]
  have hWd : W dd = W sub + W sup := by
    rcases hord with ⟨rfl, _⟩ | ⟨rfl, _⟩ <;> rw [W_append]
    omega
  refine ⟨_, _, hD, .inr ⟨ty, p, rfl⟩, f1.append (fs.append fp), ?_, x3.sub, fun y al hy => x3.subs y al (hmem _ hy), x3.mac, x3.smac, ?_, fun _ => hns⟩
  · rw [a2]
    exact sh ty p _ hel
  · simp only [W_append, W]
    omega

theorem atom_spec {t : HTok} (h : Pre st o s) (ht : TokOK st o s t) (hf : Fresh s t) :
    HSat cf st o s 8 (fun x s' => ∃ pre D, AtomPost st o s s' x pre D) (atom cf t s) := by
  unfold atom
  rw [M.get_bind]
  by_cases hbonus : ∃ c ctx, t = .chr c ctx ∧ (c = '_' ∨ c = '^')
  · obtain ⟨c, ctx, rfl, hc⟩ := hbonus
    obtain ⟨hsub, ⟨r, hr⟩, _, _⟩ := ht
    have htext : ctx.cs = c :: s.content.cs := hf.text
    have hrun : handleToken cf (tokenFuel s.content) (.chr c ctx) s =
        .ok ⟨⟩ { s with buf := s.buf ++ [.ev (.begin_ .normal)] ++ [.ev .end_], content := ctx } := by
      unfold tokenFuel handleToken handleChar
      rw [M.get_bind]
      have h1 : (decide (c = '\\') || decide (c = '%')) = false := by rcases hc with rfl | rfl <;> rfl
      have h2 : (decide (c = '_') || decide (c = '^')) = true := by rcases hc with rfl | rfl <;> rfl
      rw [if_neg (by simp [h1]), if_pos h2, if_neg (by simp [hf.harg])]
      rfl
    rw [M.bind_ok hrun, M.get_bind]
    generalize hs1 : ({ s with buf := s.buf ++ [.ev (.begin_ .normal)] ++ [.ev .end_], content := ctx } : HSt) = s1
    have x1 : Ext st o s s1 [.ev (.begin_ .normal), .ev .end_] := by
      subst hs1
      exact ⟨by simp, hsub, by simp, fun _ hx => .inl hx, fun _ => rfl, id, id⟩
    have hp1 := h.next x1
    have l1 : s1.len = s.len + 1 := by subst hs1; show ctx.cs.length = _; rw [htext]; rfl
    have f1 : Flat [.ev (.begin_ .normal), .ev .end_] := fun _ => rfl
    have el : Elem st [.ev (.begin_ .normal), .ev .end_] := Elem.group Inside.nil
    have al1 : s1.align = s.align := by subst hs1; rfl
    have hk : s1.skip = false := by subst hs1; exact hf.skip
    have hm : s1.allowMods = false := by subst hs1; exact hf.mods
    have hcs : s1.content.cs = c :: s.content.cs := by subst hs1; exact htext
    have sc := scripts_spec (handleToken_ok cf st o (tokenFuel s1.content)) hp1 (by unfold tokenFuel HSt.len; omega)
    refine Sat.mono sc ?_ ?_ (fun _ h => h)
    · intro x s2 hx
      cases x with
      | none =>
        obtain ⟨_, _, _, hns⟩ := hx
        have := (hns hk hm).2
        rw [hcs] at this
        rcases hc with rfl | rfl
        · exact absurd rfl this.2
        · exact absurd rfl this.1
      | some x =>
        refine atom_some x1 f1 ?_ (by simp [W]; omega) hx
        intro ty p k hk'
        rw [al1]
        refine Elem.shape (Elem.script ?_)
        have : scriptOperands ty = (scriptOperands ty - 1) + 1 := by cases ty <;> rfl
        rw [this]
        exact Elems.cons el hk'
    · rintro e s2 ⟨dd, y1, y2, y3⟩
      exact ⟨_, x1.trans y1, Grow.append f1.grow y2, by simp only [W_append, W]; omega⟩
  · have hroom : room t s = s.len := by
      unfold room bonus
      cases t with
      | cs => simp [HTok.tl]
      | chr c ctx =>
        have : ctx.cs = c :: s.content.cs := hf.text
        have hno : ¬ ((c = '_' ∨ c = '^') ∧ s.harg = false) := fun hx => hbonus ⟨c, ctx, rfl, hx.1⟩
        simp only [if_neg hno, HTok.tl, this]
        simp [HSt.len]
    have tk := handleToken_ok cf st o (tokenFuel s.content) t s h ht (by unfold tokenFuel HSt.len; omega)
    refine Step.bind (Ext.refl h) Grow.nil tk (by wt) ?_
    rintro _ s1 ⟨d, x1, f1, w1, l1, hd⟩
    rw [hroom] at w1 l1
    have := slack_le t
    rw [M.get_bind]
    have hp1 := h.next x1
    have sc := scripts_spec (handleToken_ok cf st o (tokenFuel s1.content)) hp1 (by unfold tokenFuel HSt.len; omega)
    refine Sat.mono sc ?_ ?_ (fun _ h => h)
    · intro x s2 hx
      cases x with
      | none =>
        obtain ⟨x2, a2, l2, _⟩ := hx
        have x3 := x1.trans x2
        rw [List.append_nil] at x3
        refine ⟨[], d, fun stack => ?_, .inl rfl, f1, ?_, x3.sub, x3.subs, x3.mac, x3.smac, ?_, by simp⟩
        · simp [unstage, x3.buf]
        · rw [a2]
          rcases hd with ⟨el, a1⟩ | ⟨_, sh, _⟩
          · rw [a1]; exact el.shape
          · exact sh
        · simp only [List.nil_append]
          omega
      | some x =>
        refine atom_some x1 f1 ?_ (by omega) hx
        intro ty p k hk'
        rcases hd with ⟨el, a1⟩ | ⟨_, sh, hst⟩
        · rw [a1]
          refine Elem.shape (Elem.script ?_)
          have : scriptOperands ty = (scriptOperands ty - 1) + 1 := by cases ty <;> rfl
          rw [this]
          exact Elems.cons el hk'
        · cases st with
          | false => exact Shape.script (sh.append hk'.acc_loose.shape)
          | true =>
            exfalso
            obtain ⟨hflow, hmods, hpost⟩ := hst rfl
            obtain ⟨_, _, _, _, _, _, _, _, _, _, _, _, _, _, htail⟩ := hx
            obtain ⟨w, c, r, hw, hc, ec⟩ := htail (hmods.trans hf.mods)
            have hcl := h.clean rfl
            cases t with
            | chr c' ctx =>
              have hc' : c' = '&' := hflow
              subst hc'
              have hpost : s1.content = s.content := hpost
              have htext : ctx.cs = '&' :: s.content.cs := hf.text
              obtain ⟨hsub, _⟩ := ht
              refine hcl.alignment w c hw hc (List.IsInfix.trans ?_ hsub.infix)
              rw [htext, ← hpost, ec]
              exact ⟨[], r, by simp⟩
            | cs name =>
              obtain ⟨w', hw', hi⟩ := ht.2 rfl
              rcases hpost with he | ⟨m, hm, he⟩
              · rw [he] at ec; cases w <;> cases ec
              · rw [he, ec] at hi
                have hbt : BreakTail (w' ++ m ++ w) := BreakTail.pad hw' hw hm
                rcases newline_names hflow with rfl | rfl
                · refine hcl.lineBreak c!"\\\\" _ c (.inl rfl) hbt hc (List.IsInfix.trans ?_ hi)
                  exact ⟨[], r, by simp⟩
                · refine hcl.lineBreak c!"\\cr" _ c (.inr rfl) hbt hc (List.IsInfix.trans ?_ hi)
                  exact ⟨[], r, by simp⟩
    · rintro e s2 ⟨dd, y1, y2, y3⟩
      exact ⟨_, x1.trans y1, Grow.append f1.grow y2, by rw [W_append]; omega⟩

end PL
