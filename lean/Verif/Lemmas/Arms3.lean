import Verif.Lemmas.Arms2
set_option autoImplicit false
/-! # The arms of `execPrim`, continued -/
namespace PL
open Lex Spec Macros H

variable {cf : Cfg} {st : Bool} {o : Sl} {s0 s s' : HSt} {j : Nat} {d : List Instr} {α β : Type}
variable {n : Nat} {rec : HTok → H PUnit}

theorem At.frac (A : At st o s0 j s d) (hr : RecOK cf st o n rec) {bar : Option Dim} {k : PUnit.{1} → H α}
    {Q : α → HSt → Prop} (hn : s.len + 1 ≤ n) (hb : W d + 16 * s.len + 1 ≤ 16 * s0.len + 8)
    (hf : ∀ s' d1, At st o s0 j s' (d ++ d1) → Elem st d1 → W d1 + 16 * s'.len + 8 ≤ 16 * s.len → s'.len ≤ s.len →
      HSat cf st o s0 8 Q (k ⟨⟩ s')) :
    HSat cf st o s0 8 Q ((do
      H.ev (.visual (.fraction bar))
      let num ← argument
      handleArgument rec num
      let den ← argument
      handleArgument rec den
      k ⟨⟩) s) := by
  refine A.ev (j' := j) (fun _ => rfl) fun s1 A l1 _ => ?_
  refine A.bindMv (argument_spec A.pre) (by wt) ?_
  rintro a s2 A l2 ⟨h2, h3, h4, h5⟩
  have := a.size_w; have := a.size_pos
  refine A.handle hr h2 (by omega) (by omega) (by wt) fun s3 d1 A e1 w1 l3 => ?_
  refine A.bindMv (argument_spec A.pre) (by wt) ?_
  rintro b s4 A l4 ⟨h2, h3, h4, h5⟩
  have := b.size_w; have := b.size_pos
  refine A.handle hr h2 (by omega) (by omega) (by wt) fun s5 d2 A e2 w2 l5 => ?_
  refine hf s5 (.ev (.visual (.fraction bar)) :: (d1 ++ d2)) (by simpa using A) (Elem.visual (Elems.two e1 e2)) (by wt) (by omega)

theorem At.fractionLike {l r : Option Char} {bar : Option Dim} {z : Option Style} (hr : RecOK cf st o n rec)
    (A : At st o s0 0 s []) (hl : s.len ≤ s0.len) (hn : s.len + 1 ≤ n) :
    HSat cf st o s0 8 (fun _ s' => ArmPost st o s0 s') (fractionLike rec l r bar z s) := by
  unfold PL.fractionLike
  cases hoc : (l.isSome || r.isSome) <;> cases z with
  | none =>
    simp only [Bool.false_eq_true, if_false, if_true, Option.isSome_none, Bool.or_false]
    first
      | refine A.frac (k := fun _ => pure PUnit.unit) hr (by omega) (by wt) fun s5 d1 A e1 w1 l5 => ?_
        exact A.done rfl (by wt) (by omega) e1
      | refine A.ev (j' := 1) (fun _ => rfl) fun s1 A l1 _ => ?_
        refine A.frac (k := fun _ => H.ev .end_) hr (by omega) (by wt) fun s5 d1 A e1 w1 l5 => ?_
        refine A.ev' (j' := 0) (fun _ => rfl) fun s6 A l6 _ => ?_
        exact A.done (d' := .ev (.begin_ (.leftRight l r)) :: (d1 ++ [.ev .end_])) (by simp) (by wt) (by omega)
          (Elem.group (Inside.one e1))
  | some z =>
    simp only [Bool.false_eq_true, if_false, if_true, Option.isSome_some, Bool.or_true, Bool.not_false, Bool.not_true]
    refine A.ev (j' := 1) (fun _ => rfl) fun s1 A l1 _ => ?_
    refine A.ev (j' := 1) (fun _ => rfl) fun s2 A l2 _ => ?_
    refine A.frac (k := fun _ => H.ev .end_) hr (by omega) (by wt) fun s5 d1 A e1 w1 l5 => ?_
    refine A.ev' (j' := 0) (fun _ => rfl) fun s6 A l6 _ => ?_
    refine A.done (d' := .ev (.begin_ _) :: ((.ev (.stateChange (.style z)) :: d1) ++ [.ev .end_])) rfl (by wt) (by omega)
      (Elem.group (Inside.ev (by trivial) (Inside.one e1)))

theorem arm_frac {l r : Option Char} {bar : Option Dim} {z : Option Style} (hr : RecOK cf st o n rec) (h : Pre st o s)
    (hn : s.len + 1 ≤ n) : Arm cf st o s (execPrim cf rec (.frac l r bar z)) := by
  simp only [execPrim]
  exact (At.start h).fractionLike hr (Nat.le_refl _) hn

theorem genfracDelim_spec (h : Pre st o s) : HSat cf st o s 0 (fun _ s' => Mv st o s s' ∧ True) (genfracDelim s) := by
  unfold genfracDelim
  refine Step.bind (Ext.refl h) Grow.nil (argument_spec h) (by wt) ?_
  rintro a s' ⟨h1, _⟩
  cases a with
  | group g => exact Sat.ite (fun _ => ⟨h1, trivial⟩) (fun _ => h1.ep .delimiter)
  | token t =>
    cases t with
    | cs n =>
      dsimp only
      cases controlSequenceDelimiterMap n with
      | none => exact h1.ep .delimiter
      | some => exact ⟨h1, trivial⟩
    | chr c x =>
      dsimp only
      cases charDelimiterMap c with
      | none => exact h1.ep .delimiter
      | some => exact ⟨h1, trivial⟩

theorem genfracBar_spec (h : Pre st o s) : HSat cf st o s 0 (fun _ s' => Mv st o s s' ∧ True) (genfracBar s) := by
  unfold genfracBar
  refine Step.bind (Ext.refl h) Grow.nil (argument_spec h) (by wt) ?_
  rintro a s' ⟨h1, h2, _⟩
  cases a with
  | token t => exact h1.ep .dimensionArgument
  | group g =>
    refine Sat.ite (fun _ => ⟨h1, trivial⟩) (fun _ => ?_)
    have hp : Pre st o s' := h.next h1.ext
    refine Step.bind (m := H.onStr _ _) h1.ext Grow.nil (onStr_spec (fun u => ?_) hp h2.infix) (by have := h1.len; wt) ?_
    · refine Good.bind (good_dimension u) fun _ r _ => ?_
      exact List.suffix_refl r
    · rintro ⟨x, l⟩ s2 ⟨rfl, _⟩
      exact Sat.ite (fun _ => ⟨h1, trivial⟩) (fun _ => h1.ep .dimensionArgument)

theorem genfracStyle_spec (h : Pre st o s) : HSat cf st o s 0 (fun _ s' => Mv st o s s' ∧ True) (genfracStyle s) := by
  unfold genfracStyle
  refine Step.bind (Ext.refl h) Grow.nil (argument_spec h) (by wt) ?_
  rintro a s' ⟨h1, _⟩
  have key : ∀ c, HSat cf st o s 0 (fun _ s' => Mv st o s s' ∧ True)
      ((match styleOf c with | some s => pure (some s) | none => M.fail .argument : H (Option Style)) s') := by
    intro c
    cases styleOf c with
    | none => exact h1.ep .argument
    | some => exact ⟨h1, trivial⟩
  cases a with
  | token t =>
    cases t with
    | cs n => exact h1.ep .argument
    | chr c x => exact key c
  | group g =>
    dsimp only
    cases g.cs with
    | nil => exact ⟨h1, trivial⟩
    | cons c t =>
      cases t with
      | nil => exact key c
      | cons => exact h1.ep .argument

theorem arm_genfrac (hr : RecOK cf st o n rec) (h : Pre st o s)
    (hn : s.len + 1 ≤ n) : Arm cf st o s (execPrim cf rec .genfrac) := by
  simp only [execPrim]
  refine (At.start h).bindMv (genfracDelim_spec h) (by wt) fun l s1 A l1 _ => ?_
  refine A.bindMv (genfracDelim_spec A.pre) (by wt) fun r s2 A l2 _ => ?_
  refine A.bindMv (genfracBar_spec A.pre) (by wt) fun r s3 A l3 _ => ?_
  refine A.bindMv (genfracStyle_spec A.pre) (by wt) fun r s4 A l4 _ => ?_
  exact A.fractionLike hr (by omega) (by omega)

theorem At.scriptSwap {ty : ScriptType} {p : ScriptPos} {m : H HArg} (hr : RecOK cf st o n rec)
    (A : At st o s0 0 s [.ev (.script ty p)]) (hty : scriptOperands ty = 2)
    (hm : HSat cf st o s 0 (fun a s' => Mv st o s s' ∧ ArgOK st o s' a ∧ a.size + s'.len ≤ s0.len ∧ a.size + a.tl ≤ s0.len ∧ 16 * a.size + 16 * s'.len ≤ 16 * s0.len) (m s))
    (hl : s.len ≤ s0.len) (hn : s0.len + 1 ≤ n) :
    HSat cf st o s0 8 (fun _ s' => ArmPost st o s0 s') (scriptSwap rec m s) := by
  unfold PL.scriptSwap
  rw [M.get_bind]
  refine A.bindMv hm (by wt) ?_
  rintro a s1 A1 l1 ⟨h1, h2, h3, h4⟩
  have := a.size_w; have := a.size_pos
  have b1 : s1.buf = s.buf := by rw [A1.ext.buf, A.ext.buf]
  refine Step.bind A1.ext ⟨0, A1.op⟩ (handleArgument_spec hr A1.pre h1 (by omega)) (by wt) ?_
  rintro _ s2 ⟨d1, e1, f1, el1, al1, w1, l2⟩
  rw [M.get_bind, M.modify_bind]
  have bd : s2.buf = s.buf ++ d1 := by rw [e1.buf, b1]
  simp only [bd, List.drop_left, List.take_left]
  have hext : Ext st o s0 { s2 with buf := s.buf } [.ev (.script ty p)] := by
    have := A1.ext.trans e1
    exact ⟨A.ext.buf, this.sub, A.ext.subs, this.mac, this.smac, this.harg, this.skip⟩
  have A2 : At st o s0 0 { s2 with buf := s.buf } [.ev (.script ty p)] := ⟨A.pre0, hext, A.op, al1.trans A1.align⟩
  have l2' : HSt.len { s2 with buf := s.buf } = s2.len := rfl
  generalize HSt.mk s2.content s.buf s2.allowMods s2.pos s2.skip s2.harg s2.align s2.macros = s3 at *
  have hw : W d1 + 16 * s3.len ≤ 16 * s0.len := by
    rcases Nat.le_total s1.len a.tl with h | h
    · rw [Nat.max_eq_right h] at w1; omega
    · rw [Nat.max_eq_left h] at w1; omega
  have hl3 : s3.len + 1 ≤ s0.len := by omega
  refine A2.bindMv (argument_spec A2.pre) (by wt) ?_
  rintro b s4 A3 l4 ⟨h5, h6, h7, h8⟩
  have := b.size_w; have := b.size_pos
  refine A3.handle hr h5 (by omega) (by omega) (by wt) fun s5 d2 A4 e2 w2 l5 => ?_
  refine A4.push' e1.subs (j' := 0) (fun k => f1 _) fun s6 A5 l6 _ => ?_
  refine A5.done (d' := .ev (.script ty p) :: (d2 ++ d1)) (by simp) (by wt) (by omega) (Elem.script ?_)
  rw [hty]
  exact Elems.two e2 el1

theorem arm_overset {ty : ScriptType} (hty : scriptOperands ty = 2) (hr : RecOK cf st o n rec) (h : Pre st o s)
    (hn : s.len + 1 ≤ n) : Arm cf st o s (execPrim cf rec (.overset ty)) := by
  simp only [execPrim]
  refine (At.start h).ev (j' := 0) (fun _ => rfl) fun s1 A l1 _ => ?_
  refine A.scriptSwap hr hty ?_ (by omega) hn
  refine Sat.mono (argument_spec A.pre) ?_ (fun _ _ h => h) (fun _ h => h)
  rintro a s' ⟨h1, h2, h3, h4, h5⟩
  exact ⟨h1, h2, by omega, by omega, by omega⟩

theorem arm_buildrel (hst : st = false) (hr : RecOK cf st o n rec) (h : Pre st o s)
    (hn : s.len + 1 ≤ n) : Arm cf st o s (execPrim cf rec .buildrel) := by
  simp only [execPrim]
  refine (At.start h).bindMv (contentWithSuffix_spec (by decide) h) (by wt) ?_
  rintro g s1 A l1 ⟨h1, h2⟩
  refine A.ev (j' := 0) (fun _ => rfl) fun s2 A l2 _ => ?_
  refine A.scriptSwap hr rfl ?_ (by omega) hn
  refine Sat.mono (argumentOf_spec A.pre h1 hst) ?_ (fun _ _ h => h) (fun _ h => h)
  rintro a s' ⟨rfl, h2, h3, h4⟩
  exact ⟨Mv.refl A.pre, h2, by omega, by omega, by omega⟩

theorem isMathEnv_sub : Grouping.isMathEnv (.subArray .center) = true := rfl

theorem arm_substack (h : Pre st o s) : Arm cf st o s (execPrim cf rec .substack) := by
  simp only [execPrim]
  refine (At.start h).bindMv (braceArgument_spec h) (by wt) ?_
  rintro g s1 A l1 ⟨h1, h2⟩
  refine A.push' (mem_one h1 (some ⟨0, 0⟩) (by simp)) (j' := 0) (fun _ => rfl) fun s2 A l2 _ => ?_
  exact A.done rfl (by wt) (by omega) (Elem.group (Inside.env rfl (Nat.zero_le _)))

theorem arm_sideset (hr : RecOK cf st o n rec) (h : Pre st o s)
    (hn : s.len + 1 ≤ n) : Arm cf st o s (execPrim cf rec .sideset) := by
  simp only [execPrim]
  refine (At.start h).bindMv (argument_spec h) (by wt) ?_
  rintro a s1 A l1 -
  refine A.bindMv (argument_spec A.pre) (by wt) ?_
  rintro a s2 A l2 -
  refine A.bindMv (argument_spec A.pre) (by wt) ?_
  rintro a s3 A l3 ⟨h2, h3, h4, h5⟩
  have := a.size_w; have := a.size_pos
  refine A.handle' hr h2 (by omega) (by omega) (by wt) fun s4 d1 A e1 w1 l4 => ?_
  exact A.done rfl (by wt) (by omega) e1

theorem arm_sqrt (hr : RecOK cf st o n rec) (h : Pre st o s)
    (hs : st = true → ∀ w t, Spaces w → s.content.cs ≠ w ++ '[' :: t)
    (hn : s.len + 1 ≤ n) : Arm cf st o s (execPrim cf rec .sqrt) := by
  simp only [execPrim]
  refine (At.start h).bindMv (optionalArgument_spec h) (by wt) ?_
  rintro ix s1 A l1 ⟨hb, _⟩
  cases ix with
  | some g =>
    obtain ⟨hg, hg2, w, t, hw, e⟩ := hb g rfl
    dsimp only
    refine A.ev (j' := 0) (fun _ => rfl) fun s2 A l2 c2 => ?_
    refine A.bindMv (argument_spec A.pre) (by wt) ?_
    rintro a s3 A l3 ⟨h2, h3, h4, h5⟩
    have := a.size_w; have := a.size_pos
    refine A.handle hr h2 (by omega) (by omega) (by wt) fun s4 d1 A e1 w1 l4 => ?_
    refine A.push' (mem_one hg none (by simp)) (j' := 0) (fun _ => rfl) fun s5 A l5 _ => ?_
    cases st with
    | true => exact absurd e (hs rfl w t hw)
    | false =>
      refine A.done (d' := .ev (.visual .root) :: (d1 ++ [.sub g none])) (by simp) (by wt) (by omega) ?_
      intro F
      show acc false F (d1 ++ _) = _
      rw [acc_append, e1 F]
      show (if topOk false F = true then some F else none).bind _ = _
      have ht : topOk false F = true := by cases F with
        | nil => rfl
        | cons a F => cases a <;> rfl
      rw [if_pos ht]; rfl
  | none =>
    dsimp only
    refine A.ev (j' := 0) (fun _ => rfl) fun s2 A l2 c2 => ?_
    refine A.bindMv (argument_spec A.pre) (by wt) ?_
    rintro a s3 A l3 ⟨h2, h3, h4, h5⟩
    have := a.size_w; have := a.size_pos
    refine A.handle' hr h2 (by omega) (by omega) (by wt) fun s4 d1 A e1 w1 l4 => ?_
    exact A.done (d' := .ev (.visual .squareRoot) :: d1) (by simp) (by wt) (by omega) (Elem.visual (Elems.one e1))

end PL
