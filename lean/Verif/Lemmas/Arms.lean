import Verif.Lemmas.Handler
set_option autoImplicit false
/-! # The arms of `execPrim` -/
namespace PL
open Lex Spec Macros H

variable {cf : Cfg} {st : Bool} {o : Sl} {s0 s s' : HSt} {j : Nat} {d : List Instr} {α β : Type}
variable {n : Nat} {rec : HTok → H PUnit}

macro "wt" : tactic => `(tactic| ((try simp only [W_append, W, List.nil_append] at *); omega))

/-- Postcondition of arms. -/
abbrev Arm (cf : Cfg) (st : Bool) (o : Sl) (s : HSt) (m : H PUnit) : Prop :=
  HSat cf st o s 8 (fun _ s' => ArmPost st o s s') (m s)

theorem groupArg_spec {e : ErrorKind} (h : Pre st o s) :
    HSat cf st o s 0 (fun g s' => Mv st o s s' ∧ Sub g o ∧ g.cs.length + s'.len + 2 ≤ s.len) (groupArg e s) := by
  unfold groupArg
  refine Step.bind (Ext.refl h) Grow.nil (argument_spec h) (by wt) ?_
  rintro a s' ⟨h1, h2, h3, h4, h5⟩
  cases a with
  | group g => exact ⟨h1, h2, by simp only [HArg.size] at h4; omega⟩
  | token => exact h1.ep e

theorem color_panic {t : Str} (h : Lex.color t = .panic) : Wide t := by
  refine Classical.byContradiction fun hw => ?_
  have hascii : ∀ c ∈ t, c.utf8Size = 1 := by
    intro c hc
    exact Classical.byContradiction fun hne => hw ⟨c, hc, hne⟩
  have hsplit : ∀ {u : Str} {k : Nat}, (∀ c ∈ u, c.utf8Size = 1) → k ≤ blen u → splitBytes u k ≠ none := by
    intro u
    induction u with
    | nil => intro k _ hk; simp [blen] at hk; subst hk; simp [splitBytes]
    | cons c u ih =>
      intro k hu hk
      cases k with
      | zero => simp [splitBytes]
      | succ k =>
        have h1 := hu c (by simp)
        have := ih (k := k) (fun c hc => hu c (by simp [hc])) (by simp [blen, h1] at hk; omega)
        unfold splitBytes
        simp [h1]
        exact this
  unfold Lex.color at h
  split at h
  · rename_i hex hh
    have hs := stripPrefix_some.1 hh
    have hx : ∀ c ∈ hex, c.utf8Size = 1 := fun c hc => hascii c (by rw [hs]; simp [hc])
    split at h
    · rename_i h6
      split at h
      · rename_i hn; exact hsplit hx (by omega) hn
      · rename_i rs rest hsp
        have hr := splitBytes_spec hsp
        split at h
        · cases h
        · split at h
          · rename_i hn
            have e1 : blen hex = blen rs + blen rest := by rw [hr.1, blen_append]
            exact hsplit (fun c hc => hx c (by rw [hr.1]; simp [hc])) (by omega) hn
          · repeat (split at h <;> try cases h)
    · cases h
  · repeat (split at h <;> try cases h)

theorem colorOf_spec (h : Pre st o s) {t : Str} (ht : t <:+: o.cs) :
    HSat cf st o s 0 (fun _ s' => s' = s ∧ True) (colorOf t s) := by
  unfold colorOf
  cases hc : Lex.color t with
  | some c => exact ⟨rfl, trivial⟩
  | none => exact (Mv.refl h).ep .unknownColor
  | panic => exact .inr ⟨rfl, (color_panic hc).mono fun c hc => ht.subset hc⟩

/-- One event. -/
theorem arm_ev {e : Event} (h : Pre st o s) (he : Simple e) (ho : ∀ k, dep k [.ev e] = some k) : Arm cf st o s (ev e) := by
  refine (At.start h).ev' (j' := 0) ho fun s' A hl _ => A.done rfl ?_ (by omega) (Elem.ev he)
  rw [hl]; wt

theorem At.ev1 {e : Event} (A : At st o s0 0 s []) (he : Simple e) (ho : ∀ k, dep k [.ev e] = some k)
    (hl : s.len ≤ s0.len) : HSat cf st o s0 8 (fun _ s' => ArmPost st o s0 s') (H.ev e s) := by
  refine A.ev' (j' := 0) ho fun s' A hl _ => A.done rfl ?_ (by omega) (Elem.ev he)
  rw [hl]; wt

theorem arm_funcMov {t : Str} (h : Pre st o s) : Arm cf st o s (execPrim cf rec (.funcMov t)) := by
  simp only [execPrim]
  refine (At.start h).allowMods fun s1 A l1 _ => A.setPos fun s2 A l2 _ => A.ev1 trivial (fun _ => rfl) (by omega)

theorem arm_operatorname (h : Pre st o s) : Arm cf st o s (execPrim cf rec .operatorname) := by
  simp only [execPrim]
  refine (At.start h).allowMods fun s1 A l1 _ => ?_
  refine A.bindMv (argument_spec A.pre) (by wt) ?_
  rintro a s2 A l2 ⟨h2, h3, h4, h5⟩
  cases a with
  | group g => exact A.ev1 trivial (fun _ => rfl) (by omega)
  | token t =>
    cases t with
    | cs => exact A.fail (by wt)
    | chr => exact A.ev1 trivial (fun _ => rfl) (by omega)

theorem arm_pmod (hst : st = false) (hr : RecOK cf st o n rec) (h : Pre st o s) (hn : s.len + 1 ≤ n) :
    Arm cf st o s (execPrim cf rec .pmod) := by
  simp only [execPrim]
  refine (At.start h).bindMv (argument_spec h) (by wt) ?_
  rintro a s1 A l1 ⟨h2, h3, h4, h5⟩
  have := a.size_w; have := a.size_pos
  refine A.push (by simp) (j' := 1) (fun _ => rfl) fun s2 A l2 c2 => ?_
  refine A.handle hr (h2.congr c2) (by omega) (by omega) (by wt) fun s3 d1 A ed w1 l3 => ?_
  refine A.push' (by simp) (j' := 0) (fun _ => rfl) fun s4 A l4 _ => ?_
  refine A.done (d' := _) rfl (by wt) (by omega) ?_
  subst hst
  have e1 : Elem false [Instr.ev (.space (some ⟨⟨1, 1⟩, .em⟩) none none)] := Elem.ev trivial
  have e2 : Elem false (Instr.ev (.begin_ .normal) ::
      (([.ev (.content (.delimiter '(' none .open_))] ++ ([.ev (.content (.function c!"mod"))] ++ (d1 ++ []))) ++ [.ev .end_])) :=
    Elem.group (Inside.elem (Elem.ev trivial) (Inside.elem (Elem.ev trivial) (Inside.elem ed Inside.nil)))
  have e3 : Elem false [Instr.ev (.content (.delimiter ')' none .close))] := Elem.ev trivial
  simpa using (e1.append_loose e2).append_loose e3

theorem arm_atom {cls : AtomClass} (hr : RecOK cf st o n rec) (A : At st o s0 0 s []) (hl : s.len ≤ s0.len) (hn : s0.len + 1 ≤ n) :
    HSat cf st o s0 8 (fun _ s' => ArmPost st o s0 s') (atomGroup rec cls s) := by
  unfold atomGroup
  refine A.bindMv (argument_spec A.pre) (by wt) ?_
  rintro a s1 A l1 ⟨h2, h3, h4, h5⟩
  have := a.size_w; have := a.size_pos
  cases hc : singleChar a with
  | some c => exact A.ev1 (by cases cls <;> trivial) (by cases cls <;> exact fun _ => rfl) (by omega)
  | none =>
    have main : HSat cf st o s0 8 (fun _ s' => ArmPost st o s0 s')
        ((do ev (.begin_ .normal); handleArgument rec a; ev .end_ : H PUnit) s1) := by
      refine A.ev (j' := 1) (fun _ => rfl) fun s2 A l2 c2 => ?_
      refine A.handle hr (h2.congr c2) (by omega) (by omega) (by wt) fun s3 d1 A e1 w1 l3 => ?_
      refine A.ev' (j' := 0) (fun _ => rfl) fun s4 A l4 _ => ?_
      refine A.done (d' := _ :: (d1 ++ [.ev .end_])) (by simp; rfl) (by wt) (by omega) (Elem.group (Inside.one e1))
    dsimp only
    cases cls <;> cases a <;> first | exact main | exact A.ev1 trivial (fun _ => rfl) (by omega)

theorem arm_dots (h : Pre st o s) : Arm cf st o s (execPrim cf rec .dots) := by
  simp only [execPrim, Arm]
  rw [M.get_bind]
  generalize trimStart s.content.cs = t
  cases t with
  | nil => exact arm_ev h trivial fun _ => rfl
  | cons c t =>
    dsimp only
    refine Sat.ite (fun _ => arm_ev h trivial fun _ => rfl) (fun _ => arm_ev h trivial fun _ => rfl)

theorem arm_state {e : StateChange} (h : Pre st o s) :
    Arm cf st o s (do setSkip; ev (.stateChange e)) := by
  refine (At.start h).setSkip fun s1 A l1 _ => A.ev1 trivial (fun _ => rfl) (by omega)

theorem arm_color (h : Pre st o s) : Arm cf st o s (execPrim cf rec .color) := by
  simp only [execPrim]
  refine (At.start h).bindMv (groupArg_spec h) (by wt) ?_
  rintro g s1 A l1 ⟨h2, h3⟩
  refine A.setSkip fun s2 A l2 _ => ?_
  refine A.bindSame (colorOf_spec A.pre h2.infix) (by wt) fun c _ => ?_
  exact A.ev1 trivial (fun _ => rfl) (by omega)

theorem arm_textcolor (hr : RecOK cf st o n rec) (h : Pre st o s) (hn : s.len + 1 ≤ n) :
    Arm cf st o s (execPrim cf rec .textcolor) := by
  simp only [execPrim]
  refine (At.start h).bindMv (groupArg_spec h) (by wt) ?_
  rintro g s1 A l1 ⟨h2, h3⟩
  refine A.bindSame (colorOf_spec A.pre h2.infix) (by wt) fun c _ => ?_
  refine A.bindMv (argument_spec A.pre) (by wt) ?_
  rintro a s2 A l2 ⟨h2, h3, h4, h5⟩
  have := a.size_w; have := a.size_pos
  refine A.push (by simp) (j' := 1) (fun _ => rfl) fun s3 A l3 c3 => ?_
  refine A.handle hr (h2.congr c3) (by omega) (by omega) (by wt) fun s4 d1 A e1 w1 l4 => ?_
  refine A.ev' (j' := 0) (fun _ => rfl) fun s5 A l5 _ => ?_
  refine A.done (d' := _ :: ((_ :: d1) ++ [.ev .end_])) (by simp; exact ⟨rfl, rfl⟩) (by wt) (by omega) (Elem.group (Inside.ev (by trivial) (Inside.one e1)))

/-- Text arguments. -/
theorem textArgument_spec {f : Option Font} (h : Pre st o s) :
    HSat cf st o s 0 (fun _ s' => ∃ d, Ext st o s s' d ∧ Flat d ∧ W d + 16 * s'.len ≤ 16 * s.len ∧ s'.len ≤ s.len ∧
      Elem st d ∧ s'.align = s.align) (textArgument f s) := by
  unfold textArgument
  refine (At.start h).bindMv (m := do
    match ← argument with
    | .token (.chr _ ctx) => return ctx.cs
    | .group g => return g.cs
    | .token (.cs _) => M.fail .controlSequenceAsArgument) (R := fun _ s' => s'.len + 1 ≤ s.len) ?_ (by wt) ?_
  · refine Step.bind (Ext.refl h) Grow.nil (argument_spec h) (by wt) ?_
    rintro a s' ⟨h1, h2, h3, h4, h5⟩
    have := a.size_pos
    cases a with
    | group g => exact ⟨h1, by omega⟩
    | token t =>
      cases t with
      | cs => exact h1.ep .controlSequenceAsArgument
      | chr => exact ⟨h1, by omega⟩
  · rintro t s1 A l1 h1
    cases f with
    | some f =>
      refine A.push' (by simp) (j' := 0) (fun _ => rfl) fun s2 A l2 _ => ?_
      refine ⟨_, A.ext, A.flat, by wt, by omega, ?_, A.align⟩
      exact Elem.group (Inside.ev (by trivial) (Inside.ev (by trivial) Inside.nil))
    | none =>
      refine A.ev' (j' := 0) (fun _ => rfl) fun s2 A l2 _ => ?_
      refine ⟨_, A.ext, A.flat, by wt, by omega, Elem.ev trivial, A.align⟩

theorem arm_text {f : Option Font} (h : Pre st o s) : Arm cf st o s (execPrim cf rec (.text f)) := by
  simp only [execPrim]
  refine Sat.mono (textArgument_spec h) ?_ (fun _ _ h => h.mono (by omega)) (fun _ h => h)
  rintro _ s' ⟨d, h1, h2, h3, h4, h5, h6⟩
  exact ⟨d, h1, h2, by omega, h4, h5, h6⟩

theorem At.text (A : At st o s0 j s d) {f : Option Font} {k : PUnit → H α} {Q : α → HSt → Prop} {b : Nat}
    (hb : W d + 16 * s.len ≤ 16 * s0.len + b)
    (hf : ∀ s' d1, At st o s0 j s' (d ++ d1) → Elem st d1 → W d1 + 16 * s'.len ≤ 16 * s.len → s'.len ≤ s.len →
      HSat cf st o s0 b Q (k ⟨⟩ s')) :
    HSat cf st o s0 b Q ((textArgument f >>= k) s) := by
  refine Step.bind A.ext ⟨j, A.op⟩ (textArgument_spec A.pre) hb ?_
  rintro _ s' ⟨d1, h1, h2, h3, h4, h5, h6⟩
  exact hf s' d1 (A.append h1 (fun k => h2 _) h6) h5 h3 h4

theorem arm_colorbox (h : Pre st o s) : Arm cf st o s (execPrim cf rec .colorbox) := by
  simp only [execPrim]
  refine (At.start h).bindMv (groupArg_spec h) (by wt) ?_
  rintro g s1 A l1 ⟨h2, h3⟩
  refine A.bindSame (colorOf_spec A.pre h2.infix) (by wt) fun c _ => ?_
  refine A.push (by simp) (j' := 1) (fun _ => rfl) fun s3 A l3 c3 => ?_
  refine A.text (by wt) fun s4 d1 A e1 w1 l4 => ?_
  refine A.ev' (j' := 0) (fun _ => rfl) fun s5 A l5 _ => ?_
  refine A.done (d' := _ :: ((_ :: d1) ++ [.ev .end_])) (by simp; exact ⟨rfl, rfl⟩) (by wt) (by omega) (Elem.group (Inside.ev (by trivial) (Inside.one e1)))

theorem arm_fcolorbox (h : Pre st o s) : Arm cf st o s (execPrim cf rec .fcolorbox) := by
  simp only [execPrim]
  refine (At.start h).bindMv (groupArg_spec h) (by wt) ?_
  rintro g s1 A l1 ⟨h2, h3⟩
  refine A.bindMv (groupArg_spec A.pre) (by wt) ?_
  rintro g2 s2 A l2 ⟨h4, h5⟩
  refine A.bindSame (colorOf_spec A.pre h2.infix) (by wt) fun c _ => ?_
  refine A.bindSame (colorOf_spec A.pre h4.infix) (by wt) fun c _ => ?_
  refine A.push (by simp) (j' := 1) (fun _ => rfl) fun s3 A l3 c3 => ?_
  refine A.text (by wt) fun s4 d1 A e1 w1 l4 => ?_
  refine A.ev' (j' := 0) (fun _ => rfl) fun s5 A l5 _ => ?_
  refine A.done (d' := _ :: ((_ :: _ :: d1) ++ [.ev .end_])) (by simp; exact ⟨rfl, rfl, rfl⟩) (by wt) (by omega)
    (Elem.group (Inside.ev (by trivial) (Inside.ev (by trivial) (Inside.one e1))))

end PL
