import Verif.Lemmas.Arms3
set_option autoImplicit false
/-! # The arms of `execPrim`, concluded -/
namespace PL
open Lex Spec Macros H

variable {cf : Cfg} {st : Bool} {o : Sl} {s0 s s' : HSt} {j : Nat} {d : List Instr} {α β : Type}
variable {n : Nat} {rec : HTok → H PUnit}

theorem arm_surd (h : Pre st o s) : Arm cf st o s (execPrim cf rec .surd) := by
  simp only [execPrim]
  refine (At.start h).push' (by simp) (j' := 0) (fun _ => rfl) fun s2 A l2 _ => ?_
  exact A.done rfl (by wt) (by omega) (Elem.visual (Elems.one (Elem.ev (by trivial))))

theorem arm_not (hr : RecOK cf st o n rec) (h : Pre st o s) (hn : s.len + 1 ≤ n) :
    Arm cf st o s (execPrim cf rec .not_) := by
  simp only [execPrim]
  refine (At.start h).ev (j' := 0) (fun _ => rfl) fun s2 A l2 c2 => ?_
  refine A.bindMv (argument_spec A.pre) (by wt) ?_
  rintro a s3 A l3 ⟨h2, h3, h4, h5⟩
  have := a.size_w; have := a.size_pos
  refine A.handle' hr h2 (by omega) (by omega) (by wt) fun s4 d1 A e1 w1 l4 => ?_
  exact A.done (d' := .ev (.visual .negation) :: d1) (by simp) (by wt) (by omega) (Elem.visual (Elems.one e1))

theorem arm_char (h : Pre st o s) : Arm cf st o s (execPrim cf rec .char) := by
  simp only [execPrim]
  refine (At.start h).lex good_unsignedInteger (by wt) fun a s1 A l1 _ => ?_
  exact Sat.ite (fun _ => A.fail (by wt)) (fun _ => A.ev1 trivial (fun _ => rfl) (by omega))

theorem arm_relax (hst : st = false) (h : Pre st o s) : Arm cf st o s (execPrim cf rec .relax) := by
  simp only [execPrim, Arm]
  rw [M.get_bind]
  subst hst
  refine Sat.ite (fun _ => (At.start h).fail (by wt)) (fun _ => ?_)
  exact (At.start h).done rfl (by wt) (Nat.le_refl _) Elem.nil

theorem arm_begingroup (h : Pre st o s) : Arm cf st o s (execPrim cf rec .begingroup) := by
  simp only [execPrim]
  refine (At.start h).bindMv (groupContent_spec _ h) (by wt) ?_
  rintro g s1 A l1 ⟨h1, h2⟩
  refine A.push' (mem_one h1 none (by simp)) (j' := 0) (fun _ => rfl) fun s4 A l4 _ => ?_
  exact A.done rfl (by wt) (by omega) elem_braces

/-! ### Environments -/

theorem mem_of_lookup {κ ν : Type} [BEq κ] [LawfulBEq κ] {k : κ} {v : ν} : ∀ {l : List (κ × ν)}, l.lookup k = some v → (k, v) ∈ l
  | [], h => by cases h
  | (k', v') :: l, h => by
    rw [List.lookup_cons] at h
    split at h
    · rename_i hk
      cases h
      rw [eq_of_beq hk]
      exact List.mem_cons_self
    · exact List.mem_cons_of_mem _ (mem_of_lookup h)

theorem columns_spec {k : Nat} : ∀ {t : Str} {cols : List ArrayCol} {m : Nat}, columns cf k t = .ok (cols, m) →
    m ≤ k + cols.countP isColumn := by
  intro t
  induction t generalizing k with
  | nil => intro cols m h; cases h; exact Nat.le_refl _
  | cons c t ih =>
    intro cols m h
    unfold columns at h
    split at h
    · cases h
    · split at h
      · cases h
      · rename_i col hcol
        dsimp only at h
        split at h
        · cases h
        · rename_i cs m' hc
          cases h
          have := ih hc
          cases col with
          | column a =>
            have h2 : (k + 1) % 2 ^ 16 ≤ k + 1 := Nat.mod_le _ _
            simp only at this ⊢
            rw [List.countP_cons_of_pos rfl]
            omega
          | separator a =>
            rw [List.countP_cons_of_neg (by simp [isColumn])]
            exact this

theorem columns_panic {k : Nat} : ∀ {t : Str} {p : Panic}, columns cf k t = .error (.inr p) → p = .overflow ∧ cf.overflowChecks = true := by
  intro t
  induction t generalizing k with
  | nil => intro p h; cases h
  | cons c t ih =>
    intro p h
    unfold columns at h
    split at h
    · rename_i hc
      cases h
      simp only [Bool.and_eq_true] at hc
      exact ⟨rfl, hc.2⟩
    · split at h
      · cases h
      · dsimp only at h
        split at h
        · rename_i he
          cases h
          exact ih he
        · cases h

/-- What the environments may select. -/
def EnvOK (e : Env) : Prop := (e.g.isMathEnv && beginOk e.g) = true ∧ e.max ≤ alignments e.g

theorem arrayEnvironment_spec (h : Pre st o s) :
    HSat cf st o s 0 (fun x s' => Mv st o s s' ∧ (x.1.isMathEnv && beginOk x.1) = true ∧ x.2 ≤ alignments x.1) (arrayEnvironment cf s) := by
  unfold arrayEnvironment
  refine Step.bind (Ext.refl h) Grow.nil (groupArg_spec h) (by wt) ?_
  rintro g s' ⟨h1, h2, _⟩
  cases hc : columns cf 0 g.cs with
  | error e =>
    cases e with
    | inl e => exact h1.ep e
    | inr p => exact .inl (columns_panic hc)
  | ok x =>
    obtain ⟨cols, m⟩ := x
    refine Sat.ite (fun _ => h1.ep .arrayNoColumns) (fun hany => ⟨h1, ?_, ?_⟩)
    · have : cols.any ArrayCol.isColumn = true := by simpa using hany
      show cols.any isColumn = true
      rw [← this]; congr 1
    have := columns_spec hc
    simp only [alignments]
    omega

theorem optionalAlignment_spec (h : Pre st o s) :
    HSat cf st o s 0 (fun _ s' => Mv st o s s' ∧ True) (optionalAlignment s) := by
  unfold optionalAlignment
  refine Step.bind (Ext.refl h) Grow.nil (optionalArgument_spec h) (by wt) ?_
  rintro g s' ⟨h1, _⟩
  cases g with
  | none => exact ⟨h1, trivial⟩
  | some g =>
    exact Sat.ite (fun _ => ⟨h1, trivial⟩) fun _ => Sat.ite (fun _ => ⟨h1, trivial⟩) fun _ =>
      Sat.ite (fun _ => ⟨h1, trivial⟩) fun _ => h1.ep .argument

theorem subarrayAlign_spec (h : Pre st o s) :
    HSat cf st o s 0 (fun _ s' => Mv st o s s' ∧ True) (subarrayAlign s) := by
  unfold subarrayAlign
  refine Step.bind (Ext.refl h) Grow.nil (argument_spec h) (by wt) ?_
  rintro a s' ⟨h1, _⟩
  cases a with
  | token t => exact h1.ep .argument
  | group g =>
    exact Sat.ite (fun _ => ⟨h1, trivial⟩) fun _ => Sat.ite (fun _ => ⟨h1, trivial⟩) fun _ =>
      Sat.ite (fun _ => ⟨h1, trivial⟩) fun _ => h1.ep .argument

/-- Programs that select an environment. -/
def EnvSpec (cf : Cfg) (m : H Env) : Prop := ∀ (st : Bool) (o : Sl) (s : HSt), Pre st o s →
  HSat cf st o s 0 (fun e s' => Mv st o s s' ∧ EnvOK e) (m s)

theorem envSpec_pure {e : Env} (h : EnvOK e) : EnvSpec cf (pure e) := fun _ _ _ hp => ⟨Mv.refl hp, h⟩

theorem envSpec_matrix {ty : MatrixType} {spec : Bool} {z : Option Style} {w : Option (Char × Char)} :
    EnvSpec cf (matrixEnv ty spec z w) := by
  intro st o s h
  unfold matrixEnv
  cases spec with
  | false => exact ⟨Mv.refl h, rfl, Nat.le_refl _⟩
  | true =>
    refine Step.bind (Ext.refl h) Grow.nil (optionalAlignment_spec h) (by wt) ?_
    rintro a s' ⟨h1, _⟩
    exact ⟨h1, rfl, Nat.le_refl _⟩

theorem envSpec_alignat {g : Nat → Grouping} {k : GroupingKind} (hg : ∀ n, ((g n).isMathEnv && beginOk (g n)) = true ∧ alignments (g n) = min 65535 (2 * n - 1)) :
    EnvSpec cf (alignatEnv cf g k) := by
  intro st o s h
  unfold alignatEnv pairsArg pairsMax
  refine Step.bind (m := groupArg .argument >>= _) (Q1 := fun x s' => Mv st o s s') (Ext.refl h) Grow.nil (b := 0) ?_ (by wt) ?_
  · refine Step.bind (Ext.refl h) Grow.nil (groupArg_spec h) (by wt) ?_
    rintro g s' ⟨h1, h2, _⟩
    have hp : Pre st o s' := h.next h1.ext
    refine Step.bind h1.ext Grow.nil (onStr_spec good_unsignedInteger hp h2.infix) (by have := h1.len; wt) ?_
    rintro m s2 ⟨rfl, _⟩
    exact h1
  · rintro m s' h1
    split
    · exact ⟨h1, (hg m).1, by simp only [(hg m).2]; omega⟩
    · split
      · rename_i hc; exact .inl ⟨rfl, hc⟩
      · refine ⟨h1, (hg m).1, ?_⟩
        simp only [(hg m).2]
        have : m * 2 % 2 ^ 16 ≤ m * 2 := Nat.mod_le _ _
        have : m * 2 % 2 ^ 16 < 2 ^ 16 := Nat.mod_lt _ (by decide)
        omega

theorem envSpec_all : ∀ x ∈ environments cf, EnvSpec cf x.2 := by
  have arr : ∀ (k : GroupingKind) (z : Option Style), EnvSpec cf (do
      let (g, n) ← arrayEnvironment cf; return { g := g, max := n, kind := k, style := z }) := by
    intro k z st o s h
    refine Step.bind (Ext.refl h) Grow.nil (arrayEnvironment_spec h) (by wt) ?_
    rintro x s' ⟨h1, h2⟩
    exact ⟨h1, h2⟩
  have subarr : EnvSpec cf (do let a ← subarrayAlign; return { g := .subArray a, max := 0, kind := .subArray }) := by
    intro st o s h
    refine Step.bind (Ext.refl h) Grow.nil (subarrayAlign_spec h) (by wt) ?_
    rintro x s' ⟨h1, h2⟩
    exact ⟨h1, rfl, Nat.zero_le _⟩
  intro x hx
  simp only [environments, List.mem_cons, List.not_mem_nil, or_false] at hx
  rcases hx with rfl | rfl | hx
  · exact arr _ _
  · exact arr _ _
  · rcases hx with rfl | rfl | rfl | rfl | rfl | rfl | rfl | rfl | rfl | rfl | rfl | rfl | rfl | rfl | rfl | rfl | rfl |
      rfl | rfl | rfl | rfl | rfl | rfl | rfl | rfl | rfl | rfl | rfl | rfl | rfl | rfl <;>
    first
      | (dsimp only; exact envSpec_matrix)
      | exact subarr
      | (dsimp only; exact envSpec_alignat fun n => ⟨rfl, rfl⟩)
      | (refine envSpec_pure ⟨rfl, ?_⟩; show _ ≤ _; simp [alignments, u16Max])

theorem lexPure_spec {f : Str → β × Str} (hf : ∀ t, (f t).2 <:+ t) (h : Pre st o s) :
    HSat cf st o s 0 (fun a s' => Mv st o s s' ∧ a = (f s.content.cs).1 ∧ s'.content.cs = (f s.content.cs).2 ∧
      s' = { s with content := { s.content with cs := (f s.content.cs).2 } }) (H.lexPure f s) :=
  ⟨mv_content h (hf _), rfl, rfl, rfl⟩

theorem arm_begin (h : Pre st o s) : Arm cf st o s (execPrim cf rec .begin_) := by
  simp only [execPrim, beginEnv]
  refine (At.start h).bindMv (groupArg_spec h) (by wt) ?_
  rintro name s1 A l1 ⟨h1, h2⟩
  cases he : (environments cf).lookup name.cs with
  | none => exact A.fail (by wt)
  | some m =>
    have hm : EnvSpec cf m := envSpec_all (name.cs, m) (mem_of_lookup he)
    refine A.bindMv (hm _ _ _ A.pre) (by wt) ?_
    rintro env s2 A l2 ⟨h3, h4⟩
    obtain ⟨h3, hb⟩ := Bool.and_eq_true_iff.1 h3
    have main : ∀ (w : Option (Char × Char)) (j : Nat) (d : List Instr) (s3 : HSt),
        (w = none ∧ j = 0 ∧ d = [] ∨ ∃ l r, w = some (l, r) ∧ j = 1 ∧ d = [.ev (.begin_ (.leftRight (some l) (some r)))]) →
        At st o s j s3 d → s3.len = s2.len →
        HSat cf st o s 8 (fun _ s' => ArmPost st o s s') ((do
          let lines ← lexPure horizontalLines
          let content ← groupContent env.kind
          push ([.ev (.begin_ env.g)] ++
            (match env.style with
              | some s => [.ev (.stateChange (.style s))]
              | none => []) ++
            (if lines.isEmpty then [] else [.ev (.flow (.startLines lines))]) ++
            [.sub content (some ⟨0, env.max⟩), .ev .end_] ++
            (if w.isSome then [.ev .end_] else [])) : H PUnit) s3) := by
      intro w j d s3 hw A l3
      have wd : W d ≤ 1 := by rcases hw with ⟨_, _, rfl⟩ | ⟨l, r, _, _, rfl⟩ <;> simp [W]
      refine A.bindMv (lexPure_spec horizontalLines_suffix A.pre) (by wt) ?_
      rintro lines s4 A l4 -
      refine A.bindMv (groupContent_spec _ A.pre) (by wt) ?_
      rintro g s5 A l5 ⟨h5, h6⟩
      have key : ∀ (mid : List Instr), W mid ≤ 2 → Flat mid → (∀ x al, Instr.sub x al ∉ mid) →
          Inside st env.g (mid ++ [.sub g (some ⟨0, env.max⟩)]) →
          HSat cf st o s 8 (fun _ s' => ArmPost st o s s') (push ([.ev (.begin_ env.g)] ++ mid ++
            [.sub g (some ⟨0, env.max⟩), .ev .end_] ++ (if w.isSome then [.ev .end_] else [])) s5) := by
        intro mid wm fm sm im
        have hel := Elem.group im
        have hsub : ∀ x al, Instr.sub x al ∈ ([.ev (.begin_ env.g)] ++ mid ++
            [.sub g (some ⟨0, env.max⟩), .ev .end_] ++ (if w.isSome then [.ev .end_] else []) : List Instr) → Sub x o := by
          intro x al hx
          have : Instr.sub x al ∈ mid ∨ x = g := by
            cases hw' : w.isSome <;> simp [hw'] at hx <;> exact hx.imp id And.left
          rcases this with hx | rfl
          · exact absurd hx (sm x al)
          · exact h5
        have hdep : ∀ k, dep k ([.ev (.begin_ env.g)] ++ mid ++ [.sub g (some ⟨0, env.max⟩), .ev .end_]) = some k := by
          intro k
          rw [dep_append, dep_append]
          have : dep k [.ev (.begin_ env.g)] = some (k + 1) := by simp [dep, hb]
          rw [this]
          show ((dep (k + 1) mid).bind _) = _
          rw [fm]
          rfl
        rcases hw with ⟨rfl, rfl, rfl⟩ | ⟨l, r, rfl, rfl, rfl⟩
        · refine A.push' hsub (j' := 0) (fun k => by simpa using hdep k) fun s6 A l6 _ => ?_
          refine A.done (d' := .ev (.begin_ env.g) :: ((mid ++ [.sub g (some ⟨0, env.max⟩)]) ++ [.ev .end_])) (by simp) (by wt) (by omega) hel
        · refine A.push' hsub (j' := 0) (fun k => ?_) fun s6 A l6 _ => ?_
          · rw [dep_append, hdep]; rfl
          · refine A.done (d' := .ev (.begin_ (.leftRight (some l) (some r))) ::
              ((.ev (.begin_ env.g) :: ((mid ++ [.sub g (some ⟨0, env.max⟩)]) ++ [.ev .end_])) ++ [.ev .end_])) (by simp) (by wt) (by omega)
              (Elem.group (Inside.one hel))
      have hE := Inside.env (st := st) (x := g) h3 h4
      cases hz : env.style <;> cases hl : lines.isEmpty <;> simp only [if_true, Bool.false_eq_true, if_false]
      · simpa using key [.ev (.flow (.startLines lines))] (by simp [W]) (Flat.cons (by trivial) Flat.nil) (by simp) (Inside.lines h3 hE)
      · simpa using key [] (by simp [W]) Flat.nil (by simp) hE
      · rename_i z
        simpa using key [.ev (.stateChange (.style z)), .ev (.flow (.startLines lines))] (by simp [W])
          (Flat.cons (by trivial) (Flat.cons (by trivial) Flat.nil)) (by simp) (Inside.ev (by trivial) (Inside.lines h3 hE))
      · rename_i z
        simpa using key [.ev (.stateChange (.style z))] (by simp [W]) (Flat.cons (by trivial) Flat.nil) (by simp) (Inside.ev (by trivial) hE)
    cases hw : env.wrap with
    | none => exact main none 0 [] s2 (.inl ⟨rfl, rfl, rfl⟩) A rfl
    | some w =>
      obtain ⟨l, r⟩ := w
      refine A.ev (j' := 1) (fun _ => rfl) fun s3 A l3 _ => ?_
      exact main (some (l, r)) 1 _ s3 (.inr ⟨l, r, rfl, rfl, rfl⟩) A l3

end PL
