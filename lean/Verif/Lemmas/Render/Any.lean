import Verif.Lemmas.Render.Mark
import Verif.Lemmas.Render.Peek
set_option autoImplicit false
/-! # Rendering arbitrary items -/
namespace PL.Mathml
open Spec

/-- `m` returns from `s` with `Q` of the result, or panics as `A` allows. -/
def pw {α : Type} (A : Panic → Prop) (m : W α) (Q : α → RSt → Prop) (s : RSt) : Prop := wp m Q s ∨ ∃ p, m s = .panic p ∧ A p

theorem pw_bind {α β : Type} {A : Panic → Prop} {m : W α} {f : α → W β} {Q : β → RSt → Prop} {s : RSt}
    (h : pw A m (fun a s' => pw A (f a) Q s') s) : pw A (m >>= f) Q s := by
  rcases h with ⟨a, s', h1, h2⟩ | ⟨p, h1, h2⟩
  · rcases h2 with h2 | ⟨p, h2, h3⟩
    · exact .inl ((wp_bind _ _ _ _).2 ⟨a, s', h1, h2⟩)
    · exact .inr ⟨p, by rw [bind_ok h1]; exact h2, h3⟩
  · exact .inr ⟨p, by rw [run_bind, h1], h2⟩

theorem pw_mono {α : Type} {A : Panic → Prop} {m : W α} {Q R : α → RSt → Prop} {s : RSt} (h : pw A m Q s)
    (hr : ∀ a s', Q a s' → R a s') : pw A m R s := by
  rcases h with h | h
  · exact .inl (wp_mono h hr)
  · exact .inr h

def isGroup : EnvR → Bool
  | .group _ => true
  | _ => false

/-- Nothing that is written without escape contains `<`. -/
def SafeItem : RItem → Prop
  | .ok e => SafeEvent e
  | .err m => '<' ∉ m

def SafeAll (cfg : RCfg) (items : List RItem) : Prop := FmtOk cfg ∧ ∀ i ∈ items, SafeItem i

/-- The entry comes from one of the items. -/
def EnvOk (items : List RItem) : EnvR → Prop
  | .group (.array cols i) => .ok (.begin_ (.array cols)) ∈ items ∧ cols.any isColumn = true ∧ ∃ k, At cols k i
  | .group (.alignat p _) => (∃ b, .ok (.begin_ (.alignat p b)) ∈ items) ∨ .ok (.begin_ (.alignedat p)) ∈ items
  | .group (.leftRight r) => ∃ l, .ok (.begin_ (.leftRight l r)) ∈ items
  | _ => True

structure Inv (cfg : RCfg) (items its : List RItem) (o : Str) (env : List EnvR) (n : Nat) : Prop where
  its : ∀ i ∈ its, i ∈ items
  out : SafeAll cfg items → markB o = true
  sts : n = 1 + env.countP isGroup
  env : ∀ e ∈ env, EnvOk items e

def InvS (cfg : RCfg) (items : List RItem) (s : RSt) : Prop :=
  s.budget = none ∧ Inv cfg items (s.peeked ++ s.rest) s.out s.env s.sts.length

/-- The panics that may occur. -/
def Allowed (cfg : RCfg) (items : List RItem) (p : Panic) : Prop :=
  (p = .index ∧ (∃ cols, .ok (.begin_ (.array cols)) ∈ items) ∧ .ok (.flow .alignment) ∈ items) ∨
  (p = .overflow ∧ cfg.checks = true ∧ ∃ k ≥ 32767, (∃ b, .ok (.begin_ (.alignat k b)) ∈ items) ∨ .ok (.begin_ (.alignedat k)) ∈ items)

theorem Inv.write {cfg : RCfg} {items its its' : List RItem} {o t : Str} {env : List EnvR} {n : Nat}
    (h : Inv cfg items its o env n) (hi : ∀ i ∈ its', i ∈ its) (ht : SafeAll cfg items → Pc t) : Inv cfg items its' (o ++ t) env n :=
  ⟨fun i hm => h.its i (hi i hm), fun hs => markB_append (h.out hs) (ht hs).starts (ht hs).mark, h.sts, h.env⟩

theorem Inv.same {cfg : RCfg} {items its : List RItem} {o : Str} {env env' : List EnvR} {n : Nat}
    (h : Inv cfg items its o env n) (he : SameEnv env env') : Inv cfg items its o env' n := by
  rcases he with rfl | ⟨ty, a, k, f, r, rfl, rfl⟩
  · exact h
  · refine ⟨h.its, h.out, h.sts, ?_⟩
    intro e he
    rcases List.mem_cons.1 he with rfl | he
    · trivial
    · exact h.env e (by simp [he])

theorem Inv.push {cfg : RCfg} {items its : List RItem} {o : Str} {env : List EnvR} {n : Nat} {e : EnvR}
    (h : Inv cfg items its o env n) (he : EnvOk items e) : Inv cfg items its o (e :: env) (n + (if isGroup e then 1 else 0)) := by
  refine ⟨h.its, h.out, ?_, ?_⟩
  · rw [h.sts, List.countP_cons]; omega
  · intro x hx
    rcases List.mem_cons.1 hx with rfl | hx
    · exact he
    · exact h.env x hx

theorem Writes.head {α : Type} {a : Str} {f : PUnit → W α} {i : α} {t : Str} (h : Writes (W.out a >>= f) i t) (hf : Good (f ⟨⟩)) :
    ∃ u, t = a ++ u := by
  have e := h [] [] [] [] [] none false
  rw [bind_ok (m := W.out a) (a := PUnit.unit) (s' := ⟨[], [], a, none, [], [], none, false⟩) rfl] at e
  rcases hf.run ⟨[], [], [], none, [], [], none, false⟩ rfl with ⟨b, d, h1, h2⟩ | ⟨p, u, h2⟩
  · have := h2 ⟨[], [], a, none, [], [], none, false⟩ rfl
    rw [e] at this
    simp only [lift] at this
    injection this with h3 h4
    exact ⟨d.out, congrArg RSt.out h4⟩
  · have := h2 ⟨[], [], a, none, [], [], none, false⟩ rfl
    rw [e] at this
    simp only [liftPanic] at this
    cases this

theorem w_assoc {α β γ : Type} (m : W α) (f : α → W β) (g : β → W γ) : (m >>= f) >>= g = m >>= fun x => f x >>= g := by
  funext s
  rw [run_bind, run_bind, run_bind]
  cases m s <;> rfl

theorem starts_lt (r : Str) : Starts ('<' :: r) := by
  intro c r e; cases e; rfl

theorem mem_names : c!"mtd" ∈ elementNames ∧ c!"mtr" ∈ elementNames ∧ c!"mtable" ∈ elementNames := by decide

theorem newline_pc {cols : List ArrayCol} {i : Nat} {t : Str} (h : Writes (arrayNewline cols) i t) (ho : OpensCell t) : Pc t := by
  obtain ⟨y, hy⟩ := ho false [] 0
  refine ⟨?_, hy.mark (by simp [mem_names])⟩
  obtain ⟨u, rfl⟩ : ∃ u, t = c!"<mtd" ++ u := by
    unfold arrayNewline at h
    exact h.head (by good)
  exact starts_lt _

theorem align_pc {cols : List ArrayCol} {i i' : Nat} {t : Str} (h : Writes (arrayAlign cols i) i' t) (ho : NextCell t) : Pc t := by
  obtain ⟨y, hy⟩ := ho false [] 0 0
  refine ⟨?_, hy.mark (by simp [mem_names])⟩
  obtain ⟨u, rfl⟩ : ∃ u, t = c!"</mtd><mtd" ++ u := by
    unfold arrayAlign at h
    exact h.head (by good)
  exact starts_lt _

theorem closeSeps_pc (ls : List Line) : Pc (closeSeps ls) := by
  unfold closeSeps
  induction ls with
  | nil => exact .nil
  | cons l ls ih => exact .append (by cases l <;> exact .lit (by decide)) ih

theorem closeLine_ok {cols : List ArrayCol} {i : Nat} (hi : i ≤ cols.length) : ∃ t, Writes (arrayCloseLine cols i) ⟨⟩ t ∧ Pc t := by
  apply Writes.ex
  · unfold arrayCloseLine
    rw [if_neg (by omega)]
    exact (Writes.out _).bind ((Writes.out _).bind (Writes.out _))
  · exact .append (.lit (by decide)) (.append (closeSeps_pc _) (.lit (by decide)))

theorem spacer_ok {cols : List ArrayCol} {k i : Nat} (h : At cols k i) :
    ∃ t, Writes (do let j ← arrayNewline cols; let j ← alignUpTo cols i (i + 1) j; arrayCloseLine cols j) ⟨⟩ t ∧ Pc t := by
  obtain ⟨t, h1, h2⟩ := h.spacer
  refine ⟨t, h1, ?_, InTag.mark (n := c!"mtr") ⟨by decide, .inl rfl⟩ (h2 false [] 0 0) (by simp [mem_names])⟩
  obtain ⟨u, rfl⟩ : ∃ u, t = c!"<mtd" ++ u := by
    unfold arrayNewline at h1
    rw [w_assoc] at h1
    exact h1.head (by
      have h1 := good_arrayNewline
      have h2 := good_alignUpTo
      have h3 := good_arrayCloseLine
      repeat' with_reducible first | exact h2 _ _ _ _ | exact h3 _ _ | good1)
  exact starts_lt _

/-- An alignment in an array goes to the next column or fails. -/
theorem align_or {cols : List ArrayCol} {k i : Nat} (h : At cols k i) :
    (∃ i' t, Writes (arrayAlign cols i) i' t ∧ Pc t ∧ At cols (k + 1) i') ∨ ∀ s, s.budget = none → arrayAlign cols i s = .panic .index := by
  by_cases hk : k < ncols cols - 1
  · obtain ⟨i', t, h1, h2, h3⟩ := h.next hk
    exact .inl ⟨i', t, h1, align_pc h1 h2, h3⟩
  · refine .inr fun s hb => ?_
    have hz : ncols (cols.drop i) = 0 := by
      have := h.count
      have e : ncols cols = ncols (cols.take i) + ncols (cols.drop i) := by
        show cols.countP _ = _
        rw [← List.countP_append, List.take_append_drop]
      omega
    have hs : ∀ cs : List ArrayCol, ncols cs = 0 → (seps cs).length = cs.length := by
      intro cs
      induction cs with
      | nil => intro _; rfl
      | cons c cs ih =>
        intro hc
        cases c with
        | separator l =>
          rw [seps, List.length_cons, List.length_cons, ih]
          simpa [ncols, List.countP_cons, isColumn] using hc
        | column a => simp [ncols, List.countP_cons, isColumn] at hc
    unfold arrayAlign
    have o1 : ∀ (t : Str) (s : RSt), s.budget = none → W.out t s = .ok ⟨⟩ { s with out := s.out ++ t } := by
      intro t s h; simp [W.out, h]
    rw [bind_ok (o1 _ _ hb), if_neg (by have := h.le; omega)]
    dsimp only
    rw [bind_ok (o1 _ _ (by exact hb))]
    have : cols[i + (seps (cols.drop i)).length]? = none := by
      rw [hs _ hz]
      simp
      have := h.le; omega
    rw [this]
    rfl

section
variable {cfg : RCfg} {items : List RItem}
variable {pk rt : List RItem} {o : Str} {env : List EnvR} {st : RState} {ss : List RState} {pv : Option Atom} {rc : Bool}

theorem any_envLines {Q : PUnit → RSt → Prop}
    (h : ∀ p r t, (∀ i ∈ p ++ r, i ∈ pk ++ rt) → Pc t → Q ⟨⟩ ⟨p, r, o ++ t, none, env, ss, pv, rc⟩) :
    wp envLines Q ⟨pk, rt, o, none, env, ss, pv, rc⟩ := by
  rw [envLines, wp_bind]
  apply wp_peekFirst
  intro p r hp
  split
  · rename_i ls hh
    obtain ⟨q, hq⟩ : ∃ q, pk ++ rt = .ok (.flow (.startLines ls)) :: q := by
      cases hx : pk ++ rt with
      | nil => rw [hx] at hh; cases hh
      | cons a q => rw [hx] at hh; cases hh; exact ⟨q, rfl⟩
    rw [wp_bind, wp_out', wp_bind]
    refine wp_next _ _ _ _ _ _ _ (hp.trans hq) fun p r hp => ?_
    exact (wp_pure _ _ _).2 (h p r _ (by rw [hp, hq]; exact fun i hi => List.mem_cons_of_mem _ hi) (hlines_pc ls))
  · have := h p r [] (by rw [hp]; simp) .nil
    rw [List.append_nil] at this
    exact (wp_pure _ _ _).2 this

theorem any_groupChanges {Q : PUnit → RSt → Prop} (n : Nat) : ∀ (pk rt : List RItem) (st : RState), (pk ++ rt).length < n →
    (∀ p r st', (∀ i ∈ p ++ r, i ∈ pk ++ rt) → Q ⟨⟩ ⟨p, r, o, none, env, st' :: ss, pv, rc⟩) →
    wp (groupChanges n) Q ⟨pk, rt, o, none, env, st :: ss, pv, rc⟩ := by
  induction n with
  | zero => intro pk rt st h; omega
  | succ n ih =>
    intro pk rt st hn h
    rw [groupChanges, wp_bind]
    apply wp_peekFirst
    intro p r hp
    split
    · rename_i c hh
      obtain ⟨q, hq⟩ : ∃ q, pk ++ rt = .ok (.stateChange c) :: q := by
        cases hx : pk ++ rt with
        | nil => rw [hx] at hh; cases hh
        | cons a q => rw [hx] at hh; cases hh; exact ⟨q, rfl⟩
      rw [wp_bind, handleStateChange, wp_updState, wp_bind]
      refine wp_next _ _ _ _ _ _ _ (hp.trans hq) fun p r hp => ?_
      refine ih p r _ (by rw [hp]; rw [hq] at hn; simp at hn; omega) fun p' r' st' hm => h p' r' st' fun i hi => ?_
      have := hm i hi
      rw [hp] at this
      rw [hq]; simp [this]
    · exact (wp_pure _ _ _).2 (h _ _ _ (by rw [hp]; simp))

theorem any_openGroup {g : Grouping} (hg : .ok (.begin_ g) ∈ items) (ha : ∀ cols, .ok (.begin_ (.array cols)) ∈ items → cols.any isColumn = true)
    (h : Inv cfg items (pk ++ rt) o env ss.length) :
    wp (do
      let e ← openGroup g
      W.modify fun s => { s with env := .group e :: s.env }) (fun _ s' => InvS cfg items s') ⟨pk, rt, o, none, env, st :: ss, pv, rc⟩ := by
  have tbl : ∀ (op : Str) (e : EnvG), Pc op → EnvOk items (.group e) → wp (do
      let e ← tableOpen op e
      W.modify fun s => { s with env := .group e :: s.env }) (fun _ s' => InvS cfg items s') ⟨pk, rt, o, none, env, st :: ss, pv, rc⟩ := by
    intro op e hop he
    rw [tableOpen, wp_bind, wp_bind, wp_out', wp_bind]
    refine any_envLines fun p r t hm ht => ?_
    wps
    refine ⟨rfl, ?_⟩
    have := ((((h.write (its' := p ++ r) hm (t := op) fun _ => hop).write (t := t) (fun _ h => h) fun _ => ht).write (t := c!"><mtd>") (fun _ h => h)
      fun _ => .lit (by decide)).push he)
    exact this
  cases g with
  | normal =>
    rw [openGroup]
    wps
    exact ⟨rfl, h.push (e := .group .normal) trivial⟩
  | leftRight l r =>
    rw [openGroup]
    obtain ⟨t, h1, h2⟩ := writeDelim_wp (c := l) o env st ss
    rw [wp_bind, wp_bind]
    refine (h2 _ _ _ _ _).2 ?_
    wps
    refine ⟨rfl, (h.write (fun _ h => h) fun hs => ?_).push (e := .group (.leftRight r)) ⟨l, hg⟩⟩
    obtain ⟨k, hk⟩ := h1 (hs.2 _ hg).1
    exact hk.pc
  | array cols =>
    have hc := ha cols hg
    obtain ⟨i, t, h1, h2, h3⟩ := At.start cols hc
    rw [openGroup, wp_bind, wp_bind, wp_out', wp_bind]
    refine any_envLines fun p r u hm hu => ?_
    rw [wp_bind, wp_out', wp_bind]
    refine h1.wp.2 ?_
    wps
    refine ⟨rfl, ?_⟩
    have := (((h.write (its' := p ++ r) hm (t := c!"<mtable class=\"menv-arraylike\"><mtr") fun _ => .lit (by decide)).write (t := u) (fun _ h => h) fun _ => hu).write
      (t := c!">") (fun _ h => h) fun _ => .lit (by decide)).write (t := t) (fun _ h => h) fun _ => newline_pc h1 h2
    exact this.push (e := .group (.array cols i)) ⟨hg, hc, 0, h3⟩
  | equation b =>
    rw [openGroup]
    wps
    exact ⟨rfl, (h.write (fun _ h => h) fun _ => by cases b <;> exact .lit (by decide)).push (e := .group .equation) trivial⟩
  | align b => exact tbl _ _ (by cases b <;> exact .lit (by decide)) trivial
  | matrix a => exact tbl _ _ (by cases a <;> exact .lit (by decide)) trivial
  | cases l => exact tbl _ _ (by cases l <;> exact .lit (by decide)) trivial
  | aligned => exact tbl _ _ (.lit (by decide)) trivial
  | subArray a => exact tbl _ _ (by cases a <;> exact .lit (by decide)) trivial
  | alignat p b => exact tbl _ _ (by cases b <;> exact .lit (by decide)) (.inl ⟨b, hg⟩)
  | alignedat p => exact tbl _ _ (.lit (by decide)) (.inr hg)
  | gather b => exact tbl _ _ (by cases b <;> exact .lit (by decide)) trivial
  | gathered => exact tbl _ _ (.lit (by decide)) trivial
  | multline => exact tbl _ _ (.lit (by decide)) trivial
  | split => exact tbl _ _ (.lit (by decide)) trivial

theorem any_begin {g : Grouping} (hg : .ok (.begin_ g) ∈ items) (ha : ∀ cols, .ok (.begin_ (.array cols)) ∈ items → cols.any isColumn = true)
    (h : Inv cfg items (pk ++ rt) o env (ss.length + 1)) :
    wp (writeBegin g) (fun _ s' => InvS cfg items s') ⟨pk, rt, o, none, env, st :: ss, pv, rc⟩ := by
  unfold writeBegin
  rw [wp_bind, wp_forcePrev]
  split
  · rw [wp_bind, wp_modify]
    exact any_openGroup hg ha h
  · rw [wp_bind, wp_state, wp_bind, wp_modify, wp_bind, wp_get, wp_bind]
    refine any_groupChanges _ _ _ _ (by simp) fun p r st' hm => ?_
    rw [wp_bind, wp_openTag, wp_bind, wp_out', wp_bind, wp_updState]
    refine any_openGroup hg ha ?_
    exact (h.write (its' := p ++ r) hm (fun _ => openTag_pc (by decide) classOk_none _ _)).write (fun _ h => h) fun _ => .lit (by decide)

theorem any_content {c : Content} (neg : Bool) (hc : .ok (.content c) ∈ items) (h : Inv cfg items (pk ++ rt) o env (ss.length + 1)) :
    wp (writeContent cfg neg c) (fun _ s' => InvS cfg items s' ∧ s'.peeked ++ s'.rest = pk ++ rt)
      ⟨pk, rt, o, none, env, st :: ss, pv, rc⟩ := by
  refine wp_writeContent _ _ _ _ _ _ _ _ cfg neg c fun s' t hw => ?_
  refine ⟨⟨hw.budget, ?_⟩, hw.items⟩
  rw [hw.items, hw.out, hw.sts]
  refine (h.write (fun _ h => h) fun hs => ?_).same hw.env
  obtain ⟨k, hk, -⟩ := hw.elems (hs.2 _ hc)
  exact hk.pc

theorem any_end (h : Inv cfg items (pk ++ rt) o env (ss.length + 1)) :
    wp writeEnd (fun _ s' => InvS cfg items s') ⟨pk, rt, o, none, env, st :: ss, pv, rc⟩ := by
  rw [writeEnd, wp_bind, wp_get]
  split
  · rw [recover, wp_modify]; exact ⟨rfl, h⟩
  · rename_i g es he
    cases he
    cases ss with
    | nil => have := h.sts; simp [List.countP_cons, isGroup] at this
    | cons st' ss =>
      have hi : Inv cfg items (pk ++ rt) o es (ss.length + 1) := by
        refine ⟨h.its, h.out, ?_, fun e he => h.env e (by simp [he])⟩
        have := h.sts
        simp [List.countP_cons, isGroup] at this
        omega
      have he : EnvOk items (.group g) := h.env _ (by simp)
      simp only [wp_bind, wp_get, wp_modify, wp_forcePrev]
      cases g with
      | normal => rw [closeGroup, wp_out']; exact ⟨rfl, hi.write (fun _ h => h) fun _ => .lit (by decide)⟩
      | leftRight r =>
        rw [closeGroup]
        obtain ⟨t, h1, h2⟩ := writeDelim_wp (c := r) o es st' ss
        rw [wp_bind]
        refine (h2 _ _ _ _ _).2 ?_
        wps
        refine ⟨rfl, (hi.write (fun _ h => h) fun hs => ?_).write (fun _ h => h) fun _ => .lit (by decide)⟩
        obtain ⟨l, hl⟩ := he
        obtain ⟨k, hk⟩ := h1 (hs.2 _ hl).2
        exact hk.pc
      | array cols i =>
        obtain ⟨-, -, k, hk⟩ := he
        rw [closeGroup, wp_bind, wp_out', if_neg (by have := hk.le; omega)]
        wps
        exact ⟨rfl, ((hi.write (fun _ h => h) fun _ => .lit (by decide)).write (fun _ h => h) fun _ => closeSeps_pc _).write (fun _ h => h)
          fun _ => .lit (by decide)⟩
      | cases u l =>
        rw [closeGroup, wp_bind, wp_out']
        cases l
        · simp only [Bool.not_false, if_true]
          wps
          exact ⟨rfl, ((hi.write (fun _ h => h) fun _ => .lit (by decide)).write (fun _ h => h) fun _ => .lit (by decide)).write (fun _ h => h)
            fun _ => .lit (by decide)⟩
        · simp only [Bool.not_true, Bool.false_eq_true, if_false]
          wps
          exact ⟨rfl, (hi.write (fun _ h => h) fun _ => .lit (by decide)).write (fun _ h => h) fun _ => .lit (by decide)⟩
      | _ => exact (wp_out' ..).2 ⟨rfl, hi.write (fun _ h => h) fun _ => .lit (by decide)⟩
  · rw [recover, wp_modify]; exact ⟨rfl, h⟩

theorem quoted_pc {a : Str} {x : Str} (ha : ∃ c r, a = c :: r ∧ c.isAlpha = false) (hn : '<' ∉ a) (hx : '<' ∉ x) : Pc (a ++ x ++ c!"\"") := by
  obtain ⟨c, r, rfl, hc⟩ := ha
  refine Pc.plain hc ?_
  intro h
  replace h : '<' ∈ ((c :: r) ++ x) ++ c!"\"" := h
  rcases List.mem_append.1 h with h | h
  · rcases List.mem_append.1 h with h | h
    · exact hn h
    · exact hx h
  · revert h; decide

theorem any_visual {v : Visual} (h : Inv cfg items (pk ++ rt) o env (ss.length + 1)) :
    wp (writeVisual cfg v) (fun _ s' => InvS cfg items s') ⟨pk, rt, o, none, env, st :: ss, pv, rc⟩ := by
  rw [writeVisual]
  have cls : ClassOk (some c!"mop-negated") := by rintro c ⟨⟩; decide
  split
  · have other : ∀ p r, p ++ r = pk ++ rt → wp (do
        openTag c!"mrow" (some c!"mop-negated")
        W.out c!">"
        W.modify fun s => { s with env := .visual v (Visual.arity v) :: s.env }) (fun _ s' => InvS cfg items s')
          ⟨p, r, o, none, env, st :: ss, pv, rc⟩ := by
      intro p r hp
      wps
      refine ⟨rfl, ?_⟩
      have := ((h.write (its' := p ++ r) (by rw [hp]; exact fun _ h => h) fun _ => openTag_pc (tag := c!"mrow") (by decide) cls st env).write (t := c!">") (fun _ h => h)
        fun _ => .lit (by decide)).push (e := .visual v (Visual.arity v)) trivial
      exact this
    rw [wp_bind]
    apply wp_peekFirst
    intro p r hp
    split
    · rename_i c hh
      obtain ⟨q, hq⟩ : ∃ q, pk ++ rt = .ok (.content c) :: q := by
        cases hx : pk ++ rt with
        | nil => rw [hx] at hh; cases hh
        | cons a q => rw [hx] at hh; cases hh; exact ⟨q, rfl⟩
      split
      · rw [wp_bind]
        refine wp_mono (any_content true (h.its _ (by rw [hq]; simp)) (by rw [hp]; exact h)) ?_
        rintro _ ⟨p2, r2, o2, b2, env2, ss2, pv2, rc2⟩ ⟨⟨h1, h2⟩, h3⟩
        cases h1
        rw [wp_bind]
        refine wp_next _ _ _ _ _ _ _ (h3.trans (hp.trans hq)) fun p r hp2 => ?_
        refine (wp_pure _ _ _).2 ⟨rfl, ⟨fun i hi => h2.its i ?_, h2.out, h2.sts, h2.env⟩⟩
        dsimp only at h3 ⊢
        rw [h3, hp, hq]
        rw [hp2] at hi
        simp [hi]
      · exact other p r hp
    · exact other p r hp
  · have fin : ∀ u, (SafeAll cfg items → Pc u) →
        InvS cfg items ⟨pk, rt, o ++ openTagStr st (.visual v (Visual.arity v) :: env) (visualTag v) none ++ u ++ c!">", none,
          .visual v (Visual.arity v) :: env, st :: ss, pv, rc⟩ := by
      intro u hu
      refine ⟨rfl, ?_⟩
      have := (((h.write (fun _ h => h) fun _ => openTag_pc (visualTag_mem v) classOk_none st (.visual v (Visual.arity v) :: env)).write (fun _ h => h) hu).write
        (t := c!">") (fun _ h => h) fun _ => .lit (by decide)).push (e := .visual v (Visual.arity v)) trivial
      exact this
    wps
    cases v with
    | fraction x =>
      cases x with
      | some x =>
        dsimp only
        wps
        exact fin _ fun hs => quoted_pc ⟨_, _, rfl, rfl⟩ (by decide) (dimStr_ok hs.1 x).1
      | none =>
        dsimp only
        wps
        have := fin [] fun _ => .nil
        rwa [List.append_nil] at this
    | _ =>
      dsimp only
      wps
      have := fin [] fun _ => .nil
      rwa [List.append_nil] at this

theorem any_script {ty : ScriptType} {pos : ScriptPos} (h : Inv cfg items (pk ++ rt) o env (ss.length + 1)) :
    wp (writeScript cfg ty pos) (fun _ s' => InvS cfg items s') ⟨pk, rt, o, none, env, st :: ss, pv, rc⟩ := by
  rw [writeScript]
  wps
  have f : ∀ a, InvS cfg items ⟨pk, rt, o ++ openTagStr st (.script ty a (ScriptType.arity ty) false :: env) (scriptTag ty a) none ++ c!">", none,
      .script ty a (ScriptType.arity ty) false :: env, st :: ss, pv, rc⟩ := by
    intro a
    refine ⟨rfl, ?_⟩
    have := ((h.write (fun _ h => h) fun _ => openTag_pc (scriptTag_mem ty a) classOk_none st (.script ty a (ScriptType.arity ty) false :: env)).write
      (t := c!">") (fun _ h => h) fun _ => .lit (by decide)).push (e := .script ty a (ScriptType.arity ty) false) trivial
    exact this
  exact f _

theorem any_space {w h' x : Option Dim} (h : Inv cfg items (pk ++ rt) o env (ss.length + 1)) :
    wp (writeSpace cfg w h' x) (fun _ s' => InvS cfg items s') ⟨pk, rt, o, none, env, st :: ss, pv, rc⟩ := by
  unfold writeSpace
  have fin : ∀ o', Inv cfg items (pk ++ rt) o' env (ss.length + 1) → wp (do
      match x with
      | some d => W.out (c!" depth=\"" ++ dimStr cfg d ++ c!"\"")
      | none => pure ⟨⟩
      W.out c!" />") (fun _ s' => InvS cfg items s') ⟨pk, rt, o', none, env, st :: ss, pv, rc⟩ := by
    intro o' ho
    cases x with
    | none =>
      dsimp only
      wps
      exact ⟨rfl, ho.write (fun _ h => h) fun _ => .lit (by decide)⟩
    | some x =>
      dsimp only
      wps
      exact ⟨rfl, (ho.write (fun _ h => h) fun hs => quoted_pc ⟨_, _, rfl, rfl⟩ (by decide) (dimStr_ok hs.1 x).1).write (fun _ h => h) fun _ => .lit (by decide)⟩
  have fin2 : ∀ o', Inv cfg items (pk ++ rt) o' env (ss.length + 1) → wp (do
      match h' with
      | some h => W.out (c!" height=\"" ++ dimStr cfg h ++ c!"\"")
      | none => pure ⟨⟩
      match x with
      | some d => W.out (c!" depth=\"" ++ dimStr cfg d ++ c!"\"")
      | none => pure ⟨⟩
      W.out c!" />") (fun _ s' => InvS cfg items s') ⟨pk, rt, o', none, env, st :: ss, pv, rc⟩ := by
    intro o' ho
    cases h' with
    | none => exact fin o' ho
    | some y =>
      dsimp only
      rw [wp_bind, wp_out']
      exact fin _ (ho.write (fun _ h => h) fun hs => quoted_pc ⟨_, _, rfl, rfl⟩ (by decide) (dimStr_ok hs.1 y).1)
  cases w with
  | none => exact fin2 o h
  | some w =>
    have hw : Inv cfg items (pk ++ rt) (o ++ (c!"<mspace width=\"" ++ dimStr cfg w ++ c!"\"")) env (ss.length + 1) := by
      have := (h.write (t := c!"<mspace") (fun _ h => h) fun _ => .lit (by decide)).write (t := c!" width=\"" ++ dimStr cfg w ++ c!"\"") (fun _ h => h)
        fun hs => quoted_pc ⟨_, _, rfl, rfl⟩ (by decide) (dimStr_ok hs.1 w).1
      rwa [List.append_assoc] at this
    dsimp only
    rw [wp_bind, wp_out']
    split
    · rw [wp_bind, wp_out']
      exact fin2 _ (hw.write (fun _ h => h) fun hs => quoted_pc ⟨_, _, rfl, rfl⟩ (by decide) (dimStr_ok hs.1 w).1)
    · exact fin2 _ hw


theorem digits_lt (n : Nat) : '<' ∉ hexStr n := by
  have key : ∀ k < 16, Nat.digitChar k ≠ '<' := by decide
  have core : ∀ f n (ds : List Char), '<' ∉ ds → '<' ∉ Nat.toDigitsCore 16 f n ds := by
    intro f
    induction f with
    | zero => intro n ds h; exact h
    | succ f ih =>
      intro n ds h
      have hk : '<' ∉ Nat.digitChar (n % 16) :: ds := by
        intro hm
        rcases List.mem_cons.1 hm with e | e
        · exact key _ (Nat.mod_lt _ (by decide)) e.symm
        · exact h e
      rw [Nat.toDigitsCore]
      split
      · exact hk
      · exact ih _ _ hk
  exact core _ _ _ (by simp)

theorem any_err {m : Str} (hm : .err m ∈ items) (h : Inv cfg items (pk ++ rt) o env (ss.length + 1)) :
    wp (writeEvent cfg (.err m)) (fun _ s' => InvS cfg items s') ⟨pk, rt, o, none, env, st :: ss, pv, rc⟩ := by
  rw [writeEvent, recover]
  wps
  refine ⟨rfl, ?_⟩
  have e : ∀ x : Str, (c!"<merror style=\"border-color: #" ++ hexStr cfg.errorColor.1 ++ hexStr cfg.errorColor.2.1 ++
      hexStr cfg.errorColor.2.2 ++ c!"\"><mtext>") ++ x = c!"<merror" ++ ((c!" style=\"border-color: #" ++ (hexStr cfg.errorColor.1 ++ hexStr cfg.errorColor.2.1 ++
      hexStr cfg.errorColor.2.2) ++ c!"\"") ++ (c!"><mtext" ++ (c!">" ++ x))) := by
    intro x; simp
  have := (h.write (t := (c!"<merror style=\"border-color: #" ++ hexStr cfg.errorColor.1 ++ hexStr cfg.errorColor.2.1 ++
      hexStr cfg.errorColor.2.2 ++ c!"\"><mtext>") ++ m) (fun _ h => h) fun hs => ?_).write (t := c!"</mtext></merror>") (fun _ h => h) fun _ => .lit (by decide)
  · rw [← List.append_assoc] at this
    exact this
  · rw [e]
    have d := digits_lt
    refine .append (.lit (by decide)) (.append (quoted_pc ⟨_, _, rfl, rfl⟩ (by decide) ?_) (.append (.lit (by decide)) (.plain rfl ?_)))
    · intro hm
      simp only [List.mem_append] at hm
      rcases hm with (hm | hm) | hm <;> exact d _ hm
    · intro hx
      rcases List.mem_cons.1 hx with e | e
      · revert e; decide
      · exact hs.2 _ hm e

theorem any_rest {sp : Option Dim} {ls : List Line} (h : Inv cfg items (pk ++ rt) o env (ss.length + 1)) :
    wp (newLineRest cfg sp ls) (fun _ s' => InvS cfg items s') ⟨pk, rt, o, none, env, st :: ss, pv, rc⟩ := by
  have fin : ∀ o', Inv cfg items (pk ++ rt) o' env (ss.length + 1) → wp (do
      W.out (hlinesStr ls)
      match (← W.get).env with
      | .group (.cases _ left) :: _ =>
        setTop (.cases false left)
        W.out c!"><mtd>"
      | .group (.split _) :: _ =>
        setTop (.split false)
        W.out c!"><mtd>"
      | .group .matrix :: _ => W.out c!"><mtd>"
      | .group .align :: _ => W.out c!"><mtd>"
      | .group .gather :: _ => W.out c!"><mtd>"
      | .group .subArray :: _ => W.out c!"><mtd>"
      | .group .multline :: _ => W.out c!"><mtd>"
      | .group (.array cols _) :: _ =>
        W.out c!">"
        let i ← arrayNewline cols
        setTop (.array cols i)
      | .group (.alignat pairs _) :: _ =>
        setTop (.alignat pairs 0)
        W.out c!"><mtd>"
      | _ => recover) (fun _ s' => InvS cfg items s') ⟨pk, rt, o', none, env, st :: ss, pv, rc⟩ := by
    intro o' ho
    replace ho := ho.write (fun _ h => h) (fun _ => hlines_pc ls)
    rw [wp_bind, wp_out', wp_bind, wp_get]
    have lit : Inv cfg items (pk ++ rt) (o' ++ hlinesStr ls ++ c!"><mtd>") env (ss.length + 1) := ho.write (fun _ h => h) fun _ => .lit (by decide)
    have top : ∀ {g g' : EnvG} {es : List EnvR} {o : Str}, Inv cfg items (pk ++ rt) o (.group g :: es) (ss.length + 1) → EnvOk items (.group g') →
        Inv cfg items (pk ++ rt) o (.group g' :: es) (ss.length + 1) := by
      intro g g' es o h hg
      refine ⟨h.its, h.out, h.sts, fun e he => ?_⟩
      rcases List.mem_cons.1 he with rfl | he
      · exact hg
      · exact h.env e (by simp [he])
    split
    · rename_i he; cases he; rw [wp_bind, setTop, wp_modify, wp_out']; exact ⟨rfl, top lit trivial⟩
    · rename_i he; cases he; rw [wp_bind, setTop, wp_modify, wp_out']; exact ⟨rfl, top lit trivial⟩
    · rw [wp_out']; exact ⟨rfl, lit⟩
    · rw [wp_out']; exact ⟨rfl, lit⟩
    · rw [wp_out']; exact ⟨rfl, lit⟩
    · rw [wp_out']; exact ⟨rfl, lit⟩
    · rw [wp_out']; exact ⟨rfl, lit⟩
    · rename_i cols j es he; cases he
      obtain ⟨hg, hc, k, hk⟩ := ho.env _ List.mem_cons_self
      obtain ⟨i, t, h1, h2, h3⟩ := At.start cols hc
      rw [wp_bind, wp_out', wp_bind]
      refine h1.wp.2 ?_
      rw [setTop, wp_modify]
      exact ⟨rfl, top ((ho.write (fun _ h => h) fun _ => .lit (by decide)).write (fun _ h => h) fun _ => newline_pc h1 h2) ⟨hg, hc, 0, h3⟩⟩
    · rename_i p u es he; cases he; rw [wp_bind, setTop, wp_modify, wp_out']; exact ⟨rfl, top lit (ho.env (.group (.alignat p u)) List.mem_cons_self : EnvOk items (.group (.alignat p u)))⟩
    · rw [recover, wp_modify]; exact ⟨rfl, ho⟩
  cases sp with
  | none => exact fin o h
  | some x =>
    unfold newLineRest
    dsimp only
    have hs : Inv cfg items (pk ++ rt) (o ++ (c!" style=\"height: " ++ dimStr cfg x ++ c!"\">")) env (ss.length + 1) := by
      have := (h.write (t := c!" style=\"height: " ++ dimStr cfg x ++ c!"\"") (fun _ h => h) fun hs =>
        quoted_pc ⟨_, _, rfl, rfl⟩ (by decide) (dimStr_ok hs.1 x).1).write (t := c!">") (fun _ h => h) fun _ => .lit (by decide)
      have e : o ++ (c!" style=\"height: " ++ dimStr cfg x ++ c!"\">") = o ++ (c!" style=\"height: " ++ dimStr cfg x ++ c!"\"") ++ c!">" := by simp
      rw [e]
      exact this
    rw [wp_bind, wp_out', wp_bind, wp_get]
    split
    · rename_i cols j es he
      cases he
      obtain ⟨hg, hc, k, hk⟩ := h.env _ List.mem_cons_self
      obtain ⟨t, h1, h2⟩ := spacer_ok hk
      have hf := fin _ (hs.write (fun _ h => h) fun _ => h2)
      have h3 := (h1.wp (pk := pk) (rt := rt) (env := .group (.array cols j) :: es) (ss := st :: ss) (pv := pv) (rc := rc)
        (o := o ++ (c!" style=\"height: " ++ dimStr cfg x ++ c!"\">")) (Q := fun _ s' => wp (do
          W.out (hlinesStr ls)
          match (← W.get).env with
          | .group (.cases _ left) :: _ =>
            setTop (.cases false left)
            W.out c!"><mtd>"
          | .group (.split _) :: _ =>
            setTop (.split false)
            W.out c!"><mtd>"
          | .group .matrix :: _ => W.out c!"><mtd>"
          | .group .align :: _ => W.out c!"><mtd>"
          | .group .gather :: _ => W.out c!"><mtd>"
          | .group .subArray :: _ => W.out c!"><mtd>"
          | .group .multline :: _ => W.out c!"><mtd>"
          | .group (.array cols _) :: _ =>
            W.out c!">"
            let i ← arrayNewline cols
            setTop (.array cols i)
          | .group (.alignat pairs _) :: _ =>
            setTop (.alignat pairs 0)
            W.out c!"><mtd>"
          | _ => recover) (fun _ s' => InvS cfg items s') s')).2 hf
      simp only [wp_bind] at h3 ⊢
      exact h3
    · rw [wp_bind, wp_out']
      exact fin _ (hs.write (fun _ h => h) fun _ => .lit (by decide))

theorem any_newLine {sp : Option Dim} {ls : List Line} (h : Inv cfg items (pk ++ rt) o env (ss.length + 1)) :
    wp (writeNewLine cfg sp ls) (fun _ s' => InvS cfg items s') ⟨pk, rt, o, none, env, st :: ss, pv, rc⟩ := by
  unfold writeNewLine
  rw [wp_bind, wp_updState, wp_bind, wp_forcePrev, wp_bind, wp_get]
  split
  · rename_i cols j es he
    cases he
    obtain ⟨hg, hc, k, hk⟩ := h.env _ List.mem_cons_self
    obtain ⟨t, h1, h2⟩ := closeLine_ok hk.le
    rw [wp_bind]
    exact h1.wp.2 (any_rest (h.write (fun _ h => h) fun _ => h2))
  · rw [wp_pure]; exact ⟨rfl, h⟩
  · rw [wp_bind, wp_out']
    exact any_rest (h.write (fun _ h => h) fun _ => .lit (by decide))

theorem any_alignment (hi : .ok (.flow .alignment) ∈ items) (h : Inv cfg items (pk ++ rt) o env (ss.length + 1)) :
    pw (Allowed cfg items) (writeAlignment cfg) (fun _ s' => InvS cfg items s') ⟨pk, rt, o, none, env, st :: ss, pv, rc⟩ := by
  have top : ∀ {g g' : EnvG} {es : List EnvR} {o : Str}, Inv cfg items (pk ++ rt) o (.group g :: es) (ss.length + 1) → EnvOk items (.group g') →
      Inv cfg items (pk ++ rt) o (.group g' :: es) (ss.length + 1) := by
    intro g g' es o h hg
    refine ⟨h.its, h.out, h.sts, fun e he => ?_⟩
    rcases List.mem_cons.1 he with rfl | he
    · exact hg
    · exact h.env e (by simp [he])
  have lit : Inv cfg items (pk ++ rt) (o ++ c!"</mtd><mtd>") env (ss.length + 1) := h.write (fun _ h => h) fun _ => .lit (by decide)
  unfold writeAlignment
  refine pw_bind (.inl ?_)
  rw [wp_updState]
  refine pw_bind (.inl ?_)
  rw [wp_forcePrev]
  refine pw_bind (.inl ?_)
  rw [wp_get]
  split
  · exact .inl ((wp_out' ..).2 ⟨rfl, lit⟩)
  · exact .inl ((wp_out' ..).2 ⟨rfl, lit⟩)
  · exact .inl ((wp_out' ..).2 ⟨rfl, lit⟩)
  · exact .inl ((wp_out' ..).2 ⟨rfl, lit⟩)
  · rename_i p u es he
    cases he
    have hp := h.env _ List.mem_cons_self
    split
    · rename_i hle
      split
      · rename_i hov
        rw [Bool.and_eq_true] at hov
        have := of_decide_eq_true hov.1
        exact .inr ⟨.overflow, rfl, .inr ⟨rfl, hov.2, p, by omega, hp⟩⟩
      · refine .inl ?_
        rw [wp_bind, setTop, wp_modify, wp_out']
        exact ⟨rfl, top lit hp⟩
    · exact .inl ((wp_modify ..).2 ⟨rfl, h⟩)
  · rename_i cols j es he
    cases he
    obtain ⟨hg, hc, k, hk⟩ := h.env _ List.mem_cons_self
    rcases align_or hk with ⟨i', t, h1, h2, h3⟩ | hp
    · refine .inl ?_
      rw [wp_bind]
      refine h1.wp.2 ?_
      rw [setTop, wp_modify]
      exact ⟨rfl, top (h.write (fun _ h => h) fun _ => h2) ⟨hg, hc, _, h3⟩⟩
    · exact .inr ⟨.index, by rw [run_bind, hp _ rfl], .inl ⟨rfl, ⟨cols, hg⟩, hi⟩⟩
  · exact .inl ((wp_modify ..).2 ⟨rfl, h⟩)

theorem any_event {i : RItem} (hi : i ∈ items) (ha : ∀ cols, .ok (.begin_ (.array cols)) ∈ items → cols.any isColumn = true)
    (h : Inv cfg items (pk ++ rt) o env (ss.length + 1)) :
    pw (Allowed cfg items) (writeEvent cfg i) (fun _ s' => InvS cfg items s') ⟨pk, rt, o, none, env, st :: ss, pv, rc⟩ := by
  cases i with
  | err m => exact .inl (any_err hi h)
  | ok e =>
    cases e with
    | content c => exact .inl (wp_mono (any_content false hi h) fun _ _ h => h.1)
    | begin_ g => exact .inl (any_begin hi ha h)
    | end_ => exact .inl (any_end h)
    | visual v => exact .inl (any_visual h)
    | script ty pos => exact .inl (any_script h)
    | space w x y => exact .inl (any_space h)
    | stateChange c => exact .inl ((wp_updState ..).2 ⟨rfl, h⟩)
    | flow f =>
      cases f with
      | newLine sp ls => exact .inl (any_newLine h)
      | alignment => exact any_alignment hi h
      | startLines ls => exact .inl ((wp_modify ..).2 ⟨rfl, h⟩)

theorem any_closeLoop : ∀ (env : List EnvR) (pk rt : List RItem) (o : Str) (sts : List RState) (pv : Option Atom),
    Inv cfg items (pk ++ rt) o env sts.length →
    wp (closeLoop env) (fun _ s' => InvS cfg items s') ⟨pk, rt, o, none, env, sts, pv, rc⟩
  | [], pk, rt, o, sts, pv, h => (wp_pure _ _ _).2 ⟨rfl, h⟩
  | .group _ :: _, pk, rt, o, sts, pv, h => (wp_pure _ _ _).2 ⟨rfl, h⟩
  | .visual v n :: es, pk, rt, o, sts, pv, h => by
    have he : ∀ e ∈ es, EnvOk items e := fun e he => h.env e (by simp [he])
    rw [closeLoop]
    split
    · rw [wp_modify]
      refine ⟨rfl, h.its, h.out, h.sts, fun e h => ?_⟩
      rcases List.mem_cons.1 h with rfl | h
      · trivial
      · exact he e h
    · wps
      refine any_closeLoop es _ _ _ _ _ ?_
      have := h.write (t := closeTag (visualTag v)) (fun _ h => h) fun _ => closeTag_pc (visualTag_mem v)
      exact ⟨this.its, this.out, this.sts, he⟩
  | .script ty a n fn :: es, pk, rt, o, sts, pv, h => by
    have he : ∀ e ∈ es, EnvOk items e := fun e he => h.env e (by simp [he])
    rw [closeLoop]
    split
    · rw [wp_modify]
      refine ⟨rfl, h.its, h.out, h.sts, fun e h => ?_⟩
      rcases List.mem_cons.1 h with rfl | h
      · trivial
      · exact he e h
    · have h2 : Inv cfg items (pk ++ rt) (o ++ closeTag (scriptTag ty a)) es sts.length := by
        have := h.write (t := closeTag (scriptTag ty a)) (fun _ h => h) fun _ => closeTag_pc (scriptTag_mem ty a)
        exact ⟨this.its, this.out, this.sts, he⟩
      cases fn with
      | false =>
        simp only [Bool.false_eq_true, if_false]
        wps
        exact any_closeLoop es _ _ _ _ _ h2
      | true =>
        simp only [if_true]
        wps
        refine wp_applyFunction _ _ _ _ _ _ _ fun p r t k hp ht => ?_
        exact any_closeLoop es _ _ _ _ _ (h2.write (its' := p ++ r) (by rw [hp]; exact fun _ h => h) fun _ => ht.pc)

theorem any_mainLoop (ha : ∀ cols, .ok (.begin_ (.array cols)) ∈ items → cols.any isColumn = true) (n : Nat) :
    ∀ s : RSt, (s.peeked ++ s.rest).length < n → InvS cfg items s →
      pw (Allowed cfg items) (mainLoop cfg n) (fun _ s' => InvS cfg items s') s := by
  induction n with
  | zero => intro s h; omega
  | succ n ih =>
    rintro ⟨pk, rt, o, b, env, sts, pv, rc⟩ hn ⟨hb, h⟩
    cases hb
    dsimp only at hn h
    rw [mainLoop]
    cases hq : pk ++ rt with
    | nil =>
      obtain ⟨rfl, rfl⟩ := List.append_eq_nil_iff.1 hq
      exact .inl ⟨⟨⟩, _, rfl, rfl, h⟩
    | cons i q =>
      refine pw_bind (.inl (wp_next _ _ _ _ _ _ _ hq fun p r hp => ?_))
      dsimp only
      have hi : i ∈ items := h.its _ (by rw [hq]; simp)
      cases sts with
      | nil => have := h.sts; simp at this; omega
      | cons st ss =>
        have h' : Inv cfg items (p ++ r) o env (ss.length + 1) := ⟨fun x hx => h.its x (by rw [hq, ← hp]; simp [hx]), h.out, h.sts, h.env⟩
        refine pw_bind ?_
        have hev := any_event (st := st) (pv := pv) (rc := rc) hi ha h'
        have hsuff : ∀ a s', writeEvent cfg i ⟨p, r, o, none, env, st :: ss, pv, rc⟩ = .ok a s' → (s'.peeked ++ s'.rest).length ≤ (p ++ r).length := by
          intro a s' e
          obtain ⟨c, hc⟩ := (fair_writeEvent cfg i).suff _ _ _ e
          have := congrArg List.length hc
          simp only [RSt.items, List.length_append] at this ⊢
          omega
        rcases hev with ⟨a, ⟨p2, r2, o2, b2, env2, sts2, pv2, rc2⟩, e, hb2, h2⟩ | hev
        · cases hb2
          refine .inl ⟨a, _, e, pw_bind (.inl ?_)⟩
          have hl := hsuff _ _ e
          rw [wp_get]
          refine pw_bind ?_
          obtain ⟨c, s3, e3, h3⟩ := any_closeLoop (rc := rc2) env2 p2 r2 o2 sts2 pv2 h2
          refine .inl ⟨c, s3, e3, ih _ ?_ h3⟩
          obtain ⟨d, hd⟩ := (fair_closeLoop env2).suff _ _ _ e3
          have := congrArg List.length hd
          simp only [RSt.items, List.length_append] at this hl ⊢
          rw [hq] at hn
          have := congrArg List.length hp
          simp only [List.length_append, List.length_cons] at this hn
          omega
        · exact .inr hev

/-- The cleanup only writes end tags. -/
theorem any_cleanup : ∀ (es : List EnvR) (s : RSt), s.budget = none →
    wp (cleanup es) (fun _ s' => s'.budget = none ∧ ∃ t, Pc t ∧ s'.out = s.out ++ t) s
  | [], s, hb => (wp_modify ..).2 ⟨hb, [], .nil, by simp⟩
  | .group _ :: es, s, hb => by
    rw [cleanup, wp_bind, wp_modify]
    exact any_cleanup es _ hb
  | .visual v _ :: es, ⟨pk, rt, o, _, env, sts, pv, rc⟩, rfl => by
    rw [cleanup, wp_bind, wp_out']
    refine wp_mono (any_cleanup es _ rfl) ?_
    rintro _ s' ⟨h1, t, h2, h3⟩
    exact ⟨h1, _, (closeTag_pc (visualTag_mem v)).append h2, by rw [h3]; simp⟩
  | .script ty a _ _ :: es, ⟨pk, rt, o, _, env, sts, pv, rc⟩, rfl => by
    rw [cleanup, wp_bind, wp_out']
    refine wp_mono (any_cleanup es _ rfl) ?_
    rintro _ s' ⟨h1, t, h2, h3⟩
    exact ⟨h1, _, (closeTag_pc (scriptTag_mem ty a)).append h2, by rw [h3]; simp⟩

end
end PL.Mathml
