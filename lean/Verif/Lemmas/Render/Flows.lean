import Verif.Lemmas.Render.Groups
set_option autoImplicit false
/-! # The start and end of groups, alignments and line breaks in the renderer -/
namespace PL.Mathml
open Spec

section
variable (pk rt : List RItem) (o : Str) (env : List EnvR) (st : RState) (ss : List RState) (pv : Option Atom) (rc : Bool)

theorem wp_openGroup_env {Q : PUnit → RSt → Prop} {d : Bool} {g : Grouping} {k' : Nat} {b : List Event} {q : List RItem}
    (hg : g.isMathEnv = true) (hb : beginOk g = true)
    (hd : Doc d (.body (some g) 0 k') b) (hq : pk ++ rt = b.map .ok ++ .ok .end_ :: q)
    (h : ∀ s', Opened d o env ss g k' b q s' → Q ⟨⟩ s') :
    wp (do
      let e ← openGroup g
      W.modify fun s => { s with env := .group e :: s.env }) Q ⟨pk, rt, o, none, env, st :: ss, pv, rc⟩ := by
  have nil : ∀ {op : Str}, (∀ d S, Sc d .text S op (.name c!"rtm") ((c!"mtable", 0) :: S)) →
      (∀ d S, ∃ F, F.map Prod.fst = [] ∧ Sc d .text S op (.name c!"rtm") ((c!"mtable", 0) :: (F ++ S))) :=
    fun h d S => ⟨[], rfl, h d S⟩
  cases g with
  | normal => cases hg
  | leftRight => cases hg
  | align e => exact wp_tableOpen _ _ _ _ _ _ _ _ hd hq _ _ [] rfl (nil fun d S => by cases e <;> rfl) rfl h
  | matrix e => exact wp_tableOpen _ _ _ _ _ _ _ _ hd hq _ _ [] rfl (nil fun d S => by cases e <;> rfl) rfl h
  | cases l =>
    refine wp_tableOpen _ _ _ _ _ _ _ _ hd hq _ _ [c!"mrow"] rfl (fun d S => ?_) rfl h
    cases l
    · exact ⟨[(c!"mrow", 0)], rfl, rfl⟩
    · exact ⟨[(c!"mrow", 1)], rfl, rfl⟩
  | aligned => exact wp_tableOpen _ _ _ _ _ _ _ _ hd hq _ _ [] rfl (nil fun d S => rfl) rfl h
  | subArray e => exact wp_tableOpen _ _ _ _ _ _ _ _ hd hq _ _ [] rfl (nil fun d S => by cases e <;> rfl) rfl h
  | alignat p e => exact wp_tableOpen _ _ _ _ _ _ _ _ hd hq _ _ [] rfl (nil fun d S => by cases e <;> rfl) rfl h
  | alignedat p => exact wp_tableOpen _ _ _ _ _ _ _ _ hd hq _ _ [] rfl (nil fun d S => rfl) rfl h
  | gather e => exact wp_tableOpen _ _ _ _ _ _ _ _ hd hq _ _ [] rfl (nil fun d S => by cases e <;> rfl) rfl h
  | gathered => exact wp_tableOpen _ _ _ _ _ _ _ _ hd hq _ _ [] rfl (nil fun d S => rfl) rfl h
  | multline => exact wp_tableOpen _ _ _ _ _ _ _ _ hd hq _ _ [] rfl (nil fun d S => rfl) rfl h
  | split => exact wp_tableOpen _ _ _ _ _ _ _ _ hd hq _ _ [] rfl (nil fun d S => rfl) rfl h
  | equation e =>
    rw [openGroup]
    wps
    refine h _ ⟨rfl, ⟨_, rfl, rfl⟩, ⟨_, rfl⟩, ⟨[], b, rfl, hd, hq⟩, _, rfl, fun _ d S =>
      ⟨[(c!"mtd", 0), (c!"mtr", 0), (c!"mtable", 0)], rfl, ?_⟩⟩
    cases e <;> rfl
  | array cols =>
    obtain ⟨i, t, hw, ht, ha⟩ := At.start cols hb
    rw [openGroup, wp_bind, wp_bind, wp_out', wp_bind]
    refine wp_envLines _ _ _ _ _ _ _ hd hq fun p r x b' u hb' hd' hp hu => ?_
    wps
    refine hw.wp.2 ?_
    refine h _ ⟨rfl, ⟨_, rfl, i, rfl, ha, hb⟩, ⟨_, rfl⟩, ⟨x, b', hb', hd', hp⟩,
      c!"<mtable class=\"menv-arraylike\"><mtr" ++ u ++ c!">" ++ t, by simp, fun _ d S => ?_⟩
    obtain ⟨m, z, hm, h2⟩ := hu d S 0
    obtain ⟨y, h3⟩ := ht d ((c!"mtable", z) :: S) 0
    have h0 : Sc d .text S c!"<mtable class=\"menv-arraylike\"><mtr" (.name c!"rtm") ((c!"mtable", 0) :: S) := rfl
    exact ⟨[(c!"mtd", 0), (c!"mtr", y), (c!"mtable", z)], rfl, ((h0.append h2).append hm.close).append h3⟩

theorem wp_writeBegin {Q : PUnit → RSt → Prop} {d : Bool} {g : Grouping} {k' : Nat} {b : List Event} {q : List RItem}
    (hb : beginOk g = true) (hd : Doc d (.body (some g) 0 k') b) (hq : pk ++ rt = b.map .ok ++ .ok .end_ :: q)
    (h : ∀ s', Opened d o env (st :: ss) g k' b q s' → Q ⟨⟩ s') :
    wp (writeBegin g) Q ⟨pk, rt, o, none, env, st :: ss, pv, rc⟩ := by
  unfold writeBegin
  rw [wp_bind, wp_forcePrev]
  by_cases hg : g.isMathEnv = true
  · rw [if_pos hg, wp_bind, wp_modify]
    exact wp_openGroup_env _ _ _ _ _ _ _ _ hg hb hd hq h
  · rw [if_neg hg]
    simp only [wp_bind, wp_state, wp_modify, wp_get]
    obtain ⟨cs, b', e, hd', hn⟩ := hd.changes
    have hq' : pk ++ rt = cs.map (fun c => RItem.ok (.stateChange c)) ++ (b'.map .ok ++ .ok .end_ :: q) := by
      rw [hq, e]; simp
    refine wp_groupChanges _ _ _ _ _ ?_ cs pk rt st _ ?_ hq' fun p r st' hp => ?_
    · intro c r
      cases b' with
      | nil => simp
      | cons x b' =>
        intro hh
        cases hh
        exact hn _ _ rfl
    · have := congrArg List.length hq'
      simp at this ⊢
      omega
    simp only [wp_openTag, wp_out', wp_updState]
    obtain ⟨T, hT, hT'⟩ : ∃ T, (∀ d S, Sc d .text S T .text ((c!"mrow", 0) :: S)) ∧
        T = openTagStr st' env c!"mrow" none ++ c!">" := by
      refine ⟨_, fun d S => ?_, rfl⟩
      obtain ⟨m, hm, h4⟩ := openTag_sc (d := d) (S := S) (tag := c!"mrow") (by decide) classOk_none st' env
      exact h4.append hm.close
    rw [List.append_assoc, ← hT']
    cases g with
    | normal =>
      rw [openGroup]
      wps
      exact h _ ⟨rfl, ⟨_, rfl, rfl⟩, ⟨_, rfl⟩, ⟨_, b', e, hd', hp⟩, T, rfl, fun _ d S => ⟨[(c!"mrow", 0)], rfl, hT d S⟩⟩
    | leftRight l r' =>
      rw [openGroup]
      obtain ⟨t, h1, h2⟩ := writeDelim_wp (c := l) (o ++ T) env { font := st'.font } (st :: ss)
      rw [wp_bind]
      refine (h2 _ _ _ _ _).2 ?_
      wps
      refine h _ ⟨rfl, ⟨_, rfl, rfl⟩, ⟨_, rfl⟩, ⟨_, b', e, hd', hp⟩, T ++ t, by simp, fun hs d S => ?_⟩
      obtain ⟨k, hk⟩ := h1 hs.1
      refine ⟨[(c!"mrow", k)], rfl, (hT d S).append ?_⟩
      have := hk.sc d ((c!"mrow", 0) :: S)
      have e : ∀ k j, addN k ((c!"mrow", j) :: S) = (c!"mrow", j + k) :: S := by
        intro k
        induction k with
        | zero => intro j; rfl
        | succ k ih => intro j; show addN k ((c!"mrow", j + 1) :: S) = _; rw [ih]; congr 2; omega
      rw [e, Nat.zero_add] at this
      exact this
    | _ => exact absurd rfl hg

theorem map_fst_cons {F : Open} {n : Str} {ns : List Str} (h : F.map Prod.fst = n :: ns) :
    ∃ x F', F = (n, x) :: F' ∧ F'.map Prod.fst = ns := by
  cases F with
  | nil => cases h
  | cons a F =>
    obtain ⟨a, x⟩ := a
    simp at h
    exact ⟨x, F, by rw [h.1], h.2⟩

theorem map_fst_nil {F : Open} (h : F.map Prod.fst = []) : F = [] := by simpa using h

theorem map_fst1 {F : Open} {a : Str} (h : F.map Prod.fst = [a]) : ∃ x, F = [(a, x)] := by
  obtain ⟨x, F1, rfl, h1⟩ := map_fst_cons h
  obtain rfl := map_fst_nil h1
  exact ⟨x, rfl⟩

theorem map_fst3 {F : Open} {a b c : Str} (h : F.map Prod.fst = [a, b, c]) : ∃ x y z, F = [(a, x), (b, y), (c, z)] := by
  obtain ⟨x, F1, rfl, h1⟩ := map_fst_cons h
  obtain ⟨y, F2, rfl, h2⟩ := map_fst_cons h1
  obtain ⟨z, rfl⟩ := map_fst1 h2
  exact ⟨x, y, z, rfl⟩

theorem map_fst4 {F : Open} {a b c e : Str} (h : F.map Prod.fst = [a, b, c, e]) :
    ∃ x y z w, F = [(a, x), (b, y), (c, z), (e, w)] := by
  obtain ⟨x, F1, rfl, h1⟩ := map_fst_cons h
  obtain ⟨y, z, w, rfl⟩ := map_fst3 h1
  exact ⟨x, y, z, w, rfl⟩

theorem addN_cons (n : Str) (S : Open) : ∀ k j, addN k ((n, j) :: S) = (n, j + k) :: S := by
  intro k
  induction k with
  | zero => intro j; rfl
  | succ k ih => intro j; show addN k ((n, j + 1) :: S) = _; rw [ih]; congr 2; omega

/-- The text closes the elements of a group. -/
def Closes (g : Grouping) (t : Str) : Prop := ∀ d F S, F.map Prod.fst = frames g → Sc d .text (F ++ S) t .text (addChild S)

theorem wp_writeEnd {Q : PUnit → RSt → Prop} {g : Grouping} {k : Nat} {e : EnvG} (hr : RG g k e) (st' : RState)
    (h : ∀ pv' t, (SafeEvent (.begin_ g) → Closes g t) → Q ⟨⟩ ⟨pk, rt, o ++ t, none, env, st :: ss, pv', rc⟩) :
    wp writeEnd Q ⟨pk, rt, o, none, .group e :: env, st' :: st :: ss, pv, rc⟩ := by
  rw [writeEnd]
  simp only [wp_bind, wp_get, wp_modify, wp_forcePrev]
  have tbl : frames g = [c!"mtd", c!"mtr", c!"mtable"] → Closes g c!"</mtd></mtr></mtable>" := by
    intro hf d F S hF
    rw [hf] at hF
    obtain ⟨x, y, z, rfl⟩ := map_fst3 hF
    rfl
  cases g with
  | normal =>
    cases hr
    rw [closeGroup, wp_out']
    refine h _ _ fun _ d F S hF => ?_
    obtain ⟨x, rfl⟩ := map_fst1 hF
    rfl
  | leftRight l r =>
    cases hr
    rw [closeGroup]
    obtain ⟨t, h1, h2⟩ := writeDelim_wp (c := r) o env st ss
    rw [wp_bind]
    refine (h2 _ _ _ _ _).2 ?_
    wps
    rw [List.append_assoc]
    refine h _ _ fun hs d F S hF => ?_
    obtain ⟨x, rfl⟩ := map_fst1 hF
    obtain ⟨k, hk⟩ := h1 hs.2
    have := hk.sc d ((c!"mrow", x) :: S)
    rw [addN_cons] at this
    exact this.append rfl
  | array cols =>
    obtain ⟨i, rfl, ha, hc⟩ := hr
    rw [closeGroup, wp_bind, wp_out', if_neg (by have := ha.le; omega)]
    wps
    rw [List.append_assoc, List.append_assoc]
    refine h _ _ fun hs d F S hF => ?_
    obtain ⟨x, y, z, rfl⟩ := map_fst3 hF
    obtain ⟨w, hw⟩ := closeSeps_sc d ((c!"mtable", z) :: S) (seps (cols.drop i)) (y + 1)
    exact Sc.append (m' := .text) (S' := (c!"mtr", y + 1) :: (c!"mtable", z) :: S) rfl (hw.append rfl)
  | cases l =>
    cases hr
    rw [closeGroup, wp_bind, wp_out']
    cases l
    · simp only [Bool.not_false, if_true]
      wps
      rw [List.append_assoc, List.append_assoc]
      refine h _ _ fun _ d F S hF => ?_
      obtain ⟨x, y, z, w, rfl⟩ := map_fst4 hF
      rfl
    · simp only [Bool.not_true, Bool.false_eq_true, if_false]
      wps
      rw [List.append_assoc]
      refine h _ _ fun _ d F S hF => ?_
      obtain ⟨x, y, z, w, rfl⟩ := map_fst4 hF
      rfl
  | _ =>
    cases hr
    exact (wp_out' ..).2 (h _ _ fun _ => tbl rfl)

/-- The text leads from a place in a group to another one. -/
def Within (g : Grouping) (t : Str) : Prop := ∀ d F S, F.map Prod.fst = frames g →
  ∃ F', F'.map Prod.fst = frames g ∧ Sc d .text (F ++ S) t .text (F' ++ S)

theorem wp_writeAlignment {Q : PUnit → RSt → Prop} (cfg : RCfg) {g : Grouping} {k : Nat} {e : EnvG} (hr : RG g k e)
    (hg : g.isMathEnv = true) (hk : k < alignments g)
    (h : ∀ pv' e' t, RG g (k + 1) e' → Within g t → Q ⟨⟩ ⟨pk, rt, o ++ t, none, .group e' :: env, {} :: ss, pv', rc⟩) :
    wp (writeAlignment cfg) Q ⟨pk, rt, o, none, .group e :: env, st :: ss, pv, rc⟩ := by
  rw [writeAlignment]
  simp only [wp_bind, wp_get, wp_updState, wp_forcePrev]
  have tbl : frames g = [c!"mtd", c!"mtr", c!"mtable"] → Within g c!"</mtd><mtd>" := by
    intro hf d F S hF
    rw [hf] at hF
    obtain ⟨x, y, z, rfl⟩ := map_fst3 hF
    exact ⟨[(c!"mtd", 0), (c!"mtr", y + 1), (c!"mtable", z)], hf.symm, rfl⟩
  have alat : ∀ p k, k < min 65535 (2 * p - 1) → k / 2 ≤ p ∧ ¬ (k + 1 ≥ 2 ^ 16) ∧ (k + 1) % 2 ^ 16 = k + 1 := by
    intro p k hk; omega
  cases g with
  | array cols =>
    obtain ⟨i, rfl, ha, hc⟩ := hr
    obtain ⟨i', t, hw, ht, ha'⟩ := ha.next hk
    simp only [wp_bind]
    refine hw.wp.2 ?_
    rw [setTop, wp_modify]
    refine h _ _ _ ⟨i', rfl, ha', hc⟩ fun d F S hF => ?_
    obtain ⟨x, y, z, rfl⟩ := map_fst3 hF
    obtain ⟨w, hw⟩ := ht d ((c!"mtable", z) :: S) x y
    exact ⟨[(c!"mtd", 0), (c!"mtr", w), (c!"mtable", z)], rfl, hw⟩
  | matrix => cases hr; exact (wp_out' ..).2 (h _ _ _ rfl (tbl rfl))
  | align => cases hr; exact (wp_out' ..).2 (h _ _ _ rfl (tbl rfl))
  | aligned => cases hr; exact (wp_out' ..).2 (h _ _ _ rfl (tbl rfl))
  | split => cases hr; exact (wp_out' ..).2 (h _ _ _ rfl (tbl rfl))
  | cases l =>
    cases hr
    refine (wp_out' ..).2 (h _ _ _ rfl ?_)
    intro d F S hF
    obtain ⟨x, y, z, w, rfl⟩ := map_fst4 hF
    exact ⟨[(c!"mtd", 0), (c!"mtr", y + 1), (c!"mtable", z), (c!"mrow", w)], rfl, rfl⟩
  | alignat p b =>
    cases hr
    obtain ⟨h1, h2, h3⟩ := alat p k hk
    simp only [h1, h2, h3, if_true, decide_false, Bool.false_and, Bool.false_eq_true, if_false]
    rw [wp_bind, setTop, wp_modify, wp_out']
    exact h _ _ _ rfl (tbl rfl)
  | alignedat p =>
    cases hr
    obtain ⟨h1, h2, h3⟩ := alat p k hk
    simp only [h1, h2, h3, if_true, decide_false, Bool.false_and, Bool.false_eq_true, if_false]
    rw [wp_bind, setTop, wp_modify, wp_out']
    exact h _ _ _ rfl (tbl rfl)
  | _ => exact absurd hk (Nat.not_lt_zero _)

/-- Numbers are displayed without characters that end an attribute. -/
def FmtOk (cfg : RCfg) : Prop := ∀ n, '<' ∉ cfg.fmt n ∧ '"' ∉ cfg.fmt n

theorem dimStr_ok {cfg : RCfg} (h : FmtOk cfg) (x : Dim) : '<' ∉ dimStr cfg x ∧ '"' ∉ dimStr cfg x := by
  have := h (dimShown x).1
  have u : '<' ∉ (dimShown x).2 ∧ '"' ∉ (dimShown x).2 := by
    unfold dimShown
    cases x.unit <;> (dsimp only; decide)
  simp [dimStr, this, u]

theorem wp_newLineRest {Q : PUnit → RSt → Prop} (cfg : RCfg) {g : Grouping} {k : Nat} {e : EnvG} (hr : RG g k e)
    (hg : g.isMathEnv = true) (he : ∀ b, g ≠ .equation b) (sp : Option Dim) (ls : List Line)
    (h : ∀ e' t, RG g 0 e' → (FmtOk cfg → ∀ d F S z, (c!"mtd") :: c!"mtr" :: c!"mtable" :: F.map Prod.fst = frames g →
        ∃ F', F'.map Prod.fst = frames g ∧ Sc d (.name c!"rtm") ((c!"mtable", z) :: (F ++ S)) t .text (F' ++ S)) →
      Q ⟨⟩ ⟨pk, rt, o ++ t, none, .group e' :: env, ss, pv, rc⟩) :
    wp (newLineRest cfg sp ls) Q ⟨pk, rt, o, none, .group e :: env, ss, pv, rc⟩ := by
  -- the second half
  have fin : ∀ (o' u : Str), o' = o ++ u → (FmtOk cfg → ∀ d S z, ∃ z', Sc d (.name c!"rtm") ((c!"mtable", z) :: S) u (.name c!"rtm") ((c!"mtable", z') :: S)) →
      wp (do
        W.out (hlinesStr ls)
        match (← W.get).env with
        | .group (.cases _ left) :: _ => do
          setTop (.cases false left)
          W.out c!"><mtd>"
        | .group (.split _) :: _ => do
          setTop (.split false)
          W.out c!"><mtd>"
        | .group .matrix :: _ => W.out c!"><mtd>"
        | .group .align :: _ => W.out c!"><mtd>"
        | .group .gather :: _ => W.out c!"><mtd>"
        | .group .subArray :: _ => W.out c!"><mtd>"
        | .group .multline :: _ => W.out c!"><mtd>"
        | .group (.array cols _) :: _ => do
          W.out c!">"
          let i ← arrayNewline cols
          setTop (.array cols i)
        | .group (.alignat pairs _) :: _ => do
          setTop (.alignat pairs 0)
          W.out c!"><mtd>"
        | _ => recover) Q ⟨pk, rt, o', none, .group e :: env, ss, pv, rc⟩ := by
    intro o' u hu hs
    subst hu
    rw [wp_bind, wp_out', wp_bind, wp_get]
    have tbl : frames g = [c!"mtd", c!"mtr", c!"mtable"] ∨ frames g = [c!"mtd", c!"mtr", c!"mtable", c!"mrow"] →
        FmtOk cfg → ∀ d F S z, (c!"mtd") :: c!"mtr" :: c!"mtable" :: F.map Prod.fst = frames g →
        ∃ F', F'.map Prod.fst = frames g ∧
          Sc d (.name c!"rtm") ((c!"mtable", z) :: (F ++ S)) (u ++ (hlinesStr ls ++ c!"><mtd>")) .text (F' ++ S) := by
      intro hf h0 d F S z hF
      obtain ⟨z', h1⟩ := hs h0 d (F ++ S) z
      obtain ⟨m, z'', hm, h2⟩ := hlines_sc d (F ++ S) ls z'
      refine ⟨(c!"mtd", 0) :: (c!"mtr", 0) :: (c!"mtable", z'') :: F, hF, h1.append (h2.append ?_)⟩
      exact Sc.append (a := c!">") hm.close rfl
    cases g with
    | normal => cases hg
    | leftRight => cases hg
    | equation b => exact absurd rfl (he b)
    | array cols =>
      obtain ⟨i, rfl, ha, hc⟩ := hr
      obtain ⟨i, t, hw, ht, ha⟩ := At.start cols hc
      simp only [wp_bind, wp_out']
      refine hw.wp.2 ?_
      rw [setTop, wp_modify]
      simp only [List.append_assoc]
      refine h _ _ ⟨i, rfl, ha, hc⟩ fun h0 d F S z hF => ?_
      obtain ⟨z', h1⟩ := hs h0 d (F ++ S) z
      obtain ⟨m, z'', hm, h2⟩ := hlines_sc d (F ++ S) ls z'
      obtain ⟨y, h3⟩ := ht d ((c!"mtable", z'') :: (F ++ S)) 0
      exact ⟨(c!"mtd", 0) :: (c!"mtr", y) :: (c!"mtable", z'') :: F, hF, h1.append (h2.append (hm.close.append h3))⟩
    | cases l =>
      cases hr
      simp only [wp_bind, setTop, wp_modify, wp_out', List.append_assoc]
      exact h _ _ rfl (tbl (.inr rfl))
    | _ =>
      cases hr
      simp only [wp_bind, setTop, wp_modify, wp_out', List.append_assoc]
      exact h _ _ rfl (tbl (.inl rfl))
  unfold newLineRest
  cases sp with
  | none =>
    dsimp only
    exact fin o [] (by simp) fun _ d S z => ⟨z, rfl⟩
  | some x =>
    have q : FmtOk cfg → ∀ d S, Sc d (.name c!"rtm") S (c!" style=\"height: " ++ dimStr cfg x ++ c!"\">") .text ((c!"mtr", 0) :: S) := by
      intro h0 d S
      have := dimStr_ok h0 x
      have h1 := Sc.quoted (d := d) (S := S) (n := c!"mtr") this.1 this.2
      have h2 : Sc d (.name c!"rtm") S c!" style=\"height: " (.attrs c!"mtr" true) S := rfl
      exact (h2.append h1).append rfl
    dsimp only
    rw [wp_bind, wp_out', wp_bind, wp_get]
    by_cases ha : ∃ cols, g = .array cols
    · obtain ⟨cols, rfl⟩ := ha
      obtain ⟨i, rfl, ha, hc⟩ := id hr
      obtain ⟨t, hw, ht⟩ := ha.spacer
      have := fin (o ++ (c!" style=\"height: " ++ dimStr cfg x ++ c!"\">") ++ t) _ (List.append_assoc ..) fun h0 d S z =>
        ⟨_, (q h0 d _).append (ht d S 0 z)⟩
      have := (hw.wp (Q := fun _ s => wp _ Q s)).2 this
      simp only [wp_bind] at this ⊢
      exact this
    · have := fin (o ++ (c!" style=\"height: " ++ dimStr cfg x ++ c!"\">") ++ c!"<mtd class=\"menv-nonumber\"></mtd></mtr><mtr")
        _ (List.append_assoc ..) fun h0 d S z => ⟨z + 1, (q h0 d _).append rfl⟩
      have key : ∀ m : EnvG, (∀ cols i, m ≠ .array cols i) → ∀ (A : List ArrayCol → Nat → W PUnit) (B : W PUnit) (s : RSt),
          wp B Q s → wp (match (EnvR.group m :: env) with
            | .group (.array cols idx) :: _ => A cols idx
            | _ => B) Q s := by
        intro m hm A B s hB
        cases m <;> first | exact hB | exact absurd rfl (hm _ _)
      have hne : ∀ cols i, e ≠ .array cols i := by
        rintro cols i rfl
        cases g <;> first | exact ha ⟨_, rfl⟩ | cases hr
      refine key e hne _ _ _ ?_
      rw [wp_bind, wp_out']
      exact this

theorem wp_writeNewLine {Q : PUnit → RSt → Prop} (cfg : RCfg) {g : Grouping} {k : Nat} {e : EnvG} (hr : RG g k e)
    (hg : g.isMathEnv = true) (sp : Option Dim) (ls : List Line)
    (h : ∀ pv' e' t, RG g 0 e' → (FmtOk cfg → Within g t) →
      Q ⟨⟩ ⟨pk, rt, o ++ t, none, .group e' :: env, {} :: ss, pv', rc⟩) :
    wp (writeNewLine cfg sp ls) Q ⟨pk, rt, o, none, .group e :: env, st :: ss, pv, rc⟩ := by
  rw [writeNewLine]
  simp only [wp_bind, wp_get, wp_updState, wp_forcePrev]
  have tbl : frames g = [c!"mtd", c!"mtr", c!"mtable"] ∨ frames g = [c!"mtd", c!"mtr", c!"mtable", c!"mrow"] →
      (∀ b, g ≠ .equation b) →
      wp (do W.out c!"</mtd></mtr><mtr"; newLineRest cfg sp ls) Q ⟨pk, rt, o, none, .group e :: env, {} :: ss, none, rc⟩ := by
    intro hf he
    rw [wp_bind, wp_out']
    refine wp_newLineRest _ _ _ _ _ _ _ cfg hr hg he sp ls fun e' t hr' ht => ?_
    rw [List.append_assoc]
    refine h _ _ _ hr' fun h0 d F S hF => ?_
    rcases hf with hf | hf
    · rw [hf] at hF
      obtain ⟨x, y, z, rfl⟩ := map_fst3 hF
      obtain ⟨F', h1, h2⟩ := ht h0 d [] S (z + 1) hf.symm
      exact ⟨F', h1, Sc.append rfl h2⟩
    · rw [hf] at hF
      obtain ⟨x, y, z, w, rfl⟩ := map_fst4 hF
      obtain ⟨F', h1, h2⟩ := ht h0 d [(c!"mrow", w)] S (z + 1) hf.symm
      exact ⟨F', h1, Sc.append rfl h2⟩
  cases g with
  | normal => cases hg
  | leftRight => cases hg
  | equation b =>
    cases hr
    have := h none _ [] rfl fun _ d F S hF => ⟨F, hF, rfl⟩
    rw [List.append_nil] at this
    exact (wp_pure _ _ _).2 this
  | array cols =>
    obtain ⟨i, rfl, ha, hc⟩ := id hr
    obtain ⟨u, hw, hu⟩ := arrayCloseLine_ok cols i ha.le
    simp only [wp_bind]
    refine hw.wp.2 ?_
    refine wp_newLineRest _ _ _ _ _ _ _ cfg hr hg (by rintro b ⟨⟩) sp ls fun e' t hr' ht => ?_
    rw [List.append_assoc]
    refine h _ _ _ hr' fun h0 d F S hF => ?_
    obtain ⟨x, y, z, rfl⟩ := map_fst3 hF
    obtain ⟨F', h1, h2⟩ := ht h0 d [] S (z + 1) rfl
    exact ⟨F', h1, Sc.append (hu ..) h2⟩
  | cases l => cases hr; exact tbl (.inr rfl) (by rintro b ⟨⟩)
  | _ => cases hr; exact tbl (.inl rfl) (by rintro b ⟨⟩)

end
end PL.Mathml
