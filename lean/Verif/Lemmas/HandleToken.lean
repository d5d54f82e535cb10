import Verif.Lemmas.Arms6
set_option autoImplicit false
/-! # The token handler as a whole -/
namespace PL
open Lex Spec Macros H

variable {cf : Cfg} {st : Bool} {o : Sl} {s0 s s' : HSt} {j : Nat} {d : List Instr} {α β : Type}
variable {n : Nat} {rec : HTok → H PUnit}

theorem plainChar_simple (c : Char) : Simple (plainCharEvent c) ∧ ∀ k, dep k [.ev (plainCharEvent c)] = some k := by
  unfold plainCharEvent
  repeat' split
  all_goals exact ⟨by trivial, fun _ => rfl⟩

theorem numberLen_pos (b : Bool) (t : Str) : 1 ≤ numberLen b t := by
  unfold numberLen
  split
  · exact Nat.le_refl _
  · dsimp only
    split
    · rename_i h
      cases hr : t.takeWhile isNumChar with
      | nil => rw [hr] at h; simp at h
      | cons => simp
    · omega

theorem handleChar_spec {c : Char} {ctx : Sl} (h : Pre st o s) (ht : TokOK st o s (.chr c ctx)) :
    HSat cf st o s 8 (fun _ s' => TokPost st o (.chr c ctx) s s') (handleChar c ctx s) := by
  obtain ⟨hsub, ⟨r, hctx⟩, h1, h2⟩ := ht
  have done : ∀ {e : Event}, Simple e → (∀ k, dep k [.ev e] = some k) →
      HSat cf st o s 8 (fun _ s' => TokPost st o (.chr c ctx) s s') (ev e s) := by
    intro e he ho
    refine (At.start h).ev' (j' := 0) (by simpa using ho) fun s1 A l1 _ => ?_
    have := len_le_room (t := .chr c ctx) (s := s)
    refine ⟨_, A.ext, A.flat, ?_, by omega, .inl ⟨Elem.ev he, A.align⟩⟩
    simp only [List.nil_append, slack]
    have : W [.ev e] ≤ 2 := by simp [W]
    omega
  have fl : ∀ {e : ErrorKind}, HSat cf st o s 8 (fun _ s' => TokPost st o (.chr c ctx) s s') ((M.fail e : H PUnit) s) :=
    fun {e} => (At.start h).fail (by wt)
  unfold handleChar
  rw [M.get_bind]
  refine Sat.ite (fun hc => by simp [h1, h2] at hc) fun _ => ?_
  refine Sat.ite (fun hc => ?_) fun hn1 => ?_
  · refine Sat.ite (fun _ => fl) fun hh => ?_
    have hh : s.harg = false := by simpa using hh
    refine (At.start h).push (by simp) (j' := 1) (fun _ => rfl) fun s1 A l1 _ => ?_
    unfold setContent
    rw [M.modify_bind]
    have hlen : ctx.cs.length ≤ room (.chr c ctx) s := by
      have hb : bonus (.chr c ctx) s = 1 := by
        simp only [bonus]; rw [if_pos]
        exact ⟨by simpa using hc, hh⟩
      simp only [room, hb, HTok.tl, hctx, List.length_cons]; omega
    have x : Ext st o s { s1 with content := ctx } ([] ++ [.ev (.begin_ .normal)]) :=
      ⟨A.ext.buf, hsub, A.ext.subs, A.ext.mac, A.ext.smac, A.ext.harg, A.ext.skip⟩
    have A2 : At st o s 1 { s1 with content := ctx } ([] ++ [.ev (.begin_ .normal)]) := ⟨h, x, A.op, A.align⟩
    refine A2.ev' (j' := 0) (fun _ => rfl) fun s2 A l2 _ => ?_
    have l2 : s2.len = ctx.cs.length := l2
    refine ⟨_, A.ext, A.flat, ?_, by omega, .inl ⟨Elem.group Inside.nil, A.align⟩⟩
    simp only [slack]
    have : W ([] ++ [Instr.ev (.begin_ .normal)] ++ [.ev .end_]) = 2 := by simp [W]
    omega
  refine Sat.ite (fun _ => fl) fun _ => ?_
  refine Sat.ite (fun _ => fl) fun _ => ?_
  refine Sat.ite (fun hc => ?_) fun _ => ?_
  · cases ha : s.align with
    | none => exact fl
    | some a =>
      dsimp only
      refine Sat.ite (fun hcond => ?_) fun _ => fl
      have hcond : a.count < a.max ∧ s.harg = false := by simpa using hcond
      rw [M.set_bind]
      have x0 : Ext st o s { s with align := some { a with count := a.count + 1 } } [] :=
        ⟨by simp, h.sub, by simp, fun _ hx => .inl hx, fun _ => rfl, id, id⟩
      have x1 := x0.trans (push_ext (h.next x0) (is := [.ev (.flow .alignment)]) (by simp))
      have := len_le_room (t := .chr c ctx) (s := s)
      refine ⟨_, x1, Flat.cons (by trivial) Flat.nil, ?_, this, .inr ⟨hcond.2, ?_, fun _ => ⟨hc, rfl, rfl⟩⟩⟩
      · show W [.ev (.flow .alignment)] + 16 * s.len ≤ _
        simp only [slack, W]
        omega
      · show Shape st s.align (some _) _
        rw [ha]
        exact Shape.align hcond.1
  refine Sat.ite (fun hc => ?_) fun _ => ?_
  · refine (At.start h).bindMv (groupContent_spec .normal h) (by wt) ?_
    rintro g s1 A l1 ⟨hg, hl⟩
    refine A.push' (mem_one hg none (by simp)) (j' := 0) (fun _ => rfl) fun s2 A l2 _ => ?_
    have := len_le_room (t := .chr c ctx) (s := s)
    refine ⟨_, A.ext, A.flat, ?_, by omega, .inl ⟨elem_braces, A.align⟩⟩
    simp only [List.nil_append, slack, W]
    omega
  refine Sat.ite (fun _ => fl) fun _ => ?_
  refine Sat.ite (fun _ => done (by trivial) (fun _ => rfl)) fun _ => ?_
  refine Sat.ite (fun hc => ?_) fun _ => done (plainChar_simple c).1 (plainChar_simple c).2
  unfold setContent
  rw [M.modify_bind]
  have hpos := numberLen_pos s.harg ctx.cs.tail
  generalize numberLen s.harg ctx.cs.tail = q at hpos
  have hs2 : Sub { ctx with cs := ctx.cs.drop q } o := hsub.suffix (List.drop_suffix _ _)
  have x : Ext st o s { s with content := { ctx with cs := ctx.cs.drop q } } [] :=
    ⟨by simp, hs2, by simp, fun _ hx => .inl hx, fun _ => rfl, id, id⟩
  have A : At st o s 0 { s with content := { ctx with cs := ctx.cs.drop q } } [] := ⟨h, x, Flat.nil, rfl⟩
  refine A.ev' (j' := 0) (fun _ => rfl) fun s2 A l2 _ => ?_
  have l2 : s2.len = (ctx.cs.drop q).length := l2
  have hlen : (ctx.cs.drop q).length ≤ room (.chr c ctx) s := by
    simp only [room, HTok.tl, List.length_drop]; omega
  refine ⟨_, A.ext, A.flat, ?_, by omega, .inl ⟨Elem.ev (by trivial), A.align⟩⟩
  simp only [List.nil_append, slack, W]
  omega

theorem infix_cs {name w r t : Str} (h : ('\\' :: name ++ w ++ r) <:+: t) : ('\\' :: name) <:+: t :=
  List.IsInfix.trans ⟨[], w ++ r, by simp⟩ h

theorem execPrim_spec {name : Str} (hr : RecOK cf st o n rec) (h : Pre st o s) (hn : s.len + 1 ≤ n)
    (hi : ('\\' :: name) <:+: o.cs)
    (hs : st = true → ∃ w, Spaces w ∧ ('\\' :: name ++ w ++ s.content.cs) <:+: o.cs) :
    HSat cf st o s 8 (fun _ s' => ArmPost' st o (primOf name = .newline) s s') (execPrim cf rec (primOf name) s) := by
  have out : ∀ {names : List Str}, (∀ x ∈ names, st = true → ¬ ('\\' :: x) <:+: o.cs) → name ∈ names → st = false := by
    intro names hx hm
    cases st with
    | false => rfl
    | true =>
      obtain ⟨w, _, hi⟩ := hs rfl
      exact absurd (infix_cs hi) (hx _ hm rfl)
  generalize hp : primOf name = p
  have up : ∀ {m : H PUnit}, Arm cf st o s m → HSat cf st o s 8 (fun _ s' => ArmPost' st o (p = .newline) s s') (m s) :=
    fun {m} hm => Sat.mono hm (fun _ _ hx => hx.to _) (fun _ _ hx => hx) (fun _ hx => hx)
  have fl : ∀ {e : ErrorKind}, Arm cf st o s (M.fail e : H PUnit) := fun {e} => (At.start h).fail (by wt)
  cases p with
  | func t => exact up (arm_ev h (by trivial) (fun _ => rfl))
  | funcMov t => exact up (arm_funcMov h)
  | operatorname => exact up (arm_operatorname h)
  | pmod =>
    have hst := out (names := [c!"pmod"]) (fun x hx hst => by cases hx with | head => exact (h.clean hst).pmod | tail _ h => cases h)
      (tableNames (by decide +kernel) (by simp) (by simp) (by simp) hp)
    exact up (arm_pmod hst hr h hn)
  | atom cls => exact up (arm_atom0 hr h hn)
  | ord c => exact up (arm_ev h (by trivial) (fun _ => rfl))
  | rel c b => exact up (arm_ev h (by trivial) (fun _ => rfl))
  | rel2 c b => exact up (arm_ev h (by trivial) (fun _ => rfl))
  | bin c => exact up (arm_ev h (by trivial) (fun _ => rfl))
  | dots => exact up (arm_dots h)
  | fontChange f => exact up (arm_state h)
  | fontGroup f =>
    refine Sat.mono (arm_font hr h hn fun hst => ?_) (fun _ s' hx => ?_) (fun _ _ hx => hx) (fun _ hx => hx)
    · obtain ⟨w, hw, hi⟩ := hs hst
      exact ⟨name, w, font_names hp, hw, hi⟩
    · obtain ⟨d, h1, h2, h3, h4, h5⟩ := hx
      refine ⟨d, h1, h2, h3, h4, h5.imp_right fun ⟨h6, h7, h8⟩ => ⟨h6, h7, fun hst => (h8 hst).1.elim⟩⟩
  | style z => exact up (arm_state h)
  | color => exact up (arm_color h)
  | textcolor => exact up (arm_textcolor hr h hn)
  | colorbox => exact up (arm_colorbox h)
  | fcolorbox => exact up (arm_fcolorbox h)
  | sized z => exact up (arm_sized h)
  | left => exact up (arm_left h)
  | middle => exact up (arm_middle h)
  | unbalanced => exact up fl
  | largeOp c b => exact up (arm_largeOp h)
  | smallint => exact up (arm_smallint h)
  | accent c b a => exact up (arm_accent hr h hn)
  | under c a => exact up (arm_under hr h hn)
  | space => exact up (arm_ev h (by trivial) (fun _ => rfl))
  | nbsp => exact up (arm_ev h (by trivial) (fun _ => rfl))
  | kern => exact up (arm_kern h)
  | hskip => exact up (arm_hskip h)
  | mkern => exact up (arm_mkern h)
  | mskip => exact up (arm_mskip h)
  | hspace => exact up (arm_hspace h)
  | space3 => exact up (arm_space3 h)
  | xarrow c => exact up (arm_xarrow hr h hn)
  | frac l r b z => exact up (arm_frac hr h hn)
  | genfrac => exact up (arm_genfrac hr h hn)
  | overset ty =>
    refine up (arm_overset ?_ hr h hn)
    have key : ∀ e ∈ primTable, (match e.2 with | .overset ty => decide (scriptOperands ty = 2) | _ => true) = true := by
      decide +kernel
    unfold primOf at hp
    split at hp
    · rename_i q hq
      subst hp
      have := key _ (mem_of_lookup hq)
      simpa using this
    · split at hp
      · cases hp
      · split at hp <;> cases hp
  | buildrel =>
    have hst := out (names := [c!"buildrel"]) (fun x hx hst => by cases hx with | head => exact (h.clean hst).buildrel | tail _ h => cases h)
      (tableNames (by decide +kernel) (by simp) (by simp) (by simp) hp)
    exact up (arm_buildrel hst hr h hn)
  | substack => exact up (arm_substack h)
  | sideset => exact up (arm_sideset hr h hn)
  | sqrt =>
    refine up (arm_sqrt hr h (fun hst w t hw e => ?_) hn)
    have hnm := tableNames (names := [c!"sqrt"]) (by decide +kernel) (by simp) (by simp) (by simp) hp
    simp only [List.mem_singleton] at hnm
    obtain ⟨w', hw', hi⟩ := hs hst
    refine (h.clean hst).root (w' ++ w) (fun x hx => (List.mem_append.1 hx).elim (hw' x) (hw x)) (List.IsInfix.trans ?_ hi)
    rw [hnm, e]
    exact ⟨[], t, by simp⟩
  | surd => exact up (arm_surd h)
  | text f => exact up (arm_text h)
  | not_ => exact up (arm_not hr h hn)
  | char => exact up (arm_char h)
  | relax =>
    have hst := out (names := [c!"relax"]) (fun x hx hst => by cases hx with | head => exact (h.clean hst).relax | tail _ h => cases h)
      (tableNames (by decide +kernel) (by simp) (by simp) (by simp) hp)
    exact up (arm_relax hst h)
  | begingroup => exact up (arm_begingroup h)
  | begin_ => exact up (arm_begin h)
  | newline =>
    refine Sat.mono (arm_newline h) (fun _ s' hx => ?_) (fun _ _ hx => hx) (fun _ hx => hx)
    obtain ⟨d, h1, h2, h3, h4, h5⟩ := hx
    exact ⟨d, h1, h2, h3, h4, h5.imp_right fun ⟨h6, h7, h8⟩ => ⟨h6, h7, fun hst => ⟨rfl, (h8 hst).2⟩⟩⟩
  | def_ =>
    have hst := out (names := [c!"def"]) (fun x hx hst => by
        cases hx with | head => exact (h.clean hst).macros _ (by decide) | tail _ h => cases h)
      (tableNames (by decide +kernel) (by simp) (by simp) (by simp) hp)
    have hm := tableNames (names := [c!"def"]) (by decide +kernel) (by simp) (by simp) (by simp) hp
    simp only [List.mem_singleton] at hm
    exact up (arm_def hst ⟨c!"\\def", by decide, hm ▸ hi⟩ h)
  | let_ =>
    have hst := out (names := [c!"let"]) (fun x hx hst => by
        cases hx with | head => exact (h.clean hst).macros _ (by decide) | tail _ h => cases h)
      (tableNames (by decide +kernel) (by simp) (by simp) (by simp) hp)
    have hm := tableNames (names := [c!"let"]) (by decide +kernel) (by simp) (by simp) (by simp) hp
    simp only [List.mem_singleton] at hm
    exact up (arm_let hst ⟨c!"\\let", by decide, hm ▸ hi⟩ h)
  | futurelet =>
    have hst := out (names := [c!"futurelet"]) (fun x hx hst => by
        cases hx with | head => exact (h.clean hst).macros _ (by decide) | tail _ h => cases h)
      (tableNames (by decide +kernel) (by simp) (by simp) (by simp) hp)
    have hm := tableNames (names := [c!"futurelet"]) (by decide +kernel) (by simp) (by simp) (by simp) hp
    simp only [List.mem_singleton] at hm
    exact up (arm_futurelet hst ⟨c!"\\futurelet", by decide, hm ▸ hi⟩ h)
  | newcommand z =>
    have key : ∀ e ∈ primTable, (match e.2 with | .newcommand _ => true | _ => false) = true →
        e.1 ∈ [c!"newcommand", c!"renewcommand", c!"providecommand"] := by
      decide +kernel
    have hst := out (names := [c!"newcommand", c!"renewcommand", c!"providecommand"]) (fun x hx hst => by
        simp only [List.mem_cons, List.not_mem_nil, or_false] at hx
        rcases hx with rfl | rfl | rfl <;> exact (h.clean hst).macros _ (by decide))
      (tableNames (fun e he h => key e he (by rw [h])) (by simp) (by simp) (by simp) hp)
    have hm := tableNames (fun e he h => key e he (by rw [h])) (by simp) (by simp) (by simp) hp
    simp only [List.mem_cons, List.not_mem_nil, or_false] at hm
    have hD : Defines o.cs := by
      rcases hm with rfl | rfl | rfl <;> exact ⟨_, by decide, hi⟩
    exact up (arm_newcommand hst hD h)
  | delim c ty => exact up (arm_ev h (by trivial) (fun _ => rfl))
  | unknown => exact up fl

/-- The token handler keeps its promises. -/
theorem handleToken_ok (cf : Cfg) (st : Bool) (o : Sl) (n : Nat) : RecOK cf st o n (handleToken cf n) := by
  induction n with
  | zero => intro t s _ _ hn; omega
  | succ n ih =>
    intro t s h ht hn
    cases t with
    | chr c ctx => exact handleChar_spec h ht
    | cs name =>
      refine Sat.mono (execPrim_spec ih h (by omega) ht.1 ht.2) (fun _ s' hx => ?_) (fun _ _ hx => hx) (fun _ hx => hx)
      obtain ⟨d, h1, h2, h3, h4, h5⟩ := hx
      have hroom : room (.cs name) s = s.len := by simp [room, HTok.tl, bonus]
      refine ⟨d, h1, h2, by rw [hroom]; exact h3, by rw [hroom]; exact h4, h5⟩

end PL
