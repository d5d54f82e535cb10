import Verif.Lemmas.Exec
import Verif.Lemmas.FitsStep
set_option autoImplicit false
/-!
# The addresses of texts

Which addresses the texts have in memory matters only where the place of a text is looked up among the expansions.
-/
namespace PL
open Lex Macros H Spec

/-! ### Handlers do not see addresses -/

theorem usizeDigits_addr (b : Bool) (a a' : Nat → Nat) (base : Nat) (val : Char → Nat) :
    ∀ (ds : Str) (n : Nat), usizeDigits ⟨b, a⟩ base val n ds = usizeDigits ⟨b, a'⟩ base val n ds
  | [], _ => rfl
  | c :: ds, n => by
    unfold usizeDigits
    simp only [usizeDigits_addr b a a' base val ds]
theorem unsignedInteger_addr (b : Bool) (a a' : Nat → Nat) : unsignedInteger ⟨b, a⟩ = unsignedInteger ⟨b, a'⟩ := by
  have h : ∀ base p val, radix ⟨b, a⟩ base p val = radix ⟨b, a'⟩ base p val := by
    intro base p val
    funext s
    unfold radix
    rw [usizeDigits_addr b a a']
  unfold unsignedInteger decimal octal hexadecimal
  simp only [h]
  funext s
  cases s <;> rfl
theorem columns_addr (b : Bool) (a a' : Nat → Nat) :
    ∀ (s : Str) (n : Nat), columns ⟨b, a⟩ n s = columns ⟨b, a'⟩ n s
  | [], _ => rfl
  | c :: ds, n => by
    unfold columns
    simp only [columns_addr b a a' ds]
theorem environments_addr (b : Bool) (a a' : Nat → Nat) : environments ⟨b, a⟩ = environments ⟨b, a'⟩ := by
  have h1 : arrayEnvironment ⟨b, a⟩ = arrayEnvironment ⟨b, a'⟩ := by
    unfold arrayEnvironment
    simp only [columns_addr b a a']
  have h2 : ∀ g k, alignatEnv ⟨b, a⟩ g k = alignatEnv ⟨b, a'⟩ g k := by
    intro g k
    unfold alignatEnv pairsArg
    rw [unsignedInteger_addr b a a']
    rfl
  unfold environments
  rw [h1]
  simp only [h2]
theorem handleToken_addr (b : Bool) (a a' : Nat → Nat) : ∀ n, handleToken ⟨b, a⟩ n = handleToken ⟨b, a'⟩ n
  | 0 => rfl
  | n + 1 => by
    have ih := handleToken_addr b a a' n
    funext t
    cases t with
    | chr c ctx => rfl
    | cs name =>
      unfold handleToken
      rw [ih]
      generalize primOf name = p
      cases p <;> try rfl
      · unfold execPrim
        rw [unsignedInteger_addr b a a']
      · unfold execPrim beginEnv
        rw [environments_addr b a a']
theorem atom_addr (b : Bool) (a a' : Nat → Nat) : atom ⟨b, a⟩ = atom ⟨b, a'⟩ := by
  funext t
  unfold atom
  simp only [handleToken_addr b a a']

theorem atom_cfg {cf cf' : Cfg} (h : cf.overflowChecks = cf'.overflowChecks) : atom cf = atom cf' := by
  obtain ⟨b, a⟩ := cf
  obtain ⟨b', a'⟩ := cf'
  cases h
  exact atom_addr _ _ _
theorem tryExpand_cfg {cf cf' : Cfg} (h : cf.overflowChecks = cf'.overflowChecks) : tryExpand cf = tryExpand cf' := by
  obtain ⟨b, a⟩ := cf
  obtain ⟨b', a'⟩ := cf'
  cases h
  rfl

/-! ### Texts begin after the token -/

variable {cf : Cfg} {st : Bool} {o : Sl} {s s' : HSt} {n : Nat} {rec : HTok → H PUnit}

/-- What is staged, and what is left, lies in `o`. -/
def Stays (o : Sl) (s : HSt) {α : Type} : Res HSt α → Prop
  | .ok _ s' => ∃ d, Ext false o s s' d
  | .err _ s' => ∃ d, Ext false o s s' d
  | .panic _ => True

theorem scripts_stay {c : Char} {r : Str} (hr : RecOK cf false o n rec) (hc : s.content.cs = c :: r) (hcc : c = '^' ∨ c = '_') (hk : s.skip = false)
    (hm : s.allowMods = false) (h : Pre false o { s with content := { s.content with cs := r } }) (hn : s.len + 2 ≤ n) :
    Stays o { s with content := { s.content with cs := r } } (scripts rec s) := by
  have key : HSat cf false o { s with content := { s.content with cs := r } } 0
      (fun _ s' => ∃ d, Ext false o { s with content := { s.content with cs := r } } s' d) (scripts rec s) := by
    unfold scripts
    rw [M.get_bind, if_neg (by simp [hk])]
    have hl : limits s = .ok ⟨⟩ s := by
      unfold limits
      rw [M.get_bind, if_neg (by simp [hm])]
      rfl
    rw [M.bind_ok hl, M.modify_bind, M.get_bind]
    have ht : trimStart s.content.cs = c :: r := by
      rw [hc]
      rcases hcc with rfl | rfl <;> rfl
    dsimp only
    rw [ht]
    dsimp only
    rw [if_pos (by rcases hcc with rfl | rfl <;> rfl), M.set_bind]
    have l3 : HSt.len { s with content := { s.content with cs := r } } + 1 = s.len := by unfold HSt.len; rw [hc]; rfl
    generalize hs3 : ({ s with content := { s.content with cs := r } } : HSt) = s3 at *
    have A : At false o s3 0 s3 [] := At.start h
    refine A.bindMv (argument_spec A.pre) (by wt) ?_
    rintro a s4 A l4 ⟨ok1, _, sz1, tl1⟩
    have := a.size_w; have := a.size_pos
    refine A.handle hr ok1 (by omega) (by omega) (by wt) fun s5 d1 A e1 w1 l5 => ?_
    rw [M.get_bind]
    refine Sat.ite (fun hnext => ?_) fun hnext => ?_
    · rw [M.set_bind]
      have mv6 := mv_content A.pre (r := s5.content.cs.tail) (List.tail_suffix _)
      have A := A.mv mv6
      have l6 : HSt.len { s5 with content := { s5.content with cs := s5.content.cs.tail } } ≤ s5.len := by
        unfold HSt.len
        simp
      generalize hs6 : ({ s5 with content := { s5.content with cs := s5.content.cs.tail } } : HSt) = s6 at A mv6 l6
      refine A.bindMv (argument_spec A.pre) (by wt) ?_
      rintro a2 s7 A l7 ⟨ok2, _, sz2, tl2⟩
      have := a2.size_w; have := a2.size_pos
      refine A.handle hr ok2 (by omega) (by omega) (by wt) fun s8 d2 A e2 w2 l8 => ?_
      rw [M.get_bind]
      have hb : W ([] ++ d1 ++ d2) + 16 * s8.len ≤ 16 * s3.len + 0 := by
        wt
      generalize List.head? s8.content.cs = q
      refine (fun (key : ∀ m : H (Option Desc), m = _ → HSat cf false o s3 0 (fun _ s' => ∃ d, Ext false o s3 s' d) (m s8)) => key _ rfl) ?_
      intro m hm
      match q, hm with
      | some '_', hm => rw [hm]; exact A.bindFail hb
      | some '^', hm => rw [hm]; exact A.bindFail hb
      | none, hm => rw [hm]; exact ⟨_, A.ext⟩
      | some y, hm =>
        split at hm
        · rw [hm]; exact A.bindFail hb
        · rw [hm]; exact A.bindFail hb
        · rw [hm]; exact ⟨_, A.ext⟩
    · refine Sat.ite (fun hnext2 => ?_) fun hnext2 => ?_
      · refine A.bindFail ?_
        wt
      · exact ⟨_, A.ext⟩
  generalize scripts rec s = x at key
  cases x with
  | ok a s' => exact key
  | err e s' => obtain ⟨d, h, _⟩ := key; exact ⟨d, h⟩
  | panic p => trivial

theorem Stays.bind {α β : Type} {m : H α} {f : α → H β} (h : Stays o s (m s)) (hf : ∀ a s' d, m s = .ok a s' → Ext false o s s' d → Stays o s' (f a s')) :
    Stays o s ((m >>= f) s) := by
  rw [M.run_bind]
  cases hm : m s with
  | panic p => trivial
  | err e s' => rw [hm] at h; exact h
  | ok a s' =>
    rw [hm] at h
    obtain ⟨d, x⟩ := h
    have := hf a s' d hm x
    dsimp only
    generalize f a s' = y at this
    cases y with
    | panic p => trivial
    | err e s2 => obtain ⟨d2, x2⟩ := this; exact ⟨_, x.trans x2⟩
    | ok b s2 => obtain ⟨d2, x2⟩ := this; exact ⟨_, x.trans x2⟩

theorem Stays.of_sat {α : Type} {b : Nat} {Q : α → HSt → Prop} {x : Res HSt α} (h : HSat cf false o s b Q x)
    (hq : ∀ a s', Q a s' → ∃ d, Ext false o s s' d) : Stays o s x := by
  cases x with
  | panic p => trivial
  | err e s' => obtain ⟨d, x, _⟩ := h; exact ⟨d, x⟩
  | ok a s' => exact hq a s' h

/-- The texts left and staged after a token begin where the token ends, or later. -/
theorem atom_stays {t : HTok} (hwf : s.content.wf) (hf : Fresh s t)
    (ht : ∀ c ctx, t = .chr c ctx → ctx.src = s.content.src ∧ ctx.stop = s.content.stop ∧ c ≠ '\\' ∧ c ≠ '%') :
    ∃ o', Sl.start s.content ≤ Sl.start o' ∧ o'.wf ∧ Stays o' s (atom cf t s) := by
  have mk : ∀ extra : Str, ∃ o', o' = (⟨s.content.src, s.content.stop + blen extra, s.content.cs ++ extra⟩ : Sl) ∧
      Sl.start s.content ≤ Sl.start o' ∧ Pre false o' s := by
    intro extra
    refine ⟨_, rfl, ?_, ?_, ?_, by intro h; cases h⟩
    · unfold Sl.start
      rw [blen_append]
      simp only
      omega
    · unfold Sl.wf at *
      rw [blen_append]
      simp only
      omega
    · exact ⟨rfl, [], extra, by simp, rfl⟩
  have after : ∀ {o' : Sl} {s1 : HSt}, Pre false o' s1 → Stays o' s1 (scripts (handleToken cf (tokenFuel s1.content)) s1) := by
    intro o' s1 hp
    have sc := scripts_spec (handleToken_ok cf false o' (tokenFuel s1.content)) hp (by unfold tokenFuel HSt.len; omega)
    generalize scripts (handleToken cf (tokenFuel s1.content)) s1 = x at sc
    cases x with
    | panic p => trivial
    | err e s2 => obtain ⟨d, x, _⟩ := sc; exact ⟨d, x⟩
    | ok a s2 =>
      cases a with
      | none => exact ⟨_, sc.1⟩
      | some a => obtain ⟨_, _, _, _, dd, _, x, _⟩ := sc; exact ⟨dd, x⟩
  have finish : ∀ {o' : Sl}, Pre false o' s → Stays o' s (handleToken cf (tokenFuel s.content) t s) → Stays o' s (atom cf t s) := by
    intro o' hp h
    unfold atom
    rw [M.get_bind]
    refine Stays.bind h fun _ s1 d _ x => ?_
    rw [M.get_bind]
    exact after (hp.next x)
  cases t with
  | cs name =>
    obtain ⟨o', ho, h1, hp⟩ := mk ('\\' :: name)
    refine ⟨o', h1, hp.wf, finish hp ?_⟩
    have tk := handleToken_ok cf false o' (tokenFuel s.content) (.cs name) s hp ⟨by rw [ho]; exact ⟨s.content.cs, [], by simp⟩, by intro h; cases h⟩
      (by unfold tokenFuel HSt.len; omega)
    exact Stays.of_sat tk fun _ s1 ⟨d, x1, _⟩ => ⟨d, x1⟩
  | chr c ctx =>
    obtain ⟨e1, e2, n1, n2⟩ := ht c ctx rfl
    have htext : ctx.cs = c :: s.content.cs := hf.text
    obtain ⟨o', ho, h1, hp⟩ := mk [c]
    refine ⟨o', h1, hp.wf, ?_⟩
    by_cases hc : c = '_' ∨ c = '^'
    · unfold atom
      rw [M.get_bind]
      have hrun : handleToken cf (tokenFuel s.content) (.chr c ctx) s =
          .ok ⟨⟩ { s with buf := s.buf ++ [.ev (.begin_ .normal)] ++ [.ev .end_], content := ctx } := by
        unfold tokenFuel handleToken handleChar
        rw [M.get_bind]
        have h1 : (decide (c = '\\') || decide (c = '%')) = false := by rcases hc with rfl | rfl <;> rfl
        have h2 : (decide (c = '_') || decide (c = '^')) = true := by rcases hc with rfl | rfl <;> rfl
        rw [if_neg (by simp [h1]), if_pos h2, if_neg (by simp [hf.harg])]
        rfl
      rw [M.bind_ok hrun, M.get_bind]
      generalize hs1 : ({ s with buf := s.buf ++ [.ev (.begin_ .normal)] ++ [.ev .end_], content := ctx } : HSt) = s1
      have hs2 : ({ s1 with content := { s1.content with cs := s.content.cs } } : HSt) =
          { s with buf := s.buf ++ [.ev (.begin_ .normal)] ++ [.ev .end_] } := by
        subst hs1
        simp only [e1, e2]
      have x1 : Ext false o' s { s with buf := s.buf ++ [.ev (.begin_ .normal)] ++ [.ev .end_] } [.ev (.begin_ .normal), .ev .end_] :=
        ⟨by simp, hp.sub, by simp, fun _ hx => .inl hx, fun _ => rfl, id, id⟩
      have := scripts_stay (s := s1) (handleToken_ok cf false o' (tokenFuel s1.content)) (by rw [← hs1]; exact htext) (hc.symm) (by rw [← hs1]; exact hf.skip)
        (by rw [← hs1]; exact hf.mods) (by rw [hs2]; exact hp.next x1) (by unfold tokenFuel HSt.len; omega)
      rw [hs2] at this
      generalize scripts (handleToken cf (tokenFuel s1.content)) s1 = x at this
      cases x with
      | panic p => trivial
      | err e s2 => obtain ⟨d, x⟩ := this; exact ⟨_, x1.trans x⟩
      | ok a s2 => obtain ⟨d, x⟩ := this; exact ⟨_, x1.trans x⟩
    · refine finish hp ?_
      have hd : handleToken cf (tokenFuel s.content) (.chr c ctx) = handleChar c ctx := rfl
      rw [hd]
      by_cases hdig : isDigit c = true
      · have hn : ∀ x ∈ ['\\', '%', '_', '^', '$', '#', '&', '{', '}', '~'], c ≠ x := by
          intro x hx e
          subst e
          simp only [List.mem_cons, List.not_mem_nil, or_false] at hx
          rcases hx with rfl | rfl | rfl | rfl | rfl | rfl | rfl | rfl | rfl | rfl <;> exact absurd hdig (by decide)
        unfold handleChar
        rw [M.get_bind]
        simp only [hn, List.mem_cons, true_or, or_true, decide_false, Bool.or_self, Bool.false_eq_true, if_false, hdig, if_true]
        refine ⟨[_], rfl, ?_, by simp, fun _ hx => .inl hx, fun _ => rfl, id, id⟩
        have hpos : ∀ harg rest, 1 ≤ numberLen harg rest := by
          intro harg rest
          unfold numberLen
          cases harg with
          | true => exact Nat.le_refl _
          | false =>
            dsimp only
            split
            · exact Nat.le_refl _
            · split
              · rename_i hl
                have : rest.takeWhile isNumChar ≠ [] := by
                  intro e
                  rw [e] at hl
                  simp at hl
                have := List.length_pos_iff.2 this
                omega
              · omega
        generalize hk : numberLen s.harg ctx.cs.tail = k
        have := hpos s.harg ctx.cs.tail
        obtain ⟨k', rfl⟩ : ∃ k', k = k' + 1 := ⟨k - 1, by omega⟩
        show Sub { ctx with cs := ctx.cs.drop (k' + 1) } o'
        rw [htext, e1, e2]
        exact hp.sub.suffix (List.drop_suffix k' _)
      · have hsame : handleChar c ctx s = handleChar c ⟨s.content.src, s.content.stop + blen [c], [c]⟩ s := by
          unfold handleChar
          rw [M.get_bind, M.get_bind]
          simp only [hdig, not_or.1 hc, decide_false, Bool.or_self, Bool.false_eq_true, if_false]
        rw [hsame]
        have tk := handleToken_ok cf false o' (tokenFuel s.content) (.chr c ⟨s.content.src, s.content.stop + blen [c], [c]⟩) s hp
          ⟨by rw [ho]; exact ⟨rfl, s.content.cs, [], by simp, by simp [blen]⟩, ⟨[], rfl⟩, n1, n2⟩ (by unfold tokenFuel HSt.len; omega)
        exact Stays.of_sat tk fun _ s1 ⟨d, x1, _⟩ => ⟨d, x1⟩

theorem Sub.start_le {x o : Sl} (h : Sub x o) (hw : o.wf) : Sl.start o ≤ Sl.start x := by
  obtain ⟨_, p, q, e, h⟩ := h
  unfold Sl.start Sl.wf at *
  have := congrArg blen e
  simp only [blen_append] at this
  omega

/-- A text that does not begin where an expansion begins, unless there is nothing in it. -/
def Past (x : Sl) : Prop := x.src = 0 ∨ x.cs = [] ∨ 1 ≤ Sl.start x

theorem blen_pos {t : Str} (h : t ≠ []) : 1 ≤ blen t := by
  cases t with
  | nil => exact absurd rfl h
  | cons c t =>
    have := c.utf8Size_pos
    unfold blen
    omega

theorem start_drop {x : Sl} (hw : x.wf) {r : Str} (h : r <:+ x.cs) (hl : r.length < x.cs.length) : 1 ≤ Sl.start { x with cs := r } := by
  obtain ⟨p, e⟩ := h
  have hp : p ≠ [] := by
    rintro rfl
    rw [← e] at hl
    simp at hl
  have := blen_pos hp
  unfold Sl.start Sl.wf at *
  rw [← e, blen_append] at hw
  simp only
  omega

/-- After a step without an error the texts do not begin where an expansion begins. -/
theorem past_next {inp : Str} {s s' : State} {o : Option Item} (hb : Base inp s) (hbuf : s.buf = [])
    (hst : step cf s = match o with | some i => .item i s' | none => .again s') (hno : ∀ e ctx, o ≠ some (.err e ctx))
    (h : ∀ x ∈ texts s.stack, Past x) : ∀ x ∈ texts s'.stack, Past x := by
  rcases step_cases o hst with ⟨e, rfl, hs, he⟩ | ⟨c, A, rfl, hs, he⟩ | ⟨c, A, rest, hs, hne⟩
  · have : texts s.stack = texts s'.stack := by rw [hs]; rfl
    exact this ▸ h
  · have : texts s.stack = c :: texts s'.stack := by rw [hs]; rfl
    exact fun x hx => h x (by rw [this]; simp [hx])
  · obtain ⟨p1, hx, hf⟩ := parse_spec cf (startSt s c A)
    have hh : p1.h = { (startSt s c A).h with content := p1.h.content } := hx.h
    have howf : p1.h.content.wf := hx.wf (hb.wf c A (by simp [hs]))
    have hstep : step cf s = match parse cf (startSt s c A) with
        | .panic p => .panic p
        | .err e st =>
          match errorContext cf st.sp (st.h.content.ptr cf) with
          | .error p => .panic p
          | .ok (ctx, sp) =>
            .item (.err e ctx) ⟨.sub st.h.content st.h.align :: rest, st.h.buf, st.h.macros, sp⟩
        | .ok desc st =>
          match unstage st.h.buf (.sub st.h.content st.h.align :: rest) desc with
          | .error p => .panic p
          | .ok stack => .again ⟨stack, [], st.h.macros, st.sp⟩ := by
      unfold step
      rw [hs]
      simp only
      rw [if_neg (by simpa using hne)]
      rfl
    rw [hst] at hstep
    have hrest : ∀ x ∈ texts rest, Past x := fun x hx => h x (by rw [hs]; simp [texts] at hx ⊢; exact .inr hx)
    generalize parse cf (startSt s c A) = r at hf hstep
    -- errors are excluded
    have herr : ∀ e st, r ≠ .err e st := by
      rintro e st rfl
      dsimp only at hstep
      cases hc : errorContext cf st.sp (st.h.content.ptr cf) with
      | error p => rw [hc] at hstep; cases o <;> cases hstep
      | ok y =>
        obtain ⟨ctx, sp⟩ := y
        rw [hc] at hstep
        cases o with
        | none => cases hstep
        | some i => cases hstep; exact hno _ _ rfl
    cases hf with
    | @nothing r1 ht =>
      have htk := token_spec p1.h.content.cs
      rw [ht] at htk
      cases htk
      have hb1 : p1.h.buf = [] := by rw [hh]; exact hbuf
      simp only [unstage, hb1] at hstep
      cases o with
      | some i => cases hstep
      | none =>
        cases hstep
        intro x hx
        simp only [texts, List.nil_append, List.filterMap_cons, List.mem_cons] at hx
        rcases hx with rfl | hx
        · exact .inr (.inl rfl)
        · exact hrest x hx
    | error ht he => exact absurd rfl (herr _ _)
    | macroError => exact absurd rfl (herr _ _)
    | macroPanic ht he => cases o <;> cases hstep
    | assertion => cases o <;> cases hstep
    | @atom t r1 ht hno' =>
      have hsuf : r1 <:+ p1.h.content.cs := by have := good_token (cf := cf) p1.h.content.cs; rw [ht] at this; exact this
      have hlen : r1.length < p1.h.content.cs.length := by
        have := token_facts ht
        cases t with
        | cs name => obtain ⟨k, w, _, _, _, e⟩ := this; rw [e]; simp; omega
        | chr c r' => obtain ⟨rfl, k, _, e, _⟩ := this; rw [e]; simp; omega
      have hst1 := start_drop howf hsuf hlen
      generalize hs0 : ({ p1.h with content := { p1.h.content with cs := r1 } } : HSt) = s0
      have hw0 : s0.content.wf := by
        subst hs0
        exact ((Sub.refl _).suffix hsuf).wf howf
      have hfresh : Fresh s0 (.ofTok p1.h.content t) := by
        subst hs0
        refine ⟨by rw [hh]; rfl, by rw [hh]; rfl, by rw [hh]; rfl, ?_⟩
        have := token_facts ht
        cases t with
        | cs => trivial
        | chr c r' => obtain ⟨rfl, _⟩ := this; rfl
      have htok := tok_ok (st := false) (s' := s0) ht (Sub.refl _) (fun _ => by rw [← hs0])
      obtain ⟨o', h1, h2, h3⟩ := atom_stays (cf := cf) hw0 hfresh (by
        intro c ctx e
        cases t with
        | cs => cases e
        | chr c' r' =>
          injection e with e1 e2
          subst e1 e2
          exact ⟨by rw [← hs0], by rw [← hs0], htok.2.2⟩)
      have h1 : 1 ≤ Sl.start o' := Nat.le_trans (by rw [← hs0]; exact hst1) h1
      unfold liftH at hstep
      simp only at hstep
      rw [hs0] at hstep
      cases hr : atom cf (.ofTok p1.h.content t) s0 with
      | panic p => rw [hr] at hstep; cases o <;> cases hstep
      | err e s2 =>
        exact absurd (by unfold liftH; simp only; rw [hs0, hr]) (herr e ⟨s2, p1.sp⟩)
      | ok d s2 =>
        rw [hr] at hstep h3
        obtain ⟨dd, x⟩ := h3
        dsimp only at hstep
        cases hu : unstage s2.buf (.sub s2.content s2.align :: rest) d with
        | error p => rw [hu] at hstep; cases o <;> cases hstep
        | ok stack =>
          rw [hu] at hstep
          cases o with
          | some i => cases hstep
          | none =>
            cases hstep
            intro y hy
            obtain ⟨B, hy⟩ := mem_texts.1 hy
            have hb0 : s0.buf = [] := by rw [← hs0]; show p1.h.buf = []; rw [hh]; exact hbuf
            have later : ∀ z, Sub z o' → Past z := fun z hz => .inr (.inr (Nat.le_trans h1 (hz.start_le h2)))
            rcases unstage_mem hu _ hy with hy | hy | ⟨_, _, hy⟩
            · rw [x.buf, hb0] at hy
              exact later y (x.subs y B (by simpa using hy))
            · simp only [List.mem_cons] at hy
              rcases hy with hy | hy
              · cases hy
                exact later _ x.sub
              · exact hrest y (mem_texts.2 ⟨B, hy⟩)
            · cases hy

theorem Exec.past {inp : Str} {its : List Item} {s : State} (h : Exec cf (State.init inp) its s) (hn : NoErr its) : ∀ x ∈ texts s.stack, Past x := by
  induction h with
  | init =>
    intro x hx
    simp [texts, State.init] at hx
    rw [hx]
    exact .inl rfl
  | @item its _ i _ h0 h ih =>
    have hn' : NoErr its := fun j hj => hn j (by simp [hj])
    refine past_next (o := some i) h0.base (h0.fine (st := false) hn' (by simp)).1.buf h ?_ (ih hn')
    intro e ctx he
    cases he
    obtain ⟨_, h⟩ := hn (.err e ctx) (by simp)
    cases h
  | @again its _ _ h0 h ih => exact past_next (o := none) h0.base (h0.fine (st := false) hn (by simp)).1.buf h (by simp) (ih hn)

/-! ### Where the place of a text matters -/

/-- The place of a text, found by the number of the expansion it lies in. -/
def reachId (inp : Str) (x : Sl) : List ExpSpan → Option (Nat × List ExpSpan)
  | e :: es => if x.src = e.id ∧ Sl.start x ≤ blen e.full then some (Sl.start x, e :: es) else reachId inp x es
  | [] => if x.src = 0 ∧ Sl.start x ≤ blen inp then some (Sl.start x, []) else none

/-- No text but its own contains the place. -/
theorem reach_id {inp : Str} {x : Sl} (h0 : x.src ≠ 0 → ¬ (cf.addr 0 ≤ x.ptr cf ∧ x.ptr cf ≤ cf.addr 0 + blen inp)) :
    ∀ {es : List ExpSpan}, (∀ e ∈ es, x.src ≠ e.id → ¬ (cf.addr e.id ≤ x.ptr cf ∧ x.ptr cf ≤ cf.addr e.id + blen e.full)) →
      reachLoop cf inp (x.ptr cf) es = reachId inp x es
  | [], _ => by
    unfold reachLoop reachId
    by_cases hs : x.src = 0
    · simp only [Sl.ptr, hs, Bool.and_eq_true, decide_eq_true_eq, true_and, Nat.le_add_right, Nat.add_le_add_iff_left, Nat.add_sub_cancel_left]
    · have := h0 hs
      rw [if_neg (by simpa using this), if_neg (by simp [hs])]
  | e :: es, h => by
    unfold reachLoop reachId
    rw [reach_id h0 (fun e' he' => h e' (by simp [he']))]
    by_cases hs : x.src = e.id
    · simp only [Sl.ptr, hs, Bool.and_eq_true, decide_eq_true_eq, true_and, Nat.le_add_right, Nat.add_le_add_iff_left, Nat.add_sub_cancel_left]
    · have := h e (by simp) hs
      rw [if_neg (by simpa using this), if_neg (by simp [hs])]

/-- Later texts do not contain the place, and the text it lies in is on the list. -/
theorem reach_first {inp : Str} {x : Sl} (h0 : x.src ≠ 0 → ¬ (cf.addr 0 ≤ x.ptr cf ∧ x.ptr cf ≤ cf.addr 0 + blen inp)) :
    ∀ {es : List ExpSpan}, (∀ e ∈ es, x.src < e.id → ¬ (cf.addr e.id ≤ x.ptr cf ∧ x.ptr cf ≤ cf.addr e.id + blen e.full)) →
      es.Pairwise (fun a b => b.id < a.id) → (∀ e ∈ es, 1 ≤ e.id) → Placed inp es x → reachLoop cf inp (x.ptr cf) es = reachId inp x es
  | [], _, _, _, hp => reach_id h0 (by simp)
  | e :: es, h, hd, hpos, hp => by
    rw [List.pairwise_cons] at hd
    by_cases hs : x.src = e.id
    · have hl : Sl.start x ≤ blen e.full := by
        have key : ∀ e', Sub x ⟨e'.id, blen e'.full, e'.full⟩ → e' ∈ e :: es → Sl.start x ≤ blen e.full := by
          intro e' h1 h2
          simp only [List.mem_cons] at h2
          rcases h2 with rfl | h2
          · have := (Sub.ptr_range (cf := cf) h1).2.2
            simp only [Sl.ptr, hs] at this
            omega
          · have := hd.1 e' h2
            have := h1.1
            simp only at this
            omega
        rcases hp with hp | ⟨e', he', hp⟩
        · have := hp.1
          have := hpos e (by simp)
          simp only [whole] at *
          omega
        · exact key e' hp he'
      unfold reachLoop reachId
      rw [if_pos (by simp only [Sl.ptr, hs, Bool.and_eq_true, decide_eq_true_eq]; omega), if_pos ⟨hs, hl⟩]
      simp only [Sl.ptr, hs, Nat.add_sub_cancel_left]
    · have hp' : Placed inp es x := by
        rcases hp with hp | ⟨e', he', hp⟩
        · exact .inl hp
        · simp only [List.mem_cons] at he'
          rcases he' with rfl | he'
          · exact absurd hp.1 hs
          · exact .inr ⟨e', he', hp⟩
      have hlt : x.src < e.id := by
        rcases hp' with hx | ⟨e', he, hx⟩
        · rw [hx.1]; exact (hpos e (by simp))
        · rw [hx.1]; exact hd.1 e' he
      have := h e (by simp) hlt
      unfold reachLoop reachId
      rw [if_neg (by simpa using this), if_neg (by simp [hs])]
      exact reach_first h0 (fun e' he' => h e' (by simp [he'])) hd.2 (fun e' he' => hpos e' (by simp [he'])) hp'

theorem errorContext_congr {cf cf' : Cfg} {sp : Spans} {a b : Nat} (h : sp.reach cf a = sp.reach cf' b) : errorContext cf sp a = errorContext cf' sp b := by
  unfold errorContext
  rw [h]

/-- Where all places that are looked up are found alike, parsing goes alike. -/
theorem loop_same {cf cf' : Cfg} (hov : cf.overflowChecks = cf'.overflowChecks) {I : PSt → Prop}
    (hI : ∀ p p', I p → Expand cf p p' → Expand cf' p p' → I p')
    (hr : ∀ p x, I p → Sub x p.h.content → reachLoop cf p.sp.input (x.ptr cf) p.sp.exps = reachLoop cf' p.sp.input (x.ptr cf') p.sp.exps) :
    ∀ (n : Nat) (p : PSt), I p → parseLoop cf n p = parseLoop cf' n p
  | 0, _, _ => rfl
  | n + 1, p, hp => by
    have hsub : Sub { p.h.content with cs := trimStart p.h.content.cs } p.h.content := (Sub.refl _).suffix (trimStart_suffix _)
    have hreach := hr p _ hp hsub
    unfold parseLoop
    dsimp only
    rw [atom_cfg hov, tryExpand_cfg hov]
    cases ht : token p.h.content.cs with
    | panic _ => rfl
    | err _ _ => rfl
    | ok t rest =>
      cases t with
      | chr c r => rfl
      | cs name =>
        dsimp only
        cases hx : tryExpand cf' p.h.macros name rest with
        | none => rfl
        | some x =>
          cases x with
          | panic _ => rfl
          | err _ => rfl
          | ok new consumed =>
            dsimp only
            split
            · rfl
            · rename_i hlim
              simp only [Bool.or_eq_true, decide_eq_true_eq, not_or, Nat.not_le] at hlim
              unfold Spans.add Spans.reach
              dsimp only
              cases hq : reachLoop cf p.sp.input (Sl.ptr cf { p.h.content with cs := trimStart p.h.content.cs }) p.sp.exps with
              | none => rw [← hreach, hq]; rfl
              | some y =>
                obtain ⟨start, es⟩ := y
                rw [← hreach, hq]
                dsimp only [Option.map]
                refine loop_same hov hI hr n _ (hI p _ hp ⟨name, rest, new, consumed, start, es, _, ht, ?_, hlim.1, hlim.2, hq, rfl⟩
                  ⟨name, rest, new, consumed, start, es, _, ht, hx, hlim.1, hlim.2, ?_, rfl⟩)
                · rw [tryExpand_cfg hov]; exact hx
                · rw [← hreach]; exact hq

/-- Where an error is noticed. -/
theorem loop_err {cf cf' : Cfg} (hov : cf.overflowChecks = cf'.overflowChecks) {I : PSt → Prop}
    (hI : ∀ p p', I p → Expand cf p p' → Expand cf' p p' → I p')
    (hr : ∀ p x, I p → Sub x p.h.content → reachLoop cf p.sp.input (x.ptr cf) p.sp.exps = reachLoop cf' p.sp.input (x.ptr cf') p.sp.exps)
    {p p1 : PSt} (hp : I p) (hf : p.h.harg = false ∧ p.h.allowMods = false ∧ p.h.skip = false) (hx : Expands cf p p1) :
    I p1 ∧ p1.h.harg = false ∧ p1.h.allowMods = false ∧ p1.h.skip = false := by
  induction hx with
  | refl => exact ⟨hp, hf⟩
  | @step s s' s'' h1 h2 ih =>
    have hh := h1.h
    have h1' : Expand cf' s s' := by
      obtain ⟨name, rest, new, consumed, start, es, len, a1, a2, a3, a4, a5, a6⟩ := h1.ex
      refine ⟨name, rest, new, consumed, start, es, len, a1, by rw [← tryExpand_cfg hov]; exact a2, a3, a4, ?_, a6⟩
      rw [← hr s _ hp ((Sub.refl _).suffix (trimStart_suffix _))]
      exact a5
    exact ih (hI _ _ hp h1 h1') (by rw [hh]; exact hf)

theorem step_same {cf cf' : Cfg} (hov : cf.overflowChecks = cf'.overflowChecks) {I : PSt → Prop}
    (hI : ∀ p p', I p → Expand cf p p' → Expand cf' p p' → I p') (hwf : ∀ p, I p → p.h.content.wf)
    (hr : ∀ p x, I p → Sub x p.h.content → reachLoop cf p.sp.input (x.ptr cf) p.sp.exps = reachLoop cf' p.sp.input (x.ptr cf') p.sp.exps)
    {s : State} (hs : ∀ c A rest, s.stack = .sub c A :: rest → trimStart c.cs ≠ [] → I (startSt s c A)) : step cf s = step cf' s := by
  unfold step
  cases hst : s.stack with
  | nil => rfl
  | cons i stack =>
    cases i with
    | ev e => rfl
    | sub c A =>
      dsimp only
      split
      · rfl
      · rename_i hne
        have hp := hs c A stack hst (by simpa using hne)
        have e : parse cf (startSt s c A) = parse cf' (startSt s c A) := loop_same hov hI hr _ _ hp
        obtain ⟨p1, hx, hf⟩ := parse_spec cf (startSt s c A)
        obtain ⟨hp1, f1, f2, f3⟩ := loop_err hov hI hr hp ⟨rfl, rfl, rfl⟩ hx
        rw [← e]
        generalize parse cf (startSt s c A) = r at hf
        cases r with
        | ok d st => rfl
        | panic p => rfl
        | err k st =>
          have key : Sub st.h.content p1.h.content ∧ st.sp.input = p1.sp.input ∧ st.sp.exps = p1.sp.exps := by
            have howf := hwf p1 hp1
            generalize hk : Res.err k st = r0 at hf
            have hk := hk.symm
            cases hf with
            | nothing => cases hk
            | macroPanic => cases hk
            | assertion => cases hk
            | @error _ r1 ht he => cases hk; exact ⟨(Sub.refl _).suffix (by have := good_token (cf := cf) p1.h.content.cs; rw [ht] at this; exact this), rfl, rfl⟩
            | @macroError _ r1 _ _ ht h1 h2 => cases hk; exact ⟨(Sub.refl _).suffix (by have := good_token (cf := cf) p1.h.content.cs; rw [ht] at this; exact this), h1, h2⟩
            | @atom t r1 ht hno =>
              have hh := hk
              have hsuf : r1 <:+ p1.h.content.cs := by have := good_token (cf := cf) p1.h.content.cs; rw [ht] at this; exact this
              generalize hs0 : ({ p1.h with content := { p1.h.content with cs := r1 } } : HSt) = s0
              have hpre : Pre false p1.h.content s0 := by
                subst hs0
                exact ⟨howf, (Sub.refl _).suffix hsuf, by intro h; cases h⟩
              have htok : TokOK false p1.h.content s0 (.ofTok p1.h.content t) := tok_ok ht (Sub.refl _) (fun _ => by rw [← hs0])
              have hfresh : Fresh s0 (.ofTok p1.h.content t) := by
                subst hs0
                refine ⟨f1, f2, f3, ?_⟩
                have := token_facts ht
                cases t with
                | cs => trivial
                | chr c r' => obtain ⟨rfl, _⟩ := this; rfl
              have hatom := atom_spec (cf := cf) hpre htok hfresh
              unfold liftH at hh
              simp only at hh
              rw [hs0] at hh
              cases hr : atom cf (.ofTok p1.h.content t) s0 with
              | panic p => rw [hr] at hh; cases hh
              | ok d s2 => rw [hr] at hh; cases hh
              | err e s2 =>
                rw [hr] at hh hatom
                cases hh
                obtain ⟨d, x, _⟩ := hatom
                exact ⟨x.sub, rfl, rfl⟩
          have := hr p1 _ hp1 key.1
          dsimp only
          rw [errorContext_congr (cf := cf) (cf' := cf') (b := st.h.content.ptr cf') (by unfold Spans.reach; rw [key.2.1, key.2.2, this])]

/-! ### Expansions in one round -/

/-- The content is the innermost expansion. -/
def InNew (p : PSt) : Prop := ∃ e es, p.sp.exps = e :: es ∧ p.h.content = ⟨e.id, blen e.full, e.full⟩

theorem Expand.inNew {p p' : PSt} (h : Expand cf p p') : InNew p' := by
  obtain ⟨name, rest, new, consumed, start, es, len, -, -, -, -, -, rfl⟩ := h.ex
  exact ⟨_, _, rfl, rfl⟩

theorem Expands.inNew {p p' : PSt} (h : Expands cf p p') : p' = p ∨ InNew p' := by
  induction h with
  | refl => exact .inl rfl
  | step h1 _ ih =>
    rcases ih with rfl | h
    · exact .inr h1.inNew
    · exact .inr h

/-- The place of a part of the innermost expansion is found whatever the addresses are. -/
theorem InNew.reach {p : PSt} (h : InNew p) {x : Sl} (hx : Sub x p.h.content) (inp : Str) :
    reachLoop cf inp (x.ptr cf) p.sp.exps = some (Sl.start x, p.sp.exps) := by
  obtain ⟨e, es, h1, h2⟩ := h
  rw [h2] at hx
  obtain ⟨e1, e2, e3⟩ := Sub.ptr_range (cf := cf) hx
  rw [h1]
  unfold reachLoop
  rw [if_pos (by simpa using ⟨e2, e3⟩)]
  simp only [Sl.ptr, e1, Nat.add_sub_cancel_left]

/-- The innermost expansion after a round in which there was one. -/
theorem round_list {inp : Str} {s s' : State} {o : Option Item} (hb : Base inp s)
    (hst : step cf s = match o with | some i => .item i s' | none => .again s') :
    ∀ x A, Instr.sub x A ∈ s'.stack ++ s'.buf → (Instr.sub x A ∈ s.stack ++ s.buf) ∨
      (∃ y B, Instr.sub y B ∈ s.stack ∧ Sub x y) ∨ ∃ e ∈ s'.sp.exps, Sub x ⟨e.id, blen e.full, e.full⟩ := by
  rcases step_cases o hst with ⟨e, rfl, hs, he⟩ | ⟨c, A, rfl, hs, he⟩ | ⟨c, A, rest, hs, hne⟩
  · intro x A hx
    rw [show s'.buf = s.buf by rw [he]] at hx
    refine .inl ?_
    rw [hs]; simp at hx ⊢; exact hx
  · intro x A hx
    rw [show s'.buf = s.buf by rw [he]] at hx
    refine .inl ?_
    rw [hs]; simp at hx ⊢; exact .inr hx
  · obtain ⟨p1, hx, -, hr⟩ := step_sub (cf := cf) (st := false) hs (hb.wf c A (by simp [hs])) hne (by intro h; cases h) hb.calls
    rw [hst] at hr
    have key : ∀ x, (InNew p1 → s'.sp.exps = p1.sp.exps) → Sub x p1.h.content →
        (∃ y B, Instr.sub y B ∈ s.stack ∧ Sub x y) ∨ ∃ e ∈ s'.sp.exps, Sub x ⟨e.id, blen e.full, e.full⟩ := by
      intro x hex hsub
      rcases hx.inNew with e | hN
      · exact .inl ⟨c, A, by simp [hs], by rw [e] at hsub; exact hsub⟩
      · obtain ⟨e, es, h1, h2⟩ := hN
        exact .inr ⟨e, by rw [hex ⟨e, es, h1, h2⟩, h1]; simp, by rw [← h2]; exact hsub⟩
    cases o with
    | none =>
      obtain ⟨pre, D, c', A', R⟩ := hr
      have hsp : s'.sp = p1.sp := by rw [R.eq]
      intro x B hx
      rw [R.eq] at hx
      simp only [List.append_nil, List.mem_append, List.mem_cons] at hx
      rcases hx with ((hx | hx) | hx) | hx | hx
      · rcases R.head with rfl | ⟨ty, p, rfl⟩ <;> simp at hx
      · exact .inl (by simp [hx])
      · exact .inr (key x (fun _ => by rw [hsp]) (R.subs x B hx))
      · cases hx; exact .inr (key _ (fun _ => by rw [hsp]) R.sub)
      · exact .inl (by simp [hs, hx])
    | some i =>
      obtain ⟨sp2, d, c', A', R⟩ := hr
      have hex : InNew p1 → s'.sp.exps = p1.sp.exps := by
        intro hN
        obtain ⟨k, hre⟩ := R.reach
        have := hN.reach (cf := cf) R.sub sp2.input
        unfold Spans.reach at hre
        rw [R.span.2.1, this] at hre
        have := congrArg (Option.map fun y => y.2.exps) hre
        simpa using this.symm
      intro x B hx
      rw [R.eq] at hx
      simp only [List.mem_append, List.mem_cons] at hx
      rcases hx with (hx | hx) | hx | hx
      · cases hx; exact .inr (key _ hex R.sub)
      · exact .inl (by simp [hs, hx])
      · exact .inl (by simp [hx])
      · exact .inr (key x hex (R.subs x B hx))

end PL
