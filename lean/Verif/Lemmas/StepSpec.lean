import Verif.Lemmas.Round
import Verif.Lemmas.MacroSafe
set_option autoImplicit false
/-! # One activation of `next` on unparsed text -/
namespace PL
open Lex Spec Macros

variable {cf : Cfg}

theorem Expand.h {s s' : PSt} (h : Expand cf s s') : s'.h = { s.h with content := s'.h.content } := by
  obtain ⟨_, _, _, _, _, _, _, -, -, -, -, -, rfl⟩ := h.ex
  rfl

theorem Expands.h {s s' : PSt} (h : Expands cf s s') : s'.h = { s.h with content := s'.h.content } := by
  induction h with
  | refl => rfl
  | step h1 _ ih => rw [ih, h1.h]

theorem Expand.wf {s s' : PSt} (h : Expand cf s s') : s'.h.content.wf := by
  obtain ⟨_, _, _, _, _, _, _, -, -, -, -, -, rfl⟩ := h.ex
  exact Nat.le_refl _

theorem Expands.wf {s s' : PSt} (h : Expands cf s s') (hw : s.h.content.wf) : s'.h.content.wf := by
  induction h with
  | refl => exact hw
  | step h1 _ ih => exact ih h1.wf

/-- Calls end after they begin. -/
def CallsOK (es : List ExpSpan) : Prop := ∀ e ∈ es, e.callStart ≤ e.callStop

theorem Expand.calls {s s' : PSt} (h : Expand cf s s') (hc : CallsOK s.sp.exps) : CallsOK s'.sp.exps := by
  obtain ⟨name, rest, new, consumed, start, es, len, -, -, -, -, hr, rfl⟩ := h.ex
  intro e he
  simp at he
  rcases he with rfl | he
  · simp
  · exact hc e ((reachLoop_some hr).1.subset he)

theorem Expands.calls {s s' : PSt} (h : Expands cf s s') (hc : CallsOK s.sp.exps) : CallsOK s'.sp.exps := by
  induction h with
  | refl => exact hc
  | step h1 _ ih => exact ih (h1.calls hc)

theorem Expands.input {s s' : PSt} (h : Expands cf s s') : s'.sp.input = s.sp.input := by
  induction h with
  | refl => rfl
  | step h1 _ ih =>
    obtain ⟨_, _, _, _, _, _, _, -, -, -, -, -, rfl⟩ := h1.ex
    exact ih

theorem Expands.nil {s s' : PSt} (h : Expands cf s s') (hm : s.h.macros = []) : s' = s := by
  cases h with
  | refl => rfl
  | step h1 _ =>
    obtain ⟨_, _, _, _, _, _, _, -, hx, -, -, -, rfl⟩ := h1.ex
    rw [hm] at hx
    cases hx

/-- The round read a token: what it leaves. -/
structure RoundOk (st : Bool) (s : State) (o : Sl) (A : Option AlignCount) (rest : List Instr) (sp : Spans) (s' : State)
    (pre D : List Instr) (c' : Sl) (A' : Option AlignCount) : Prop where
  eq : s' = ⟨pre ++ s.buf ++ D ++ .sub c' A' :: rest, [], s'.macros, sp⟩
  head : pre = [] ∨ ∃ ty p, pre = [.ev (.script ty p)]
  flat : Flat D
  shape : Shape st A A' (pre ++ D)
  sub : Sub c' o
  subs : ∀ x al, Instr.sub x al ∈ D → Sub x o
  mac : ∀ x ∈ s'.macros, x ∈ s.macros ∨ Defines o.cs ∧ DefFrom o.cs x.2
  smac : st = true → s'.macros = s.macros
  weight : W (pre ++ D) + 16 * c'.cs.length + 7 ≤ 16 * o.cs.length ∨ pre ++ D = [] ∧ c'.cs = []

/-- The round ended in an error: what it leaves, where `sp` are the expansions at the error. -/
structure RoundErr (cf : Cfg) (st : Bool) (s : State) (o : Sl) (rest : List Instr) (sp : Spans) (i : Item) (s' : State)
    (sp2 : Spans) (d : List Instr) (c' : Sl) (A' : Option AlignCount) : Prop where
  item : ∃ e ctx, i = .err e ctx
  span : sp2.input = sp.input ∧ sp2.exps = sp.exps ∧ sp2.total = sp.total ∧ sp.nalloc ≤ sp2.nalloc
  reach : ∃ k, sp2.reach cf (c'.ptr cf) = some (k, s'.sp)
  eq : s' = ⟨.sub c' A' :: rest, s.buf ++ d, s'.macros, s'.sp⟩
  grow : Grow d
  sub : Sub c' o
  subs : ∀ x al, Instr.sub x al ∈ d → Sub x o
  mac : ∀ x ∈ s'.macros, x ∈ s.macros ∨ Defines o.cs ∧ DefFrom o.cs x.2
  weight : W d + 16 * c'.cs.length + 8 ≤ 16 * o.cs.length

/-- The reasons for a panic. -/
inductive RoundPanic (cf : Cfg) (s : State) (o : Sl) (sp : Spans) : Panic → Prop
  | lex {p} : LexPanic cf o.cs p → RoundPanic cf s o sp p
  | expansion {name rest p} : tryExpand cf s.macros name rest = some (.panic p) → RoundPanic cf s o sp p
  | assertion {c' : Sl} {sp2 : Spans} : Sub c' o → sp2.input = sp.input → sp2.exps = sp.exps →
      sp2.reach cf (c'.ptr cf) = none → RoundPanic cf s o sp .assertion

theorem step_sub {st : Bool} {s : State} {c : Sl} {A : Option AlignCount} {rest : List Instr}
    (hs : s.stack = .sub c A :: rest) (hwf : c.wf) (hne : trimStart c.cs ≠ [])
    (hst : st = true → s.macros = [] ∧ Clean c.cs) (hcall : CallsOK s.sp.exps) :
    ∃ p1, Expands cf (startSt s c A) p1 ∧ (st = true → p1 = startSt s c A) ∧
      match step cf s with
      | .done => False
      | .again s' => ∃ pre D c' A', RoundOk st s p1.h.content A rest p1.sp s' pre D c' A'
      | .item i s' => ∃ sp2 d c' A', RoundErr cf st s p1.h.content rest p1.sp i s' sp2 d c' A'
      | .panic p => RoundPanic cf s p1.h.content p1.sp p := by
  obtain ⟨p1, hx, hf⟩ := parse_spec cf (startSt s c A)
  have hp1 : st = true → p1 = startSt s c A := fun h => hx.nil (hst h).1
  refine ⟨p1, hx, hp1, ?_⟩
  have hh : p1.h = { (startSt s c A).h with content := p1.h.content } := hx.h
  have hbuf : p1.h.buf = s.buf := by rw [hh]; rfl
  have hal : p1.h.align = A := by rw [hh]; rfl
  have hmac : p1.h.macros = s.macros := by rw [hh]; rfl
  have howf : p1.h.content.wf := hx.wf hwf
  have hcalls : CallsOK p1.sp.exps := hx.calls hcall
  have hstep : step cf s = match parse cf (startSt s c A) with
      | .panic p => .panic p
      | .err e st =>
        match errorContext cf st.sp (st.h.content.ptr cf) with
        | .error p => .panic p
        | .ok (ctx, sp) =>
          .item (.err e ctx) ⟨.sub st.h.content st.h.align :: rest, st.h.buf, st.h.macros, sp⟩
      | .ok desc st =>
        match unstage st.h.buf (.sub st.h.content st.h.align :: rest) desc with
        | .error p => .panic p
        | .ok stack => .again ⟨stack, [], st.h.macros, st.sp⟩ := by
    unfold step
    rw [hs]
    simp only
    rw [if_neg (by simpa using hne)]
    rfl
  rw [hstep]
  generalize parse cf (startSt s c A) = r at hf ⊢
  -- errors are reported in the same way everywhere
  have hError : ∀ (e : ErrorKind) (s2 : PSt) (d : List Instr), s2.sp.input = p1.sp.input → s2.sp.exps = p1.sp.exps →
      s2.sp.total = p1.sp.total → p1.sp.nalloc ≤ s2.sp.nalloc → s2.h.buf = s.buf ++ d → Grow d → Sub s2.h.content p1.h.content →
      (∀ x al, Instr.sub x al ∈ d → Sub x p1.h.content) →
      (∀ x ∈ s2.h.macros, x ∈ s.macros ∨ Defines p1.h.content.cs ∧ DefFrom p1.h.content.cs x.2) →
      W d + 16 * s2.h.content.cs.length + 8 ≤ 16 * p1.h.content.cs.length →
      match (match errorContext cf s2.sp (s2.h.content.ptr cf) with
        | .error p => Step.panic p
        | .ok (ctx, sp) =>
          Step.item (.err e ctx) ⟨.sub s2.h.content s2.h.align :: rest, s2.h.buf, s2.h.macros, sp⟩) with
      | .done => False
      | .again s' => ∃ pre D c' A', RoundOk st s p1.h.content A rest p1.sp s' pre D c' A'
      | .item i s' => ∃ sp2 d c' A', RoundErr cf st s p1.h.content rest p1.sp i s' sp2 d c' A'
      | .panic p => RoundPanic cf s p1.h.content p1.sp p := by
    intro e s2 d h1 h2 h3 h3' h4 h5 h6 h7 h8 h9
    cases hr : s2.sp.reach cf (s2.h.content.ptr cf) with
    | none =>
      rw [errorContext_none hr]
      exact .assertion h6 h1 h2 hr
    | some y =>
      obtain ⟨k, sp'⟩ := y
      obtain ⟨t, ht⟩ := errorContext_ok (by rw [h2]; exact hcalls) hr
      rw [ht]
      exact ⟨s2.sp, d, s2.h.content, s2.h.align, ⟨e, t, rfl⟩, ⟨h1, h2, h3, h3'⟩, ⟨k, hr⟩, by simp [h4], h5, h6, h7, h8, h9⟩
  cases hf with
  | @nothing r1 ht =>
    have htk := token_spec p1.h.content.cs
    rw [ht] at htk
    cases htk
    simp only [unstage, hbuf, hal, hmac]
    refine ⟨[], [], { p1.h.content with cs := [] }, A, by simp, .inl rfl, Flat.nil, Shape.nil, ?_, by simp,
      fun x hx => .inl hx, fun _ => rfl, .inr ⟨rfl, rfl⟩⟩
    exact (Sub.refl _).suffix (List.nil_suffix)
  | @error e r1 ht he =>
    have htk := token_spec p1.h.content.cs
    have hfacts : r1 = [] ∧ p1.h.content.cs ≠ [] := by
      generalize p1.h.content.cs = cs at htk ht
      rw [ht] at htk
      cases htk with
      | none => exact absurd rfl he
      | @empty k hk hcs => exact ⟨rfl, by rw [hcs]; simp⟩
    obtain ⟨rfl, hne'⟩ := hfacts
    have := List.length_pos_iff.2 hne'
    exact hError e ⟨{ p1.h with content := { p1.h.content with cs := [] } }, p1.sp⟩ [] rfl rfl rfl (Nat.le_refl _) (by simp [hbuf]) Grow.nil
      ((Sub.refl _).suffix (List.nil_suffix)) (by simp) (fun x hx => .inl (by rw [← hmac]; exact hx)) (by simp [W]; omega)
  | @atom t r1 ht hno =>
    have hsuf : r1 <:+ p1.h.content.cs := by have := good_token (cf := cf) p1.h.content.cs; rw [ht] at this; exact this
    have hlen : r1.length + 1 ≤ p1.h.content.cs.length := by
      have := token_facts ht
      cases t with
      | cs name => obtain ⟨k, w, _, _, _, e⟩ := this; rw [e]; simp; omega
      | chr c r' => obtain ⟨rfl, k, _, e, _⟩ := this; rw [e]; simp
    generalize hs0 : ({ p1.h with content := { p1.h.content with cs := r1 } } : HSt) = s0
    have hpre : Pre st p1.h.content s0 := by
      subst hs0
      exact ⟨howf, (Sub.refl _).suffix hsuf, fun h => by rw [hp1 h]; exact (hst h).2⟩
    have htok : TokOK st p1.h.content s0 (.ofTok p1.h.content t) := tok_ok ht (Sub.refl _) (fun _ => by rw [← hs0])
    have hfresh : Fresh s0 (.ofTok p1.h.content t) := by
      subst hs0
      refine ⟨by rw [hh]; rfl, by rw [hh]; rfl, by rw [hh]; rfl, ?_⟩
      have := token_facts ht
      cases t with
      | cs => trivial
      | chr c r' => obtain ⟨rfl, _⟩ := this; rfl
    have hb0 : s0.buf = s.buf := by subst hs0; exact hbuf
    have ha0 : s0.align = A := by subst hs0; exact hal
    have hm0 : s0.macros = s.macros := by subst hs0; exact hmac
    have hl0 : s0.len = r1.length := by subst hs0; rfl
    have hatom := atom_spec (cf := cf) hpre htok hfresh
    unfold liftH
    simp only
    cases hr : atom cf (.ofTok p1.h.content t) s0 with
    | panic p => rw [hr] at hatom; exact .lex hatom
    | err e s2 =>
      rw [hr] at hatom
      obtain ⟨d, x, g, w⟩ := hatom
      exact hError e ⟨s2, p1.sp⟩ d rfl rfl rfl (Nat.le_refl _) (by rw [← hb0]; exact x.buf) g x.sub x.subs
        (fun y hy => by rw [← hm0]; exact x.mac y hy) (by unfold HSt.len at *; simp only at *; omega)
    | ok x s2 =>
      rw [hr] at hatom
      obtain ⟨pre, D, a⟩ := hatom
      simp only
      rw [a.unst]
      refine ⟨pre, D, s2.content, s2.align, by rw [hb0], a.head, a.flat, by rw [← ha0]; exact a.shape, a.sub, a.subs, ?_, ?_, ?_⟩
      · intro y hy; rw [← hm0]; exact a.mac y hy
      · intro h; rw [← hm0]; exact a.smac h
      · have := a.weight
        unfold HSt.len at *
        left; omega
  | @macroPanic name r1 p ht hx => exact .expansion (by rw [← hmac]; exact hx)
  | @macroError name r1 e sp ht h1 h2 h3 h4 _ =>
    have hsuf : r1 <:+ p1.h.content.cs := by have := good_token (cf := cf) p1.h.content.cs; rw [ht] at this; exact this
    have hlen : r1.length + 1 ≤ p1.h.content.cs.length := by
      obtain ⟨k, w, _, _, _, e⟩ := token_facts ht
      rw [e]; simp; omega
    exact hError e ⟨{ p1.h with content := { p1.h.content with cs := r1 } }, sp⟩ [] h1 h2 h3 h4 (by simp [hbuf]) Grow.nil
      ((Sub.refl _).suffix hsuf) (by simp) (fun x hx => .inl (by rw [← hmac]; exact hx)) (by simp [W]; omega)
  | @assertion name r1 new consumed ht hx hr _ _ =>
    refine .assertion (c' := { p1.h.content with cs := trimStart p1.h.content.cs }) (sp2 := p1.sp) ((Sub.refl _).suffix (trimStart_suffix _)) rfl rfl ?_
    unfold Spans.reach
    rw [hr]
    rfl

end PL
