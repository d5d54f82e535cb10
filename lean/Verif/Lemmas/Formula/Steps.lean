import Verif.Lemmas.Formula.Call
set_option autoImplicit false
/-!
# Steps of the parser, exactly
-/
namespace PL.Formula
open PL PL.Lex PL.H PL.Macros Spec PL.Props

variable {cf : Cfg} {k : ErrorKind} {T : Option Nat} {Δ : Known} {s : State} {c : Sl} {A : Option AlignCount} {rest : List Instr}

theorem step_text (hs : s.stack = .sub c A :: rest) (hne : trimStart c.cs ≠ []) : step cf s = match parse cf (startSt s c A) with
      | .panic p => .panic p
      | .err e st =>
        match errorContext cf st.sp (st.h.content.ptr cf) with
        | .error p => .panic p
        | .ok (ctx, sp) =>
          .item (.err e ctx) ⟨.sub st.h.content st.h.align :: rest, st.h.buf, st.h.macros, sp⟩
      | .ok desc st =>
        match unstage st.h.buf (.sub st.h.content st.h.align :: rest) desc with
        | .error p => .panic p
        | .ok stack => .again ⟨stack, [], st.h.macros, st.sp⟩ := by
  unfold step
  rw [hs]
  simp only
  rw [if_neg (by simpa using hne)]
  rfl

theorem final_calls {p1 st2 : PSt} (hf : Final cf p1 (.err k st2)) : st2.sp.exps = p1.sp.exps := by
  generalize hr : (Res.err k st2 : Res PSt (Option Desc)) = r at hf
  cases hf with
  | nothing => cases hr
  | error => cases hr; rfl
  | atom =>
    unfold liftH at hr
    dsimp only at hr
    split at hr
    · cases hr
    · cases hr; rfl
    · cases hr
  | macroPanic => cases hr
  | macroError _ _ h2 _ _ _ => cases hr; exact h2
  | assertion => cases hr

theorem step_err {st2 : PSt} (hs : s.stack = .sub c A :: rest) (hne : trimStart c.cs ≠ []) (hcall : CallsOK s.sp.exps)
    (he : parse cf (startSt s c A) = .err k st2) : (∃ ctx s', step cf s = .item (.err k ctx) s') ∨ step cf s = .panic .assertion := by
  obtain ⟨p1, hx, hf⟩ := parse_spec cf (startSt s c A)
  have hcalls : CallsOK p1.sp.exps := hx.calls hcall
  rw [he] at hf
  have e2 := final_calls hf
  rw [step_text hs hne, he]
  dsimp only
  cases hr : Spans.reach cf st2.sp (st2.h.content.ptr cf) with
  | some y =>
    obtain ⟨i, sp'⟩ := y
    obtain ⟨t, hk⟩ := errorContext_ok (sp := st2.sp) (by rw [e2]; exact hcalls) hr
    rw [hk]
    exact .inl ⟨_, _, rfl⟩
  | none =>
    rw [errorContext_none hr]
    exact .inr rfl

theorem step_ok {a : Option Desc} {st2 : PSt} (hs : s.stack = .sub c A :: rest) (hwf : c.wf) (hne : trimStart c.cs ≠ [])
    (he : parse cf (startSt s c A) = .ok a st2) : ∃ pre, step cf s = .again ⟨pre ++ .sub st2.h.content st2.h.align :: rest, [], st2.h.macros, st2.sp⟩ := by
  obtain ⟨p1, hx, hf⟩ := parse_spec cf (startSt s c A)
  have hh : p1.h = { (startSt s c A).h with content := p1.h.content } := hx.h
  have howf : p1.h.content.wf := hx.wf hwf
  have hstep := step_text (cf := cf) hs hne
  rw [hstep]
  rw [he] at hf ⊢
  dsimp only
  have key : ∃ pre, unstage st2.h.buf (.sub st2.h.content st2.h.align :: rest) a = .ok (pre ++ .sub st2.h.content st2.h.align :: rest) := by
    generalize hr : (Res.ok a st2 : Res PSt (Option Desc)) = r at hf
    cases hf with
    | nothing => cases hr; exact ⟨_, rfl⟩
    | error => cases hr
    | @atom t r1 ht hno =>
      have hsuf : r1 <:+ p1.h.content.cs := by have := good_token (cf := cf) p1.h.content.cs; rw [ht] at this; exact this
      have hpre : Pre false p1.h.content { p1.h with content := { p1.h.content with cs := r1 } } :=
        ⟨howf, (Sub.refl _).suffix hsuf, fun h => by cases h⟩
      have htok : TokOK false p1.h.content { p1.h with content := { p1.h.content with cs := r1 } } (.ofTok p1.h.content t) := tok_ok ht (Sub.refl _) (fun _ => rfl)
      have hfresh : PL.Fresh { p1.h with content := { p1.h.content with cs := r1 } } (.ofTok p1.h.content t) := by
        refine ⟨by rw [hh]; rfl, by rw [hh]; rfl, by rw [hh]; rfl, ?_⟩
        have := token_facts ht
        cases t with
        | cs => trivial
        | chr c r' => obtain ⟨rfl, _⟩ := this; rfl
      have hatom := atom_spec (cf := cf) hpre htok hfresh
      unfold liftH at hr
      dsimp only at hr
      cases hq : atom cf (.ofTok p1.h.content t) { p1.h with content := { p1.h.content with cs := r1 } } with
      | panic p => rw [hq] at hr; cases hr
      | err e s2 => rw [hq] at hr; cases hr
      | ok x s2 =>
        rw [hq] at hr hatom
        cases hr
        obtain ⟨pre, D, a⟩ := hatom
        exact ⟨_, a.unst _⟩
    | macroPanic => cases hr
    | macroError => cases hr
    | assertion => cases hr
  obtain ⟨pre, e⟩ := key
  rw [e]
  exact ⟨pre, rfl⟩

/-! ### Texts that differ in white space in front -/

theorem nextTok_of_trim {s s' : Str} {x : Word} {t : Str} (e : trimStart s' = trimStart s) (h : NextTok s x t) : NextTok s' x t := by
  rw [nextTok_iff] at h ⊢
  rw [token_eq e]
  exact h

theorem meant_trim {s s' : Str} {e : Effect} (e' : trimStart s' = trimStart s) (h : Meant T Δ s e) : Meant T Δ s' e := by
  rcases parts_of h with ⟨hb, rfl⟩ | ⟨hb, e1, rfl⟩ | ⟨hx, hf, hg, rfl⟩ | ⟨hx, hf, hg, ht⟩
  · exact .nothing (blankEnd_trim hb e')
  · subst e1
    have h1 := backslash_token hb
    rw [← token_eq e'] at h1
    have h2 := token_spec s'
    rw [h1] at h2
    cases h2 with
    | empty hb e => rw [e]; exact .backslash hb
  · exact .wrong (nextTok_of_trim e' hx) hf hg
  · exact ht.meant (nextTok_of_trim e' hx) hf hg

theorem acts_trim {s s' : Str} {e : Effect} (e' : trimStart s' = trimStart s) (h : Acts T Δ s e) : Acts T Δ s' e := by
  cases h with
  | here h => exact .here (meant_trim e' h)
  | call hx hd hu h => exact .call (nextTok_of_trim e' hx) hd hu h
  | badCall hx hd hu => exact .badCall (nextTok_of_trim e' hx) hd hu

/-! ### The next step -/

/-- The parser reports that macros are expanded without end. -/
def Limit (cf : Cfg) (s : State) : Prop := ∃ ctx s', step cf s = .item (.err .macroRecursionLimit ctx) s'

/-- The parser goes on with the text `r` above `rest`. -/
def GoesOn (cf : Cfg) (s : State) (rest : List Instr) (r : Str) (Δ : Known) : Prop :=
  ∃ pre c' A' D' sp', step cf s = .again ⟨pre ++ .sub c' A' :: rest, [], D', sp'⟩ ∧ c'.cs = r ∧ Stores cf D' Δ

/-- What the step is. -/
def Step.does (cf : Cfg) (s : State) (rest : List Instr) : Effect → Prop
  | .right _ r Δ => GoesOn cf s rest r Δ
  | .wrong k => ∃ ctx s', step cf s = .item (.err k ctx) s'

theorem exec_assertion {inp : Str} {its : List Item} (h : Exec cf (State.init inp) its s) (hn : NoErr its) {p : Panic} (hp : step cf s = .panic p) :
    p ≠ .assertion ∧ p ≠ .fuel := by
  rcases h.panic hp with ⟨rfl, -⟩ | ⟨rfl, -⟩ | ⟨rfl, -⟩ | ⟨-, -, e, ctx, h2⟩
  · exact ⟨by simp, by simp⟩
  · exact ⟨by simp, by simp⟩
  · exact ⟨by simp, by simp⟩
  · obtain ⟨_, h3⟩ := hn _ h2
    cases h3

theorem fresh_start : Fresh (room A) (startSt s c A).h := ⟨rfl, rfl, rfl, rfl⟩

/-- The same for a state that need not be reached. -/
theorem step_sound_of (hcall : CallsOK s.sp.exps) (hwf : c.wf) (hna : ∀ p, step cf s = .panic p → p ≠ .assertion ∧ p ≠ .fuel) (hs : s.stack = .sub c A :: rest)
    (hne : trimStart c.cs ≠ []) (hS : Stores cf s.macros Δ) {e : Effect} (he : Acts (room A) Δ c.cs e) : Step.does cf s rest e ∨ Limit cf s := by
  have err : ∀ {k st}, parse cf (startSt s c A) = .err k st → ∃ ctx s', step cf s = .item (.err k ctx) s' := by
    intro k st e1
    rcases step_err hs hne hcall e1 with h1 | h1
    · exact h1
    · exact absurd rfl (hna _ h1).1
  rcases acts_sound (cf := cf) he (maxExpansionDepth + 2) (startSt s c A).h s.sp rfl fresh_start hS with h1 | ⟨st, h1⟩ | ⟨p, h1, h2⟩
  · cases e with
    | wrong k =>
      obtain ⟨h', sp', h1⟩ := h1
      exact .inl (err h1)
    | right m r Δ' =>
      obtain ⟨a, h', sp', h1, h2, h3⟩ := h1
      obtain ⟨pre, h4⟩ := step_ok hs hwf hne h1
      exact .inl ⟨pre, _, _, _, _, h4, h2, h3⟩
  · exact .inr (err h1)
  · have h3 : step cf s = .panic p := by
      have h1 : parse cf (startSt s c A) = .panic p := h1
      rw [step_text hs hne, h1]
    have h4 := hna _ h3
    rcases h2 with h2 | h2
    · exact absurd h2 h4.2
    · exact absurd h2 h4.1

theorem step_sound {inp : Str} {its : List Item} (h : Exec cf (State.init inp) its s) (hn : NoErr its) (hs : s.stack = .sub c A :: rest) (hne : trimStart c.cs ≠ [])
    (hS : Stores cf s.macros Δ) {e : Effect} (he : Acts (room A) Δ c.cs e) : Step.does cf s rest e ∨ Limit cf s :=
  step_sound_of h.base.calls (h.base.wf c A (by simp [hs])) (fun _ => exec_assertion h hn) hs hne hS he

theorem step_total {inp : Str} {its : List Item} (h : Exec cf (State.init inp) its s) (hn : NoErr its) (hs : s.stack = .sub c A :: rest) (hne : trimStart c.cs ≠ [])
    (hS : Stores cf s.macros Δ) (ho : cf.overflowChecks = true) (hp : ∀ p, step cf s ≠ .panic p) :
    (∃ e, Acts (room A) Δ c.cs e ∧ Step.does cf s rest e) ∨ Limit cf s := by
  have hp' : ∀ p, parseLoop cf (maxExpansionDepth + 2) (startSt s c A) ≠ .panic p := by
    intro p e
    have e : parse cf (startSt s c A) = .panic p := e
    exact hp p (by rw [step_text hs hne, e])
  rcases acts_total (cf := cf) (T := room A) ho (maxExpansionDepth + 2) (startSt s c A).h s.sp fresh_start hS hp' with ⟨e, he⟩ | ⟨st, h1⟩
  · rcases step_sound h hn hs hne hS he with h1 | h1
    · exact .inl ⟨e, he, h1⟩
    · exact .inr h1
  · have h1 : parse cf (startSt s c A) = .err .macroRecursionLimit st := h1
    rcases step_err hs hne h.base.calls h1 with h1 | h1
    · exact .inr h1
    · exact absurd h1 (hp _)

theorem token_nil {s : Str} (h : trimStart s = []) {x : Word} {t : Str} (hx : NextTok s x t) : False := by
  obtain ⟨tk, h1, -⟩ := nextTok_iff.1 hx
  rw [← token_trim, h] at h1
  cases h1

theorem acts_wrong_ne {s : Str} (h : Acts T Δ s (.wrong k)) : trimStart s ≠ [] := by
  intro he
  cases h with
  | here h =>
    rcases parts_of h with ⟨-, h1⟩ | ⟨hb, e1, -⟩ | ⟨hx, -⟩ | ⟨hx, -⟩
    · cases h1
    · subst e1
      have h1 := backslash_token hb
      rw [← token_trim, he] at h1
      cases h1
    · exact token_nil he hx
    · exact token_nil he hx
  | call hx => exact token_nil he hx
  | badCall hx => exact token_nil he hx

/-- What the parser does at a text in front of which there may be macros being expanded. -/
theorem pending_sound {inp : Str} {its : List Item} {s1 : State} {B : List Instr} {sp : Spans} {D : Macros.Ctx}
    (h : Exec cf (State.init inp) its s1) (hn : NoErr its) (hp : Pending cf s1 ⟨.sub c A :: B, [], D, sp⟩) (hne : trimStart c.cs ≠ [])
    (hS : Stores cf D Δ) {e : Effect} (he : Acts (room A) Δ c.cs e) : Step.does cf s1 B e ∨ Limit cf s1 := by
  obtain ⟨c0, e1, e2, e3⟩ := hp.expands rfl rfl
  have hot := h.base.onText e1 e3
  have key : step cf s1 = step cf ⟨.sub c A :: B, [], D, sp⟩ := by
    rcases hp.parse with rfl | ⟨c1, c2, A1, B1, M1, sp1, sp2, rfl, e4, hne1, hp'⟩
    · rfl
    · cases e4
      rw [step_sub_ne hne1, hp', ← step_sub_ne hne]
  have := step_sound_of (s := ⟨.sub c A :: B, [], D, sp⟩) hot.calls hot.wf (by rw [← key]; exact fun _ => exec_assertion h hn) rfl hne hS he
  unfold Step.does GoesOn Limit at *
  rw [key]
  exact this

/-- What is wrong after a text that is right, or the limit stops the parser before. -/
theorem upto_wrong (cf : Cfg) {inp t : Str} {ns : Nodes} (h : Upto Known.none inp ns Δ t) (hw : Acts none Δ t (.wrong k)) :
    (∃ ctx s, Exec cf (State.init inp) (ns.events.map .ok ++ [.err k ctx]) s) ∨
    ∃ es ctx s, es <+: ns.events ∧ Exec cf (State.init inp) (es.map .ok ++ [.err .macroRecursionLimit ctx]) s := by
  rcases upto (cf := cf) h [] ⟨0, blen inp, inp⟩ none [] (.init inp) stores_none rfl with ⟨D', c', sp', hS, hc, h1⟩ | ⟨es, s2, h1, h2, h3⟩
  · obtain ⟨s1, h3, h4⟩ := h1.exec
    have hw' := acts_trim hc hw
    rcases pending_sound h3 (noErr_ok _) h4 (acts_wrong_ne hw') hS (A := none) hw' with ⟨ctx, s', h6⟩ | ⟨ctx, s', h6⟩
    · exact .inl ⟨ctx, s', h3.item h6⟩
    · exact .inr ⟨ns.events, ctx, s', List.prefix_rfl, h3.item h6⟩
  · obtain ⟨s1, h4, h5⟩ := h2.exec
    obtain ⟨ctx, s', h6⟩ := stop_error h4 (noErr_ok es) h5 h3
    exact .inr ⟨es, ctx, s', h1, h4.item h6⟩

end PL.Formula
