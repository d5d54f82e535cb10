import Verif.Lemmas.Exec
import Verif.Props.Defs
set_option autoImplicit false
/-! # Executions with expansions apart, and how they end -/
namespace PL.Formula
open PL PL.Lex PL.Macros Spec PL.Props

variable {cf : Cfg}

/-! ### Expansion inside `parse` -/

/-- One expansion. -/
def expansion (cf : Cfg) (s : PSt) : Option PSt :=
  match token s.h.content.cs with
  | .ok (.cs name) rest =>
    match tryExpand cf s.h.macros name rest with
    | some (.ok new consumed) =>
      if s.sp.exps.length ≥ maxExpansionDepth || s.sp.total ≥ maxExpansionBytes then none
      else
        (Spans.add cf ⟨s.sp.input, s.sp.exps, s.sp.total + blen new, s.sp.nalloc + 1, s.sp.allocBytes + blen new⟩ (s.sp.nalloc + 1) new
          { s.h.content with cs := trimStart s.h.content.cs } (blen name + consumed + 1)).map fun sp =>
            ⟨{ s.h with content := ⟨s.sp.nalloc + 1, blen new, new⟩ }, sp⟩
    | _ => none
  | _ => none

/-- A round expands, or goes on in the same way whatever the fuel. -/
theorem round_cases (cf : Cfg) (s : PSt) :
    match expansion cf s with
    | some s' => ∀ n, parseLoop cf (n + 1) s = parseLoop cf n s'
    | none => ∀ n m, parseLoop cf (n + 1) s = parseLoop cf (m + 1) s := by
  unfold expansion
  cases ht : token s.h.content.cs with
  | panic p => have := token_spec s.h.content.cs; rw [ht] at this; cases this
  | err e rest =>
    intro n m
    rw [parseLoop, parseLoop]
    simp only [ht]
  | ok t rest =>
    cases t with
    | chr c r =>
      intro n m
      rw [parseLoop, parseLoop]
      simp only [ht]
    | cs name =>
      simp only
      cases hx : tryExpand cf s.h.macros name rest with
      | none =>
        intro n m
        rw [parseLoop, parseLoop]
        simp only [ht, hx]
      | some x =>
        cases x with
        | panic p =>
          intro n m
          rw [parseLoop, parseLoop]
          simp only [ht, hx]
        | err e =>
          intro n m
          rw [parseLoop, parseLoop]
          simp only [ht, hx]
        | ok new consumed =>
          simp only
          by_cases hl : (s.sp.exps.length ≥ maxExpansionDepth || s.sp.total ≥ maxExpansionBytes) = true
          · rw [if_pos hl]
            intro n m
            rw [parseLoop, parseLoop]
            simp only [ht, hx, hl, if_true]
          · rw [if_neg hl]
            cases ha : Spans.add cf ⟨s.sp.input, s.sp.exps, s.sp.total + blen new, s.sp.nalloc + 1, s.sp.allocBytes + blen new⟩ (s.sp.nalloc + 1) new
                { s.h.content with cs := trimStart s.h.content.cs } (blen name + consumed + 1) with
            | none =>
              intro n m
              rw [parseLoop, parseLoop]
              simp only [ht, hx, hl, ha]
            | some sp =>
              intro n
              rw [parseLoop]
              simp only [ht, hx, hl, ha]
              rfl

theorem expansion_expand {s s' : PSt} (h : expansion cf s = some s') : Expand cf s s' := by
  unfold expansion at h
  split at h
  · rename_i name rest ht
    split at h
    · rename_i new consumed hx
      split at h
      · cases h
      · rename_i hlim
        simp only [Bool.or_eq_true, decide_eq_true_eq, not_or, Nat.not_le, ge_iff_le] at hlim
        unfold Spans.add Spans.reach at h
        simp only at h
        cases hr : reachLoop cf s.sp.input (Sl.ptr cf { s.h.content with cs := trimStart s.h.content.cs }) s.sp.exps with
        | none => rw [hr] at h; cases h
        | some y =>
          obtain ⟨start, es⟩ := y
          rw [hr] at h
          cases h
          exact ⟨name, rest, new, consumed, start, es, _, ht, hx, hlim.1, hlim.2, hr, rfl⟩
    · cases h
  · cases h

theorem fuel_top (n : Nat) : ∀ m s, InTop s → s.sp.exps.length + n ≥ maxExpansionDepth → s.sp.exps.length + m ≥ maxExpansionDepth →
    s.sp.exps.length ≤ maxExpansionDepth → parseLoop cf (n + 1) s = parseLoop cf (m + 1) s := by
  induction n with
  | zero =>
    intro m s ht hn hm hle
    have h := round_cases cf s
    cases he : expansion cf s with
    | none => rw [he] at h; exact h _ _
    | some s' => have := (expansion_expand he).depth; omega
  | succ n ih =>
    intro m s ht hn hm hle
    have h := round_cases cf s
    cases he : expansion cf s with
    | none => rw [he] at h; exact h _ _
    | some s' =>
      rw [he] at h
      have h1 := (expansion_expand he).length ht
      have h2 := (expansion_expand he).depth
      cases m with
      | zero => omega
      | succ m =>
        rw [h, h]
        exact ih m s' (expansion_expand he).inTop (by omega) (by omega) (by omega)

/-- An expansion changes nothing for `parse`. -/
theorem parse_expansion {s s' : PSt} (h : expansion cf s = some s') : parse cf s = parse cf s' := by
  have hr := round_cases cf s
  rw [h] at hr
  have hl : s'.sp.exps.length ≤ maxExpansionDepth := by
    obtain ⟨name, rest, new, consumed, start, es, len, -, -, h1, -, hx, rfl⟩ := (expansion_expand h).ex
    have := (reachLoop_some hx).1.length_le
    simp; omega
  unfold parse
  rw [hr]
  exact fuel_top maxExpansionDepth (maxExpansionDepth + 1) s' (expansion_expand h).inTop (by omega) (by omega) hl

theorem expansion_h {s s' : PSt} (h : expansion cf s = some s') : s'.h = { s.h with content := s'.h.content } := (expansion_expand h).h

theorem _root_.PL.Expands.trans {s s' s'' : PSt} (h : Expands cf s s') (h' : Expands cf s' s'') : Expands cf s s'' := by
  induction h with
  | refl => exact h'
  | step h1 _ ih => exact .step h1 (ih h')

/-! ### Walks -/

/-- As `Exec`, with expansions as moves of their own. -/
inductive Walk (cf : Cfg) (s0 : State) : List Item → State → Prop
  | init : Walk cf s0 [] s0
  | item {its s i s'} : Walk cf s0 its s → step cf s = .item i s' → Walk cf s0 (its ++ [i]) s'
  | again {its s s'} : Walk cf s0 its s → step cf s = .again s' → Walk cf s0 its s'
  | expand {its c A B M sp p} : Walk cf s0 its ⟨.sub c A :: B, [], M, sp⟩ → expansion cf (startSt ⟨.sub c A :: B, [], M, sp⟩ c A) = some p →
      Walk cf s0 its ⟨.sub p.h.content A :: B, [], M, p.sp⟩

theorem Walk.trans {s0 s1 s2 : State} {a b : List Item} (h1 : Walk cf s0 a s1) (h2 : Walk cf s1 b s2) : Walk cf s0 (a ++ b) s2 := by
  induction h2 with
  | init => simpa using h1
  | item _ h ih => rw [← List.append_assoc]; exact ih.item h
  | again _ h ih => exact ih.again h
  | expand _ h ih => exact ih.expand h

theorem _root_.PL.Exec.walk {s s' : State} {its : List Item} (h : Exec cf s its s') : Walk cf s its s' := by
  induction h with
  | init => exact .init
  | item _ h ih => exact ih.item h
  | again _ h ih => exact ih.again h

/-- The state is the same but for expansions to be made on top. -/
inductive Pending (cf : Cfg) : State → State → Prop
  | same {s} : Pending cf s s
  | expand {s c A B M sp p} : Pending cf s ⟨.sub c A :: B, [], M, sp⟩ → expansion cf (startSt ⟨.sub c A :: B, [], M, sp⟩ c A) = some p →
      Pending cf s ⟨.sub p.h.content A :: B, [], M, p.sp⟩

theorem expansion_next {c : Sl} {A : Option AlignCount} {B : List Instr} {M : Ctx} {sp : Spans} {p : PSt}
    (h : expansion cf (startSt ⟨.sub c A :: B, [], M, sp⟩ c A) = some p) :
    p = startSt ⟨.sub p.h.content A :: B, [], M, p.sp⟩ p.h.content A := by
  have := expansion_h h
  obtain ⟨ph, psp⟩ := p
  unfold startSt at this ⊢
  simp only at this ⊢
  rw [this]

theorem expansion_ne {s p : PSt} (h : expansion cf s = some p) : trimStart s.h.content.cs ≠ [] := by
  intro h0
  unfold expansion at h
  rw [← token_trim, h0] at h
  cases h

theorem Pending.parse {s s' : State} (h : Pending cf s s') : s = s' ∨ ∃ c c' A B M sp sp', s = ⟨.sub c A :: B, [], M, sp⟩ ∧
    s' = ⟨.sub c' A :: B, [], M, sp'⟩ ∧ trimStart c.cs ≠ [] ∧ parse cf (startSt s c A) = parse cf (startSt s' c' A) := by
  induction h with
  | same => exact .inl rfl
  | @expand c A B M sp p h he ih =>
    right
    have e := parse_expansion he
    rw [expansion_next he] at e
    rcases ih with rfl | ⟨c1, c', A', B', M', sp1, sp', rfl, e2, hne, hp⟩
    · exact ⟨c, _, A, B, M, sp, _, rfl, rfl, expansion_ne he, e⟩
    · cases e2
      exact ⟨c1, _, A, B, M, sp1, _, rfl, rfl, hne, hp.trans e⟩

theorem Pending.expands {s s' : State} (h : Pending cf s s') {c' : Sl} {A : Option AlignCount} {B : List Instr} (hs : s'.stack = .sub c' A :: B)
    (hb : s'.buf = []) : ∃ c, s.stack = .sub c A :: B ∧ s.buf = [] ∧ Expands cf (startSt s c A) (startSt s' c' A) := by
  induction h generalizing c' A B with
  | same => exact ⟨c', hs, hb, .refl _⟩
  | @expand c1 A1 B1 M1 sp1 p _ he ih =>
    cases hs
    obtain ⟨c, h1, h2, h3⟩ := ih rfl rfl
    refine ⟨c, h1, h2, ?_⟩
    have h4 : Expands cf (startSt ⟨.sub c1 A1 :: B1, [], M1, sp1⟩ c1 A1) p := .step (expansion_expand he) (.refl _)
    rw [expansion_next he] at h4
    exact h3.trans h4

theorem step_sub_ne {c : Sl} {A : Option AlignCount} {B buf : List Instr} {M : Ctx} {sp : Spans} (hne : trimStart c.cs ≠ []) :
    step cf ⟨.sub c A :: B, buf, M, sp⟩ =
      match parse cf (startSt ⟨.sub c A :: B, buf, M, sp⟩ c A) with
      | .panic p => .panic p
      | .err e st =>
        match errorContext cf st.sp (st.h.content.ptr cf) with
        | .error p => .panic p
        | .ok (ctx, sp) => .item (.err e ctx) ⟨.sub st.h.content st.h.align :: B, st.h.buf, st.h.macros, sp⟩
      | .ok desc st =>
        match unstage st.h.buf (.sub st.h.content st.h.align :: B) desc with
        | .error p => .panic p
        | .ok stack => .again ⟨stack, [], st.h.macros, st.sp⟩ := by
  unfold step
  simp only
  rw [if_neg (by simpa using hne)]
  rfl

theorem step_sub_blank {c : Sl} {A : Option AlignCount} {B buf : List Instr} {M : Ctx} {sp : Spans} (he : trimStart c.cs = []) :
    step cf ⟨.sub c A :: B, buf, M, sp⟩ = .again ⟨B, buf, M, sp⟩ := by
  unfold step
  simp only
  rw [if_pos (by simpa using he)]

theorem parse_blank {c : Sl} {A : Option AlignCount} {B : List Instr} {M : Ctx} {sp : Spans} (he : trimStart c.cs = []) :
    parse cf (startSt ⟨.sub c A :: B, [], M, sp⟩ c A) = .ok none ⟨⟨{ c with cs := [] }, [], false, .right, false, false, A, M⟩, sp⟩ := by
  unfold parse
  rw [parseLoop]
  have ht : token c.cs = .err .token [] := by rw [← token_trim, he]; rfl
  unfold startSt
  simp only [ht, if_true]

/-- Walks are executions, up to expansions on top. -/
theorem Walk.exec {s0 s : State} {its : List Item} (h : Walk cf s0 its s) : ∃ s', Exec cf s0 its s' ∧ Pending cf s' s := by
  induction h with
  | init => exact ⟨s0, .init, .same⟩
  | @expand its c A B M sp p _ he ih =>
    obtain ⟨s', h1, h2⟩ := ih
    exact ⟨s', h1, h2.expand he⟩
  | @item its s i s1 _ h ih =>
    obtain ⟨s', h1, h2⟩ := ih
    rcases h2.parse with rfl | ⟨c, c', A, B, M, sp, sp', rfl, rfl, hne, hp⟩
    · exact ⟨s1, h1.item h, .same⟩
    · refine ⟨s1, h1.item ?_, .same⟩
      by_cases he : trimStart c'.cs = []
      · rw [step_sub_blank he] at h; cases h
      · rw [step_sub_ne hne, hp, ← step_sub_ne he]; exact h
  | @again its s s1 _ h ih =>
    obtain ⟨s', h1, h2⟩ := ih
    rcases h2.parse with rfl | ⟨c, c', A, B, M, sp, sp', rfl, rfl, hne, hp⟩
    · exact ⟨s1, h1.again h, .same⟩
    · refine ⟨s1, ?_, .same⟩
      by_cases he : trimStart c'.cs = []
      · rw [step_sub_blank he] at h
        cases h
        have e : step cf ⟨.sub c A :: B, [], M, sp⟩ = .again ⟨.sub { c' with cs := [] } A :: B, [], M, sp'⟩ := by
          rw [step_sub_ne hne, hp, parse_blank he]
          rfl
        exact (h1.again e).again (step_sub_blank rfl)
      · refine h1.again ?_
        rw [step_sub_ne hne, hp, ← step_sub_ne he]; exact h

/-! ### How walks end -/

/-- A macro is called, and the limits do not allow it (or its place is not found). -/
inductive Stop (cf : Cfg) : State → Prop
  | mk {c A B M sp name rest new k} : token c.cs = .ok (.cs name) rest → tryExpand cf M name rest = some (.ok new k) →
      expansion cf (startSt ⟨.sub c A :: B, [], M, sp⟩ c A) = none → Stop cf ⟨.sub c A :: B, [], M, sp⟩

/-- The walk emits the events and ends in such a state, or it stops on the way because of the limits. -/
def Outcome (cf : Cfg) (M : Ctx) (s : State) (es : List Event) (Q : State → Prop) : Prop :=
  (∃ s', Walk cf s (es.map .ok) s' ∧ Q s') ∨ M ≠ [] ∧ ∃ es1 s', es1 <+: es ∧ Walk cf s (es1.map .ok) s' ∧ Stop cf s'

variable {M : Ctx}

theorem Outcome.walk {s s' : State} {es : List Event} {Q : State → Prop} (h : Walk cf s (es.map .ok) s') (hq : Q s') : Outcome cf M s es Q :=
  .inl ⟨s', h, hq⟩

theorem Outcome.exec {s s' : State} {es : List Event} {Q : State → Prop} (h : Exec cf s (es.map .ok) s') (hq : Q s') : Outcome cf M s es Q :=
  .walk h.walk hq

theorem Outcome.bind {s : State} {es fs : List Event} {Q R : State → Prop} (h : Outcome cf M s es Q) (h' : ∀ s', Q s' → Outcome cf M s' fs R) :
    Outcome cf M s (es ++ fs) R := by
  rcases h with ⟨s1, h1, hq⟩ | ⟨hM, es1, s1, hp, h1, hs⟩
  · rcases h' s1 hq with ⟨s2, h2, hr⟩ | ⟨hM, es2, s2, hp, h2, hs⟩
    · exact .inl ⟨s2, by rw [List.map_append]; exact h1.trans h2, hr⟩
    · exact .inr ⟨hM, es ++ es2, s2, (List.prefix_append_right_inj es).2 hp, by rw [List.map_append]; exact h1.trans h2, hs⟩
  · exact .inr ⟨hM, es1, s1, hp.trans (List.prefix_append _ _), h1, hs⟩

theorem Outcome.mono {s : State} {es : List Event} {Q R : State → Prop} (h : Outcome cf M s es Q) (h' : ∀ s', Q s' → R s') : Outcome cf M s es R := by
  rcases h with ⟨s1, h1, hq⟩ | h
  · exact .inl ⟨s1, h1, h' _ hq⟩
  · exact .inr h

/-- Going on from a walk without items. -/
theorem Outcome.after {s s1 : State} {es : List Event} {Q : State → Prop} (h : Walk cf s [] s1) (h' : Outcome cf M s1 es Q) : Outcome cf M s es Q := by
  have := Outcome.bind (cf := cf) (M := M) (es := []) (Q := fun s' => s' = s1) (.walk h rfl) (fs := es) (R := Q) (by rintro _ rfl; exact h')
  simpa using this

end PL.Formula
