import Verif.Lemmas.Fits
import Verif.Lemmas.StepSpec
import Verif.Lemmas.Exec
set_option autoImplicit false
/-! # How large an event can be: steps -/
namespace PL
open Lex Spec Macros

variable {cf : Cfg} {B : Nat}

theorem prim_fits (name : Str) : (primOf name).fits = true := by
  have h1 : ∀ p ∈ primTable, p.2.fits = true := by decide +kernel
  unfold primOf
  cases h : primTable.lookup name with
  | some p => exact h1 _ (lookup_mem_gen h)
  | none =>
    dsimp only
    cases controlSequenceDelimiterMap name with
    | some x => rfl
    | none => dsimp only; split <;> rfl

theorem fits_handleToken (n : Nat) : ∀ t : HTok, t.fits B → Fits B Any (handleToken cf n t) := by
  induction n with
  | zero => intro t _; exact Fits.boom _
  | succ n ih =>
    intro t ht
    cases t with
    | cs name => exact fits_execPrim ih _ (prim_fits name)
    | chr c ctx => exact fits_handleChar c ht

theorem fits_limits : Fits B Any limits := by
  refine Fits.bind Fits.get fun st hst => Fits.ite ?_ (Fits.pure trivial)
  have h := limitModifiers_suffix st.content.cs
  generalize limitModifiers st.content.cs = x at h
  obtain ⟨o, rest⟩ := x
  have hl : rest.length ≤ st.content.cs.length := h.length_le
  cases o with
  | none => exact Fits.set (fits_cs hst hl)
  | some b => cases b <;> exact Fits.set (fits_cs hst hl)

theorem fits_scripts {rec : HTok → H PUnit} (hr : ∀ t, t.fits B → Fits B Any (rec t)) :
    Fits B (fun d : Option Desc => ∀ x, d = some x → EventFits B x.event) (scripts rec) := by
  refine Fits.bind Fits.get fun st _ => Fits.ite (Fits.pure (by intro x h; cases h)) ?_
  refine Fits.bind fits_limits fun _ _ => Fits.bind (Fits.modify fun s hs => fits_cs hs (trimStart_length_le _)) fun _ _ => Fits.bind Fits.get fun s hs => ?_
  split
  · rename_i c rest e
    have h1 : rest.length ≤ s.content.cs.length := by rw [e]; simp
    have last : ∀ (a b d e : Nat) (k : Bool), Fits B (fun d : Option Desc => ∀ x, d = some x → EventFits B x.event) (do
        let s' ← M.get
        return some ⟨.script (if a = s'.buf.length then (if k = true then .sub else .sup) else .subSup) s'.pos, d, e⟩ : H (Option Desc)) := by
      intro a b d e k
      refine Fits.bind Fits.get fun s' _ => Fits.pure ?_
      intro x h; cases h; exact trivial
    refine Fits.ite ?_ (Fits.pure (by intro x h; cases h))
    refine Fits.bind (Fits.set (fits_cs hs h1)) fun _ _ => Fits.bind Fits.argument fun a ha => Fits.bind (fits_handleArgument hr ha) fun _ _ =>
      Fits.bind Fits.get fun s2 hs2 => ?_
    refine Fits.ite ?_ (Fits.ite (Fits.fail (by split <;> exact trivial)) (last _ 0 _ _ _))
    refine Fits.bind (Fits.set (fits_cs hs2 (by simp))) fun _ _ => Fits.bind Fits.argument fun a ha => Fits.bind (fits_handleArgument hr ha) fun _ _ =>
      Fits.bind Fits.get fun t _ => ?_
    split
    · exact Fits.fail trivial
    · exact Fits.fail trivial
    · exact last _ 0 _ _ _
  · exact Fits.pure (by intro x h; cases h)

theorem fits_atom {t : HTok} (ht : t.fits B) : Fits B (fun d : Option Desc => ∀ x, d = some x → EventFits B x.event) (atom cf t) :=
  Fits.bind Fits.get fun _ _ => Fits.bind (fits_handleToken _ t ht) fun _ _ => Fits.bind Fits.get fun _ _ => fits_scripts (fits_handleToken _)

theorem EventFits.mono {C : Nat} {e : Event} (h : EventFits B e) (hb : B ≤ C) : EventFits C e := by
  unfold EventFits at h ⊢
  split at h <;> first | omega | exact h | trivial

theorem InstrFits.mono {C : Nat} {i : Instr} (h : InstrFits B i) (hb : B ≤ C) : InstrFits C i := by
  cases i with
  | ev e => exact EventFits.mono h hb
  | sub x A => exact Nat.le_trans h hb

/-- The bound grows with the expansions. -/
def PSt.fits (N : Nat) (s : PSt) : Prop := s.h.fits (N + s.sp.total)

theorem Expands.fits {N : Nat} {s s' : PSt} (h : Expands cf s s') (hs : s.fits N) : s'.fits N ∧ s.sp.total ≤ s'.sp.total := by
  induction h with
  | refl => exact ⟨hs, Nat.le_refl _⟩
  | @step s s1 s2 h1 h2 ih =>
    obtain ⟨name, rest, new, consumed, start, es, len, ht, -, -, hlt, hr, rfl⟩ := h1.ex
    have hl : new.length ≤ blen new := by
      clear h1 h2 ih ht
      induction new with
      | nil => simp
      | cons c t ih =>
        have := Char.utf8Size_pos c
        rw [blen_cons, List.length_cons]
        omega
    have := ih ⟨by show new.length ≤ N + (s.sp.total + blen new); omega, fun i hi => (hs.2 i hi).mono (by simp only; omega)⟩
    exact ⟨this.1, by have := this.2; simp only at this; omega⟩

theorem parse_fits {N : Nat} {s : PSt} (hs : s.fits N) :
    Sat (fun d st => (∀ x, d = some x → EventFits (N + st.sp.total) x.event) ∧ st.fits N ∧ s.sp.total ≤ st.sp.total)
      (fun e st => ErrFits e ∧ st.fits N ∧ s.sp.total ≤ st.sp.total) (fun _ => True) (parse cf s) := by
  obtain ⟨q, h1, h2⟩ := parse_spec cf s
  obtain ⟨h3, h4⟩ := h1.fits hs
  have hsuf := good_token (cf := cf) q.h.content.cs
  revert h2
  generalize parse cf s = r
  intro h2
  cases h2 with
  | @nothing rest ht =>
    rw [ht] at hsuf
    exact ⟨by (intro x h; cases h), fits_cs h3 hsuf.length_le, h4⟩
  | @error e rest ht =>
    have := calm_token.err ht
    rw [ht] at hsuf
    exact ⟨this, fits_cs h3 hsuf.length_le, h4⟩
  | @atom t rest ht hn =>
    rw [ht] at hsuf
    have hf : (HTok.ofTok q.h.content t).fits (N + q.sp.total) := by
      have h3 := h3.1
      have ht := token_facts ht
      cases t with
      | cs name => exact trivial
      | chr c r' =>
        obtain ⟨rfl, k, hk, e, -⟩ := ht
        have := congrArg List.length e
        simp at this
        show (c :: r').length ≤ _
        simp; omega
    have := fits_atom (cf := cf) hf { q.h with content := { q.h.content with cs := rest } } (fits_cs h3 hsuf.length_le)
    unfold liftH
    dsimp only
    revert this
    cases atom cf (HTok.ofTok q.h.content t) { q.h with content := { q.h.content with cs := rest } } with
    | ok d st => intro h; exact ⟨h.1, h.2, h4⟩
    | err e st => intro h; exact ⟨h.1, h.2, h4⟩
    | panic p => intro _; exact trivial
  | macroPanic => exact trivial
  | @macroError name rest e sp ht i1 i2 i3 i4 he =>
    rw [ht] at hsuf
    refine ⟨?_, ?_, by simp only; omega⟩
    · rcases he with he | rfl
      · exact tryExpand_calm he
      · exact trivial
    · show HSt.fits (N + sp.total) _
      rw [i3]
      exact fits_cs h3 hsuf.length_le
  | assertion => exact trivial

/-! ### Steps -/

theorem fillSlots_mem : ∀ (es : List Instr) (idx : Nat) (slots out : List (Option Instr)), fillSlots es idx slots = some out →
    ∀ x, some x ∈ out → some x ∈ slots ∨ x ∈ es
  | [], _, _, _, h => by cases h; exact fun _ hx => .inl hx
  | e :: es, idx, slots, out, h => by
    intro x hx
    unfold fillSlots at h
    dsimp only at h
    generalize (if idx = slots.length then 0 else idx) = j at h
    split at h
    · rcases fillSlots_mem es _ _ _ h x hx with h1 | h1
      · rcases List.mem_or_eq_of_mem_set h1 with h2 | h2
        · exact .inl h2
        · cases h2; exact .inr (by simp)
      · exact .inr (by simp [h1])
    · cases h

theorem mapM_id_mem : ∀ (l : List (Option Instr)) (out : List Instr), l.mapM id = some out → ∀ x ∈ out, some x ∈ l
  | [], out, h => by cases h; simp
  | a :: l, out, h => by
    rw [List.mapM_cons] at h
    cases a with
    | none => cases h
    | some y =>
      cases h2 : l.mapM id with
      | none => rw [h2] at h; cases h
      | some t =>
        rw [h2] at h
        cases h
        intro x hx
        rcases List.mem_cons.1 hx with rfl | hx
        · simp
        · exact List.mem_cons_of_mem _ (mapM_id_mem l t h2 x hx)

/-- Nothing is made up when the staged instructions are moved to the stack. -/
theorem unstage_mem {buf stack out : List Instr} {d : Option Desc} (h : unstage buf stack d = .ok out) :
    ∀ i ∈ out, i ∈ buf ∨ i ∈ stack ∨ ∃ x, d = some x ∧ i = .ev x.event := by
  cases d with
  | none => cases h; intro i hi; rcases List.mem_append.1 hi with h | h <;> simp [h]
  | some d =>
    unfold unstage at h
    dsimp only at h
    split at h
    · split at h
      · cases h
      · cases h1 : fillSlots (buf.drop d.sup).reverse (d.sub - d.sup) (List.replicate (buf.drop d.sup).reverse.length none) with
        | none => rw [h1] at h; cases h
        | some slots =>
          rw [h1] at h
          dsimp only at h
          cases h2 : slots.mapM id with
          | none => rw [h2] at h; cases h
          | some added =>
            rw [h2] at h
            cases h
            intro i hi
            simp only [List.cons_append, List.mem_cons, List.mem_append, List.mem_reverse] at hi
            rcases hi with hi | hi | hi | hi
            · exact .inr (.inr ⟨d, rfl, hi⟩)
            · exact .inl (List.mem_of_mem_take hi)
            · rcases fillSlots_mem _ _ _ _ h1 i (mapM_id_mem _ _ h2 i hi) with h3 | h3
              · simp at h3
              · exact .inl (List.mem_of_mem_drop (List.mem_reverse.1 h3))
            · exact .inr (.inl hi)
    · split at h
      · cases h
      · cases h
        intro i hi
        simp only [List.cons_append, List.mem_cons, List.mem_append] at hi
        rcases hi with hi | hi | hi | hi
        · exact .inr (.inr ⟨d, rfl, hi⟩)
        · exact .inl (List.mem_of_mem_take hi)
        · exact .inl (List.mem_of_mem_drop hi)
        · exact .inr (.inl hi)

/-- Everything pending fits. -/
def State.fits (N : Nat) (s : State) : Prop := ∀ i ∈ s.stack ++ s.buf, InstrFits (N + s.sp.total) i

/-- An event that fits, or an error whose kind does. -/
def Item.fits (B : Nat) : Item → Prop
  | .ok e => EventFits B e
  | .err e _ => ErrFits e

theorem errorContext_total {sp sp' : Spans} {pl : Nat} {ctx : Str} (h : errorContext cf sp pl = .ok (ctx, sp')) : sp'.total = sp.total := by
  unfold errorContext at h
  cases hr : sp.reach cf pl with
  | none => rw [hr] at h; cases h
  | some y =>
    obtain ⟨i, sp2⟩ := y
    have := (reach_sp hr).2.2.1
    rw [hr] at h
    dsimp only at h
    split at h
    · split at h
      · cases h; exact this
      · cases h
    · cases h

theorem step_fits {N : Nat} {s s' : State} {o : Option Item} (hs : s.fits N)
    (h : step cf s = match o with | some i => .item i s' | none => .again s') :
    s'.fits N ∧ s.sp.total ≤ s'.sp.total ∧ ∀ i, o = some i → i.fits (N + s'.sp.total) := by
  unfold step at h
  cases hst : s.stack with
  | nil => rw [hst] at h; cases o <;> cases h
  | cons x rest =>
    rw [hst] at h
    have hx : InstrFits (N + s.sp.total) x := hs x (by simp [hst])
    have hrest : ∀ i ∈ rest ++ s.buf, InstrFits (N + s.sp.total) i := fun i hi => hs i (by rw [hst]; exact List.mem_cons_of_mem _ hi)
    cases x with
    | ev e =>
      cases o <;> cases h
      exact ⟨hrest, Nat.le_refl _, fun i hi => by cases hi; exact hx⟩
    | sub c A =>
      dsimp only at h
      by_cases hb : (trimStart c.cs).isEmpty = true
      · rw [if_pos hb] at h
        cases o <;> cases h
        exact ⟨hrest, Nat.le_refl _, fun i hi => by cases hi⟩
      · rw [if_neg hb] at h
        have hp0 : (startSt s c A).fits N := ⟨hx, fun i hi => hs i (by simp [show i ∈ s.buf from hi])⟩
        have hp := parse_fits (cf := cf) hp0
        revert hp h
        change (match parse cf (startSt s c A) with | .panic p => _ | .err e st => _ | .ok d st => _) = _ → _
        cases parse cf (startSt s c A) with
        | panic p => intro h; cases o <;> cases h
        | err e st =>
          intro h ⟨h1, h2, h3⟩
          dsimp only at h
          cases he : errorContext cf st.sp (st.h.content.ptr cf) with
          | error p => rw [he] at h; cases o <;> cases h
          | ok y =>
            obtain ⟨ctx, sp⟩ := y
            rw [he] at h
            have hsp := errorContext_total he
            cases o with
            | none => cases h
            | some i =>
              cases h
              refine ⟨?_, by show s.sp.total ≤ sp.total; rw [hsp]; exact h3, fun i hi => by cases hi; exact h1⟩
              intro i hi
              show InstrFits (N + sp.total) i
              rw [hsp]
              simp only [List.cons_append, List.mem_cons, List.mem_append] at hi
              rcases hi with rfl | hi | hi
              · exact h2.1
              · exact (hrest i (by simp [hi])).mono (by have : s.sp.total ≤ st.sp.total := h3; omega)
              · exact h2.2 i hi
        | ok d st =>
          intro h ⟨h1, h2, h3⟩
          dsimp only at h
          cases he : unstage st.h.buf (.sub st.h.content st.h.align :: rest) d with
          | error p => rw [he] at h; cases o <;> cases h
          | ok y =>
            rw [he] at h
            cases o with
            | some i => cases h
            | none =>
              cases h
              refine ⟨?_, h3, fun i hi => by cases hi⟩
              intro i hi
              show InstrFits (N + st.sp.total) i
              simp only [List.append_nil] at hi
              rcases unstage_mem he i hi with hi | hi | ⟨x, rfl, rfl⟩
              · exact h2.2 i hi
              · rcases List.mem_cons.1 hi with rfl | hi
                · exact h2.1
                · exact (hrest i (by simp [hi])).mono (by have : s.sp.total ≤ st.sp.total := h3; omega)
              · exact h1 x rfl

theorem exec_fits {inp : Str} {its : List Item} {s : State} (h : Exec cf (State.init inp) its s) :
    s.fits inp.length ∧ ∀ i ∈ its, i.fits (inp.length + s.sp.total) := by
  induction h with
  | init =>
    refine ⟨fun i hi => ?_, by simp⟩
    simp [State.init] at hi
    subst hi
    exact Nat.le_add_right _ _
  | @item its s i s' _ hst ih =>
    obtain ⟨h1, h2, h3⟩ := step_fits (o := some i) ih.1 hst
    refine ⟨h1, fun j hj => ?_⟩
    rcases List.mem_append.1 hj with hj | hj
    · have := ih.2 j hj
      cases j with
      | ok e => exact EventFits.mono this (by omega)
      | err e c => exact this
    · simp only [List.mem_singleton] at hj
      subst hj
      exact h3 _ rfl
  | @again its s s' _ hst ih =>
    obtain ⟨h1, h2, -⟩ := step_fits (o := none) ih.1 hst
    refine ⟨h1, fun j hj => ?_⟩
    have := ih.2 j hj
    cases j with
    | ok e => exact EventFits.mono this (by omega)
    | err e c => exact this

end PL
