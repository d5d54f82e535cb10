import Verif.Lemmas.Render.Cost
set_option autoImplicit false
/-! # How much a whole rendering writes -/
namespace PL.Mathml
open W (boom get modify out)
open Spec

variable {C : Nat}

theorem tags_len (v : Visual) : (closeTag (visualTag v)).length ≤ 16 := by cases v <;> simp [closeTag, visualTag]
theorem script_len (ty : ScriptType) (b : Bool) : (closeTag (scriptTag ty b)).length ≤ 16 := by cases ty <;> cases b <;> decide

theorem applyFunction_env {s s' : RSt} {a : PUnit} (e : applyFunction s = .ok a s') : s'.env = s.env := by
  unfold applyFunction at e
  obtain ⟨t, h1, p, r, rfl, hp⟩ := nextAtom_eq s
  rw [run_bind, h1] at e
  dsimp only at e
  generalize firstAtom s.items = o at e
  cases o with
  | none => cases e; rfl
  | some x =>
    dsimp only at e
    rw [run_bind] at e
    cases h2 : out c!"<mo>⁡</mo>" { s with peeked := p, rest := r } with
    | io w => rw [h2] at e; cases e
    | panic p => rw [h2] at e; cases e
    | ok y u =>
      rw [h2] at e
      obtain ⟨b, rfl⟩ := out_eq h2
      dsimp only at e
      split at e
      · cases e; rfl
      · obtain ⟨b', rfl⟩ := out_eq e
        rfl

theorem closeLoop_cost : ∀ (es : List EnvR) (s : RSt) (a : PUnit) (s' : RSt), s.env = es → Okay C s → closeLoop es s = .ok a s' →
    Okay C s' ∧ pot C s' ≤ pot C s := by
  intro es
  induction es with
  | nil => intro s a s' _ ho e; cases e; exact ⟨ho, Nat.le_refl _⟩
  | cons x es ih =>
    intro s a s' hs ho e
    have tl : ∀ y ∈ es, OkEnv C y := fun y hy => ho.env y (by rw [hs]; exact List.mem_cons_of_mem _ hy)
    cases x with
    | group g => cases e; exact ⟨ho, Nat.le_refl _⟩
    | visual v n =>
      unfold closeLoop at e
      split at e
      · cases e
        refine ⟨⟨fun y hy => ?_, ho.sts, ho.items⟩, by simp [pot, hs]⟩
        rcases List.mem_cons.1 hy with rfl | hy
        · exact trivial
        · exact tl y hy
      · rw [run_bind] at e
        cases h1 : out (closeTag (visualTag v)) s with
        | io w => rw [h1] at e; cases e
        | panic p => rw [h1] at e; cases e
        | ok y u =>
          rw [h1] at e
          obtain ⟨b, rfl⟩ := out_eq h1
          dsimp only at e
          rw [run_bind, setPrev_eq] at e
          dsimp only at e
          rw [run_bind] at e
          simp only [W.modify] at e
          obtain ⟨h2, h3⟩ := ih _ _ _ (by rfl) (by exact ⟨tl, ho.sts, ho.items⟩) e
          refine ⟨h2, Nat.le_trans h3 ?_⟩
          have := tags_len v
          simp only [pot, hs, List.length_cons, List.length_append]
          omega
    | script ty ab n fn =>
      unfold closeLoop at e
      split at e
      · cases e
        refine ⟨⟨fun y hy => ?_, ho.sts, ho.items⟩, by simp [pot, hs]⟩
        rcases List.mem_cons.1 hy with rfl | hy
        · exact trivial
        · exact tl y hy
      · rw [run_bind] at e
        cases h1 : out (closeTag (scriptTag ty ab)) s with
        | io w => rw [h1] at e; cases e
        | panic p => rw [h1] at e; cases e
        | ok y u =>
          rw [h1] at e
          obtain ⟨b, rfl⟩ := out_eq h1
          dsimp only at e
          rw [run_bind, setPrev_eq] at e
          dsimp only at e
          rw [run_bind] at e
          simp only [W.modify] at e
          have := script_len ty ab
          cases fn with
          | false =>
            simp only [Bool.false_eq_true, if_false] at e
            obtain ⟨h2, h3⟩ := ih _ _ _ (by rfl) (by exact ⟨tl, ho.sts, ho.items⟩) e
            refine ⟨h2, Nat.le_trans h3 ?_⟩
            simp only [pot, hs, List.length_cons, List.length_append]
            omega
          | true =>
            simp only [if_true] at e
            rw [run_bind] at e
            generalize hq : RSt.mk _ _ _ _ _ _ _ _ = q at e
            have hqo : Okay C q := by rw [← hq]; exact ⟨tl, ho.sts, ho.items⟩
            have hqe : q.env = es := by rw [← hq]
            have hqp : pot C q + 48 ≤ pot C s := by
              rw [← hq]
              simp only [pot, hs, List.length_cons, List.length_append]
              omega
            cases h4 : applyFunction q with
            | io w => rw [h4] at e; cases e
            | panic p => rw [h4] at e; cases e
            | ok z u =>
              rw [h4] at e
              obtain ⟨h5, h6⟩ := cost_applyFunction (Nat.le_refl _) q z u hqo h4
              obtain ⟨h2, h3⟩ := ih u _ _ ((applyFunction_env h4).trans hqe) h5 e
              exact ⟨h2, by omega⟩

theorem mainLoop_cost {cfg : RCfg} (hf : ShortNumbers cfg) (hc : ByteColour cfg.errorColor) : ∀ (n : Nat) (s : RSt) (a : PUnit) (s' : RSt), Okay C s →
    mainLoop cfg n s = .ok a s' → Okay C s' ∧ pot C s' ≤ pot C s := by
  intro n
  induction n with
  | zero => intro s a s' _ e; cases e
  | succ n ih =>
    intro s a s' ho e
    unfold mainLoop at e
    rw [run_bind] at e
    cases h1 : next s with
    | io w => rw [h1] at e; cases e
    | panic p => rw [h1] at e; cases e
    | ok o u =>
      rw [h1] at e
      obtain ⟨h2, h3⟩ := next_spec ho h1
      cases o with
      | none => cases e; exact ⟨h2, Nat.le_of_eq h3⟩
      | some i =>
        obtain ⟨h4, h5, -⟩ := h3
        dsimp only at e
        rw [run_bind] at e
        cases h6 : writeEvent cfg i u with
        | io w => rw [h6] at e; cases e
        | panic p => rw [h6] at e; cases e
        | ok x v =>
          rw [h6] at e
          obtain ⟨h7, h8⟩ := cost_writeEvent hf hc h4 u x v h2 h6
          dsimp only at e
          rw [run_bind] at e
          simp only [W.get] at e
          rw [run_bind] at e
          cases h9 : closeLoop v.env v with
          | io w => rw [h9] at e; cases e
          | panic p => rw [h9] at e; cases e
          | ok y w =>
            rw [h9] at e
            obtain ⟨h10, h11⟩ := closeLoop_cost v.env v y w rfl h7 h9
            obtain ⟨h12, h13⟩ := ih w a s' h10 e
            exact ⟨h12, by omega⟩

theorem cleanup_cost : ∀ (es : List EnvR) (s : RSt) (a : PUnit) (s' : RSt), cleanup es s = .ok a s' → s'.out.length ≤ s.out.length + 64 * es.length ∧ s'.env = [] := by
  intro es
  induction es with
  | nil => intro s a s' e; cases e; exact ⟨by simp, rfl⟩
  | cons x es ih =>
    intro s a s' e
    cases x with
    | group g =>
      unfold cleanup at e
      rw [run_bind] at e
      obtain ⟨h1, h2⟩ := ih _ _ _ e
      exact ⟨by simp only [List.length_cons] at h1 ⊢; omega, h2⟩
    | visual v n =>
      unfold cleanup at e
      rw [run_bind] at e
      cases h1 : out (closeTag (visualTag v)) s with
      | io w => rw [h1] at e; cases e
      | panic p => rw [h1] at e; cases e
      | ok y u =>
        rw [h1] at e
        obtain ⟨b, rfl⟩ := out_eq h1
        obtain ⟨h2, h3⟩ := ih _ _ _ e
        have := tags_len v
        exact ⟨by simp only [List.length_cons, List.length_append] at h2 ⊢; omega, h3⟩
    | script ty ab n fn =>
      unfold cleanup at e
      rw [run_bind] at e
      cases h1 : out (closeTag (scriptTag ty ab)) s with
      | io w => rw [h1] at e; cases e
      | panic p => rw [h1] at e; cases e
      | ok y u =>
        rw [h1] at e
        obtain ⟨b, rfl⟩ := out_eq h1
        obtain ⟨h2, h3⟩ := ih _ _ _ e
        have := script_len ty ab
        exact ⟨by simp only [List.length_cons, List.length_append] at h2 ⊢; omega, h3⟩

/-- The characters written and the closing tags to come. -/
def made (s : RSt) : Nat := s.out.length + 64 * s.env.length

/-- `m` adds at most `k` characters. -/
def Adds {α : Type} (m : W α) (k : Nat) : Prop := ∀ s a s', m s = .ok a s' → made s' ≤ made s + k

theorem Adds.out {t : Str} {k : Nat} (h : t.length ≤ k) : Adds (out t) k := fun s a s' e => by
  obtain ⟨b, rfl⟩ := out_eq e
  simp only [made, List.length_append]
  omega

theorem Adds.bind {α β : Type} {m : W α} {f : α → W β} {j k : Nat} (hm : Adds m j) (hjk : j ≤ k) (hf : ∀ a, Adds (f a) (k - j)) : Adds (m >>= f) k := by
  intro s b s' e
  rw [run_bind] at e
  cases h : m s with
  | ok a s1 =>
    rw [h] at e
    have := hm s a s1 h
    have := hf a s1 b s' e
    omega
  | io w => rw [h] at e; cases e
  | panic p => rw [h] at e; cases e

theorem Adds.get {α : Type} {f : RSt → W α} {k : Nat} (h : ∀ s, ∀ a s', f s s = .ok a s' → made s' ≤ made s + k) : Adds (get >>= f) k :=
  fun s a s' e => h s a s' e

theorem adds_cleanup {s s' : RSt} {a : PUnit} (e : cleanup s.env s = .ok a s') : made s' ≤ made s := by
  obtain ⟨h1, h2⟩ := cleanup_cost _ _ _ _ e
  simp only [made, h2, List.length_nil]
  omega

/-- What comes after the items. -/
theorem adds_tail (cfg : RCfg) : Adds (do
    if (← get).recov then cleanup (← get).env
    let s ← get
    if !s.env.isEmpty || s.sts.length ≠ 1 then
      cleanup s.env
      modify fun s => { s with sts := s.sts.drop (s.sts.length - 1) }
    match cfg.annotation with
    | some a =>
      out c!"</mrow>"
      out (c!"<annotation encoding=\"application/x-tex\">" ++ a ++ c!"</annotation>")
      out c!"</semantics>"
    | none => pure ⟨⟩
    out c!"</math>" : W PUnit) (96 + (cfg.annotation.getD []).length) := by
  have last : Adds (do
      match cfg.annotation with
      | some a =>
        out c!"</mrow>"
        out (c!"<annotation encoding=\"application/x-tex\">" ++ a ++ c!"</annotation>")
        out c!"</semantics>"
      | none => pure ⟨⟩
      out c!"</math>" : W PUnit) (96 + (cfg.annotation.getD []).length) := by
    cases cfg.annotation with
    | none => exact .out (by simp)
    | some a =>
      refine (Adds.out (Nat.le_refl _)).bind (by simp; omega) fun _ => ?_
      refine (Adds.out (Nat.le_refl _)).bind (by simp; omega) fun _ => ?_
      refine (Adds.out (Nat.le_refl _)).bind (by simp; omega) fun _ => ?_
      exact .out (by simp; omega)
  have second : Adds (do
      let s ← get
      if !s.env.isEmpty || s.sts.length ≠ 1 then
        cleanup s.env
        modify fun s => { s with sts := s.sts.drop (s.sts.length - 1) }
      match cfg.annotation with
      | some a =>
        out c!"</mrow>"
        out (c!"<annotation encoding=\"application/x-tex\">" ++ a ++ c!"</annotation>")
        out c!"</semantics>"
      | none => pure ⟨⟩
      out c!"</math>" : W PUnit) (96 + (cfg.annotation.getD []).length) := by
    refine .get fun s a s' e => ?_
    split at e
    · rw [run_bind] at e
      cases h : cleanup s.env s with
      | io w => rw [h] at e; cases e
      | panic p => rw [h] at e; cases e
      | ok x u =>
        rw [h] at e
        have h1 := adds_cleanup h
        have h2 := last _ _ _ e
        exact Nat.le_trans h2 (Nat.add_le_add_right h1 _)
    · exact last _ _ _ e
  refine .get fun s a s' e => ?_
  split at e
  · rw [run_bind] at e
    simp only [W.get] at e
    rw [run_bind] at e
    cases h : cleanup s.env s with
    | io w => rw [h] at e; cases e
    | panic p => rw [h] at e; cases e
    | ok x u =>
      rw [h] at e
      have h1 := adds_cleanup h
      have h2 := second _ _ _ e
      omega
  · exact second _ _ _ e

/-- The text in front of a continuation. -/
theorem peel {α : Type} {t : Str} {k : PUnit → W α} {s s' : RSt} {a : α} (e : (out t >>= k) s = .ok a s') : ∃ b, k ⟨⟩ { s with out := s.out ++ t, budget := b } = .ok a s' := by
  rw [run_bind] at e
  cases h : out t s with
  | io w => rw [h] at e; cases e
  | panic p => rw [h] at e; cases e
  | ok x u =>
    rw [h] at e
    obtain ⟨b, rfl⟩ := out_eq h
    exact ⟨b, e⟩

theorem write_cost {cfg : RCfg} (hf : ShortNumbers cfg) (hc : ByteColour cfg.errorColor) {s s' : RSt} {a : PUnit} (ho : Okay C s) (e : write cfg s = .ok a s') :
    s'.out.length ≤ pot C s + 256 + (cfg.annotation.getD []).length := by
  have head : ∃ t : Str, t.length ≤ 128 ∧ ∃ u : RSt, (∃ b, u = { s with out := s.out ++ t, budget := b }) ∧
      (do mainLoop cfg (s.peeked.length + s.rest.length + 1)
          if (← get).recov then cleanup (← get).env
          let s ← get
          if !s.env.isEmpty || s.sts.length ≠ 1 then
            cleanup s.env
            modify fun s => { s with sts := s.sts.drop (s.sts.length - 1) }
          match cfg.annotation with
          | some a =>
            out c!"</mrow>"
            out (c!"<annotation encoding=\"application/x-tex\">" ++ a ++ c!"</annotation>")
            out c!"</semantics>"
          | none => pure ⟨⟩
          out c!"</math>" : W PUnit) u = .ok a s' := by
    unfold write at e
    obtain ⟨b1, e⟩ := peel e
    have l1 : (if cfg.block then c!"block" else c!"inline" : Str).length ≤ 6 := by split <;> simp
    generalize (if cfg.block then c!"block" else c!"inline" : Str) = d at e l1
    cases hx : cfg.xml <;> simp only [hx, if_true, if_false, Bool.false_eq_true] at e
    · obtain ⟨b2, e⟩ := peel e
      cases ha : cfg.annotation.isSome <;> simp only [ha, if_true, if_false, Bool.false_eq_true] at e
      · refine ⟨(c!"<math display=\"" ++ d ++ c!"\"") ++ c!">", ?_, _, ⟨b2, rfl⟩, ?_⟩
        rotate_left
        · simp only [List.append_assoc] at e ⊢; exact e
        · simp; omega
      · obtain ⟨b3, e⟩ := peel e
        refine ⟨(c!"<math display=\"" ++ d ++ c!"\"") ++ c!">" ++ c!"<semantics><mrow>", ?_, _, ⟨b3, rfl⟩, ?_⟩
        rotate_left
        · simp only [List.append_assoc] at e ⊢; exact e
        · simp; omega
    · obtain ⟨b2, e⟩ := peel e
      obtain ⟨b2, e⟩ := peel e
      cases ha : cfg.annotation.isSome <;> simp only [ha, if_true, if_false, Bool.false_eq_true] at e
      · refine ⟨(c!"<math display=\"" ++ d ++ c!"\"") ++ c!" xmlns=\"http://www.w3.org/1998/Math/MathML\"" ++ c!">", ?_, _, ⟨b2, rfl⟩, ?_⟩
        rotate_left
        · simp only [List.append_assoc] at e ⊢; exact e
        · simp; omega
      · obtain ⟨b3, e⟩ := peel e
        refine ⟨(c!"<math display=\"" ++ d ++ c!"\"") ++ c!" xmlns=\"http://www.w3.org/1998/Math/MathML\"" ++ c!">" ++ c!"<semantics><mrow>", ?_, _, ⟨b3, rfl⟩, ?_⟩
        rotate_left
        · simp only [List.append_assoc] at e ⊢; exact e
        · simp; omega
  obtain ⟨t, ht, u, ⟨b, rfl⟩, e⟩ := head
  rw [run_bind] at e
  cases h : mainLoop cfg (s.peeked.length + s.rest.length + 1) { s with out := s.out ++ t, budget := b } with
  | io w => rw [h] at e; cases e
  | panic p => rw [h] at e; cases e
  | ok x v =>
    rw [h] at e
    obtain ⟨-, h2⟩ := mainLoop_cost hf hc _ _ _ _ (show Okay C { s with out := s.out ++ t, budget := b } from ⟨ho.env, ho.sts, ho.items⟩) h
    have h3 := adds_tail cfg _ _ _ e
    have h4 : made v ≤ pot C v := Nat.le_add_right _ _
    have h5 : pot C { s with out := s.out ++ t, budget := b } = pot C s + t.length := by simp only [pot, List.length_append]; omega
    have h6 : s'.out.length ≤ made s' := Nat.le_add_right _ _
    omega

end PL.Mathml

