import Verif.Props.Storage
set_option autoImplicit false
/-!
# How much output there is (C63)

The parser takes a number of steps, returns a number of items and keeps a number of instructions that are linear in the
length of the input and of the expansions performed. One expansion is at most quadratic in the texts it is made from.
-/
namespace PL.Props
open PL PL.Lex Spec Macros

variable {cf : Cfg}

/-! ### One step -/

theorem length_le_blen (t : Str) : t.length ≤ blen t := by
  induction t with
  | nil => simp
  | cons c t ih =>
    have := Char.utf8Size_pos c
    rw [blen_cons, List.length_cons]
    omega

theorem _root_.PL.Expands.long {s s' : PSt} (h : Expands cf s s') :
    s.sp.total ≤ s'.sp.total ∧ (s'.h.content = s.h.content ∨ s'.h.content.cs.length ≤ s'.sp.total - s.sp.total) := by
  induction h with
  | refl => exact ⟨Nat.le_refl _, .inl rfl⟩
  | @step s s1 s2 h1 h2 ih =>
    obtain ⟨name, rest, new, consumed, start, es, len, ht, -, -, hlt, hr, rfl⟩ := h1.ex
    have := length_le_blen new
    obtain ⟨ih1, ih2⟩ := ih
    simp only at ih1 ih2 ⊢
    refine ⟨by omega, .inr ?_⟩
    rcases ih2 with h | h
    · rw [h]; simp only; omega
    · omega

/-- What is still to be done: an instruction is one step, and a character of text is sixteen. -/
def State.left (s : State) : Nat := W s.stack + W s.buf

theorem left_next {inp : Str} {s s' : State} (hb : Base inp s) (o : Option Item)
    (hst : step cf s = match o with | some i => .item i s' | none => .again s') :
    s.sp.total ≤ s'.sp.total ∧ State.left s' + 1 ≤ State.left s + 16 * (s'.sp.total - s.sp.total) := by
  rcases step_cases o hst with ⟨e, rfl, hs, he⟩ | ⟨c, A, rfl, hs, he⟩ | ⟨c, A, rest, hs, hne⟩
  · rw [he]; simp only [State.left, hs]; exact ⟨Nat.le_refl _, by simp only [W]; omega⟩
  · rw [he]; simp only [State.left, hs]; exact ⟨Nat.le_refl _, by simp [W]; omega⟩
  · obtain ⟨p1, hx, -, hr⟩ := step_sub (cf := cf) (st := false) hs (hb.wf c A (by simp [hs])) hne (by intro h; cases h) hb.calls
    have hlen := trim_ne hne
    have ht : s.sp.total ≤ p1.sp.total ∧ (p1.h.content = c ∨ p1.h.content.cs.length ≤ p1.sp.total - s.sp.total) := hx.long
    have hl : p1.h.content.cs.length ≤ c.cs.length + (p1.sp.total - s.sp.total) := by
      rcases ht.2 with h | h
      · rw [h]; omega
      · omega
    rw [hst] at hr
    cases o with
    | none =>
      obtain ⟨pre, D, c', A', R⟩ := hr
      rw [R.eq]
      refine ⟨ht.1, ?_⟩
      have hw := R.weight
      simp only [State.left, hs, W_append, W] at hw ⊢
      rcases hw with hw | ⟨hw1, hw2⟩
      · omega
      · have : pre = [] ∧ D = [] := by simpa using hw1
        rw [this.1, this.2, hw2]; simp [W]; omega
    | some i =>
      obtain ⟨sp2, d, c', A', R⟩ := hr
      obtain ⟨k, hre⟩ := R.reach
      obtain ⟨-, -, r3, -⟩ := reach_sp hre
      have hto : s'.sp.total = p1.sp.total := by rw [r3, R.span.2.2.1]
      have hst2 : s'.stack = .sub c' A' :: rest := by rw [R.eq]
      have hbf : s'.buf = s.buf ++ d := by rw [R.eq]
      rw [hto]
      refine ⟨ht.1, ?_⟩
      have hw := R.weight
      simp only [State.left, hst2, hbf, hs, W_append, W] at hw ⊢
      omega

theorem length_le_W (l : List Instr) : l.length ≤ W l := by
  induction l with
  | nil => simp
  | cons x l ih => cases x <;> simp only [List.length_cons, W] <;> omega

/-- A number of activations of `next`, its recursive calls included. -/
inductive Steps (cf : Cfg) (inp : Str) : Nat → List Item → State → Prop
  | new : Steps cf inp 0 [] (State.init inp)
  | item {n its s i s'} : Steps cf inp n its s → step cf s = .item i s' → Steps cf inp (n + 1) (its ++ [i]) s'
  | again {n its s s'} : Steps cf inp n its s → step cf s = .again s' → Steps cf inp (n + 1) its s'

theorem Steps.exec {inp : Str} {n : Nat} {its : List Item} {s : State} (h : Steps cf inp n its s) : Exec cf (State.init inp) its s ∧ its.length ≤ n := by
  induction h with
  | new => exact ⟨.init, Nat.le_refl _⟩
  | item _ h ih => exact ⟨.item ih.1 h, by simp; exact ih.2⟩
  | again _ h ih => exact ⟨.again ih.1 h, by omega⟩

theorem reached_steps {inp : Str} {its : List Item} {s : State} (h : Reached cf inp its s) : ∃ n, Steps cf inp n its s := by
  induction h with
  | new => exact ⟨0, .new⟩
  | item _ h ih => obtain ⟨n, ih⟩ := ih; exact ⟨n + 1, .item ih h⟩
  | again _ h ih => obtain ⟨n, ih⟩ := ih; exact ⟨n + 1, .again ih h⟩

theorem steps_left {inp : Str} {n : Nat} {its : List Item} {s : State} (h : Steps cf inp n its s) :
    n + State.left s ≤ 16 * (inp.length + s.sp.total) + 1 := by
  induction h with
  | new => simp [State.left, State.init, W]; omega
  | @item n its s i s' h1 h ih =>
    have := left_next h1.exec.1.base (some i) h
    omega
  | @again n its s s' h1 h ih =>
    have := left_next h1.exec.1.base none h
    omega

/-! ### One expansion -/

theorem subst_size {args : List Str} {rt body : Str} {M : Nat} (h : Subst args rt body) (ha : ∀ a ∈ args, blen a ≤ M) : blen body ≤ blen rt * (M + 1) := by
  induction h with
  | nil => simp
  | @hash s t _ ih =>
    simp only [blen_cons]
    have : blen s * (M + 1) + '#'.utf8Size * (M + 1) ≤ ('#'.utf8Size + ('#'.utf8Size + blen s)) * (M + 1) := by rw [← Nat.add_mul]; exact Nat.mul_le_mul_right _ (by omega)
    have h1 : '#'.utf8Size ≤ '#'.utf8Size * (M + 1) := Nat.le_mul_of_pos_right _ (by omega)
    omega
  | @param i a s t _ _ hi _ ih =>
    simp only [blen_cons, blen_append]
    have h0 := ha a (List.mem_of_getElem? hi)
    have : blen s * (M + 1) + (M + 1) ≤ ('#'.utf8Size + ((paramDigit i).utf8Size + blen s)) * (M + 1) := by
      rw [← Nat.succ_mul]
      have := Char.utf8Size_pos '#'
      exact Nat.mul_le_mul_right _ (by omega)
    omega
  | @char c s t _ _ ih =>
    simp only [blen_cons]
    rw [Nat.add_mul]
    have h1 : c.utf8Size ≤ c.utf8Size * (M + 1) := Nat.le_mul_of_pos_right _ (by omega)
    omega

theorem infix_blen {a b : Str} (h : a <:+: b) : blen a ≤ blen b := by
  obtain ⟨p, q, rfl⟩ := h
  simp only [blen_append]
  omega

theorem readArg_infix {s a r : Str} (h : ReadArg s a r) : a <:+: s := by
  cases h with
  | @group w s g r hw hs => rw [hs.eq]; exact ⟨w, r, by simp⟩
  | @char k c r => exact ⟨k, r, by simp⟩
  | @cs k s name w r hk hn hw => rw [hn.eq.1]; exact ⟨k, w ++ r, by simp⟩

theorem delimited_prefix {d s a r : Str} (h : Delimited d s a r) : a <+: s := by
  induction h with
  | found => exact List.nil_prefix
  | @comment line s a r _ _ _ ih => obtain ⟨t, rfl⟩ := ih; exact ⟨t, by simp⟩
  | @escaped c s a r _ _ ih => obtain ⟨t, rfl⟩ := ih; exact ⟨t, by simp⟩
  | @braces s g s' a r _ h _ ih => obtain ⟨t, rfl⟩ := ih; rw [h.eq]; exact ⟨t, by simp⟩
  | @char c s a r _ _ _ _ _ ih => obtain ⟨t, rfl⟩ := ih; exact ⟨t, by simp⟩

theorem readArgs_infix {b : Bool} {ds : List Str} {s r : Str} {ws : List Str} (h : ReadArgs b ds s ws r) : ∀ w ∈ ws, w <:+: s := by
  induction h with
  | nil => simp
  | @last d a t => intro w hw; simp at hw; subst hw; exact ⟨[], d ++ '{' :: t, by simp⟩
  | plain _ h _ ih =>
    intro w hw
    simp at hw
    rcases hw with rfl | hw
    · exact readArg_infix h
    · exact (ih w hw).trans (ReadArg_suffix h).isInfix
  | delimited _ _ h _ ih =>
    intro w hw
    simp at hw
    rcases hw with rfl | hw
    · exact (delimited_prefix h).isInfix
    · exact (ih w hw).trans (Delimited_suffix h).isInfix

theorem finish_size {input : Str} {repl : List RTok} {n : Nat} {rt s : Str} (hp : PT n rt (flat repl)) {N : Nat}
    {r : Res Str (List XArg)} {t : Str} {k : Nat} (h : finish input repl r = .ok t k) (hrt : blen rt ≤ N) (hs : blen s ≤ N)
    (hr : ∀ as rest, r = .ok as rest → rest <:+ s ∧ ∀ w ∈ as.map XArg.render, blen w ≤ N + 2) : blen t ≤ N * (N + 4) := by
  obtain ⟨as, rest, body, h1, h2, rfl, -⟩ := (finish_ok ‹_›).1 h
  obtain ⟨h3, h4⟩ := hr as rest h1
  have h5 := subst_size h2 h4
  have h6 := infix_blen h3.isInfix
  have h7 : blen rt * (N + 2 + 1) ≤ N * (N + 3) := Nat.mul_le_mul_right _ hrt
  rw [blen_append, show N * (N + 4) = N * (N + 3) + N from Nat.mul_succ _ _]
  omega

theorem expand_size {o : Str} {d : Definition} (hd : DefFrom o d) {input new : Str} {k N : Nat}
    (h : expandDefinition cf d input = .ok new k) (ho : blen o ≤ N) (hi : blen input ≤ N) : blen new ≤ N * (N + 4) := by
  have h2N : N + N ≤ N * (N + 4) := by
    rw [show N + N = N * 2 by omega]
    exact Nat.mul_le_mul_left _ (by omega)
  cases hd with
  | @mac pt rt pre ds b repl h1 h2 h3 h4 =>
    have hPT := parseReplacement_ok h2
    have key : ∀ {s : Str}, s <:+ input → finish input repl (macroArgs b (ds.map opt) s) = .ok new k → blen new ≤ N * (N + 4) := by
      intro s hs h
      refine finish_size hPT h (Nat.le_trans (infix_blen h4) ho) (s := input) hi ?_
      intro as rest ha
      have := macroArgs_ok ha
      refine ⟨(ReadArgs_suffix this).trans hs, fun w hw => ?_⟩
      have := infix_blen ((readArgs_infix this w hw).trans hs.isInfix)
      omega
    simp only [expandDefinition] at h
    split at h
    · exact key (List.suffix_refl _) h
    · split at h
      · cases h
      · rename_i rest hs
        rw [stripPrefix_some] at hs
        exact key ⟨_, hs.symm⟩ h
  | @cmd rt n dflt repl h1 h2 h3 h4 =>
    have hPT := parseReplacement_ok h2
    simp only [expandDefinition] at h
    split at h
    · refine finish_size hPT h (Nat.le_trans (infix_blen h3) ho) (s := input) hi ?_
      intro as rest ha
      have := commandArgs_ok ha
      refine ⟨ReadArgs_suffix this, fun w hw => ?_⟩
      have := infix_blen (readArgs_infix this w hw)
      omega
    · rename_i def_
      refine finish_size hPT h (Nat.le_trans (infix_blen h3) ho) (s := input) hi ?_
      intro as rest ha
      obtain ⟨og, r1, ha1, ha⟩ := M.bind_eq_ok ha
      split at ha
      · cases ha
      · obtain ⟨as1, r2, ha2, ha⟩ := M.bind_eq_ok ha
        cases ha
        have hg := good_optionalArgument (cf := cf) input
        rw [ha1] at hg
        have hra := commandArgs_ok ha2
        refine ⟨(ReadArgs_suffix hra).trans hg, ?_⟩
        intro w hw
        simp only [List.map_cons, List.mem_cons] at hw
        rcases hw with rfl | hw
        · have : blen (og.getD def_) ≤ N := by
            cases og with
            | none => exact Nat.le_trans (infix_blen (h4 def_ rfl)) ho
            | some g =>
              rcases optionalArgument_eq ha1 with ⟨h, _⟩ | ⟨w, t, _, e, h | ⟨g', h, ht⟩⟩
              · cases h
              · cases h.1
              · cases h
                refine Nat.le_trans (infix_blen (b := input) ⟨w ++ ['['], ']' :: r1, ?_⟩) hi
                rw [e, ht]; simp
          simp only [XArg.render, List.cons_append, blen_cons, blen_append, blen_nil]
          have e1 : '{'.utf8Size = 1 := by decide
          have e2 : '}'.utf8Size = 1 := by decide
          omega
        · have := infix_blen ((readArgs_infix hra w hw).trans (List.IsSuffix.isInfix hg))
          omega
  | @chr c h1 h2 h3 h4 =>
    cases h
    obtain ⟨a, b, rfl⟩ := List.append_of_mem h1
    simp only [blen_append, blen_cons] at ho ⊢
    omega
  | @cs name h1 h2 =>
    cases h
    have := infix_blen h1
    simp only [blen_append, blen_cons] at this ⊢
    omega

/-- No text is longer than the input with all expansions, and definitions are made from such texts. -/
structure Small (inp : Str) (T : Nat) (st : List Instr) (m : Ctx) : Prop where
  subs : ∀ x A, Instr.sub x A ∈ st → blen x.cs ≤ blen inp + T
  macs : ∀ x ∈ m, ∃ o, blen o ≤ blen inp + T ∧ DefFrom o x.2

theorem _root_.PL.Expands.small {inp : Str} {s s' : PSt} (h : Expands cf s s') (hc : blen s.h.content.cs ≤ blen inp + s.sp.total)
    (hm : ∀ x ∈ s.h.macros, ∃ o, blen o ≤ blen inp + s.sp.total ∧ DefFrom o x.2) : blen s'.h.content.cs ≤ blen inp + s'.sp.total ∧
    (s'.sp.total = s.sp.total ∨ s'.sp.total ≤ 1048576 + (blen inp + 1048576) * (blen inp + 1048580)) := by
  induction h with
  | refl => exact ⟨hc, .inl rfl⟩
  | @step s s1 s2 h1 h2 ih =>
    obtain ⟨name, rest, new, consumed, start, es, len, ht, hx, -, hlt, hr, rfl⟩ := h1.ex
    have hlt : s.sp.total < 1048576 := hlt
    obtain ⟨d, hd, he⟩ := tryExpand_mem hx
    obtain ⟨o, ho, hdo⟩ := hm _ hd
    have hsuf := good_token (cf := cf) s.h.content.cs
    rw [ht] at hsuf
    have hsz : blen new ≤ (blen inp + 1048576) * (blen inp + 1048580) := expand_size hdo he (N := blen inp + 1048576) (by omega) (by
      have := infix_blen (List.IsSuffix.isInfix hsuf)
      omega)
    obtain ⟨h3, h4⟩ := ih (by simp only; omega) (by
      intro x hx
      obtain ⟨o, ho, hd⟩ := hm x hx
      exact ⟨o, by simp only; omega, hd⟩)
    refine ⟨h3, .inr ?_⟩
    rcases h4 with h4 | h4
    · rw [h4]; simp only; omega
    · exact h4

theorem small_next {inp : Str} {s s' : State} (hb : Base inp s) (h : Small inp s.sp.total (s.stack ++ s.buf) s.macros) (o : Option Item)
    (hst : step cf s = match o with | some i => .item i s' | none => .again s') : Small inp s'.sp.total (s'.stack ++ s'.buf) s'.macros ∧
    (s'.sp.total = s.sp.total ∨ s'.sp.total ≤ 1048576 + (blen inp + 1048576) * (blen inp + 1048580)) := by
  rcases step_cases o hst with ⟨e, rfl, hs, he⟩ | ⟨c, A, rfl, hs, he⟩ | ⟨c, A, rest, hs, hne⟩
  · rw [he]
    refine ⟨⟨fun x A hx => h.subs x A ?_, h.macs⟩, .inl rfl⟩
    rw [hs]; simp at hx ⊢; exact hx
  · rw [he]
    refine ⟨⟨fun x A hx => h.subs x A ?_, h.macs⟩, .inl rfl⟩
    rw [hs]; simp at hx ⊢; exact .inr hx
  · obtain ⟨p1, hx, -, hr⟩ := step_sub (cf := cf) (st := false) hs (hb.wf c A (by simp [hs])) hne (by intro h; cases h) hb.calls
    have hle : s.sp.total ≤ p1.sp.total := hx.long.1
    obtain ⟨h1, h2⟩ := hx.small (inp := inp) (h.subs c A (by simp [hs])) h.macs
    have h2 : p1.sp.total = s.sp.total ∨ p1.sp.total ≤ 1048576 + (blen inp + 1048576) * (blen inp + 1048580) := h2
    have hmac : ∀ {m' : Ctx}, (∀ x ∈ m', x ∈ s.macros ∨ Defines p1.h.content.cs ∧ DefFrom p1.h.content.cs x.2) →
        ∀ x ∈ m', ∃ o, blen o ≤ blen inp + p1.sp.total ∧ DefFrom o x.2 := by
      intro m' hm x hx
      rcases hm x hx with hx | hx
      · obtain ⟨o, ho, hd⟩ := h.macs x hx
        exact ⟨o, by omega, hd⟩
      · exact ⟨_, h1, hx.2⟩
    have hsub : ∀ {x : Sl} {A}, (Instr.sub x A ∈ s.stack ++ s.buf ∨ Sub x p1.h.content) → blen x.cs ≤ blen inp + p1.sp.total := by
      intro x A hx
      rcases hx with hx | hx
      · have := h.subs x A hx; omega
      · have := infix_blen hx.infix; omega
    rw [hst] at hr
    cases o with
    | none =>
      obtain ⟨pre, D, c', A', R⟩ := hr
      have hsp : s'.sp = p1.sp := by rw [R.eq]
      rw [hsp]
      refine ⟨⟨fun x B hx => ?_, hmac R.mac⟩, h2⟩
      rw [R.eq] at hx
      simp only [List.append_nil, List.mem_append, List.mem_cons] at hx
      refine hsub (A := B) ?_
      rcases hx with ((hx | hx) | hx) | hx | hx
      · rcases R.head with rfl | ⟨ty, p, rfl⟩ <;> simp at hx
      · exact .inl (by simp [hx])
      · exact .inr (R.subs x B hx)
      · cases hx; exact .inr R.sub
      · exact .inl (by simp [hs, hx])
    | some i =>
      obtain ⟨sp2, d, c', A', R⟩ := hr
      obtain ⟨k, hre⟩ := R.reach
      obtain ⟨-, -, r3, -⟩ := reach_sp hre
      have hto : s'.sp.total = p1.sp.total := by rw [r3, R.span.2.2.1]
      rw [hto]
      refine ⟨⟨fun x B hx => ?_, hmac R.mac⟩, h2⟩
      rw [R.eq] at hx
      simp only [List.mem_append, List.mem_cons] at hx
      refine hsub (A := B) ?_
      rcases hx with (hx | hx) | hx | hx
      · cases hx; exact .inr R.sub
      · exact .inl (by simp [hs, hx])
      · exact .inl (by simp [hx])
      · exact .inr (R.subs x B hx)

theorem small_reached {inp : Str} {its : List Item} {s : State} (h : Exec cf (State.init inp) its s) : Small inp s.sp.total (s.stack ++ s.buf) s.macros ∧
    s.sp.total ≤ 1048576 + (blen inp + 1048576) * (blen inp + 1048580) := by
  induction h with
  | init =>
    refine ⟨⟨fun x A hx => ?_, by simp [State.init]⟩, Nat.zero_le _⟩
    simp [State.init] at hx
    rw [hx.1]
    exact Nat.le_refl _
  | @item _ _ i _ h1 h ih =>
    obtain ⟨h2, h3⟩ := small_next h1.base ih.1 (some i) h
    exact ⟨h2, by omega⟩
  | again h1 h ih =>
    obtain ⟨h2, h3⟩ := small_next h1.base ih.1 none h
    exact ⟨h2, by omega⟩

/-! ## C63 -/

/-- After any number of steps: the steps taken and the instructions waiting are together at most sixteen for each character of the input and
for each byte of the expansions performed, and one more. -/
theorem C63_steps (cf : Cfg) (inp : Str) (n : Nat) (its : List Item) (s : State) (h : Steps cf inp n its s) :
    its.length ≤ n ∧ n + (s.stack.length + s.buf.length) ≤ 16 * (inp.length + s.sp.total) + 1 := by
  have h1 := steps_left h
  have h2 := length_le_W s.stack
  have h3 := length_le_W s.buf
  unfold State.left at h1
  exact ⟨h.exec.2, by omega⟩

/-- The length of the expansions performed is bounded in terms of the length of the input. -/
theorem C63_expansions (cf : Cfg) (inp : Str) (its : List Item) (s : State) (h : Reached cf inp its s) :
    s.sp.total ≤ 1048576 + (blen inp + 1048576) * (blen inp + 1048580) := (small_reached (reached_exec h)).2

/-- So is the number of items, and the run is over after as many steps. -/
theorem C63_ends (cf : Cfg) (inp : Str) (n : Nat)
    (hn : n ≥ 16 * (inp.length + (1048576 + (blen inp + 1048576) * (blen inp + 1048580))) + 2) (s : State) : (run cf n (State.init inp)).2 ≠ .more s := by
  have key : ∀ n k its s0, Steps cf inp k its s0 → ∀ s, (run cf n s0).2 = .more s → ∃ its, Steps cf inp (k + n) its s := by
    intro n
    induction n with
    | zero => intro k its s0 h s e; cases e; exact ⟨its, h⟩
    | succ n ih =>
      intro k its s0 h s e
      unfold run at e
      cases hs : step cf s0 with
      | done => rw [hs] at e; cases e
      | panic p => rw [hs] at e; cases e
      | again s1 =>
        rw [hs] at e
        rw [show k + (n + 1) = k + 1 + n by omega]
        exact ih _ _ _ (.again h hs) s e
      | item i s1 =>
        rw [hs] at e
        rw [show k + (n + 1) = k + 1 + n by omega]
        exact ih _ _ _ (.item h hs) s e
  intro e
  obtain ⟨its, h⟩ := key n 0 [] _ .new s e
  have h1 := (C63_steps cf inp _ its s h).2
  have h2 := (small_reached h.exec.1).2
  omega

theorem no_expansions {inp : Str} (hd : ¬ Defines inp) {its : List Item} {s : State} (hx : Exec cf (State.init inp) its s) : s.sp.total = 0 := by
  induction hx with
  | init => rfl
  | @item _ _ i _ h1 h ih =>
    rcases (step_counts (o := some i) h).1 with e | ⟨c, A, rest, hst, ht, hp⟩
    · rw [e]; exact ih
    · obtain ⟨q, h2, h3⟩ := parse_spec cf (startSt _ c A)
      have h4 := final_total h3
      have := h2.nil (h1.base.nodef hd).1
      subst this
      generalize parse cf (startSt _ c A) = r at h4 ht hp
      cases r with
      | ok d st => exact (Eq.trans ht h4).trans ih
      | err e st => exact (Eq.trans (ht trivial) (h4 trivial)).trans ih
      | panic p => exact absurd rfl (hp p)
  | @again _ _ _ h1 h ih =>
    rcases (step_counts (o := none) h).1 with e | ⟨c, A, rest, hst, ht, hp⟩
    · rw [e]; exact ih
    · obtain ⟨q, h2, h3⟩ := parse_spec cf (startSt _ c A)
      have h4 := final_total h3
      have := h2.nil (h1.base.nodef hd).1
      subst this
      generalize parse cf (startSt _ c A) = r at h4 ht hp
      cases r with
      | ok d st => exact (Eq.trans ht h4).trans ih
      | err e st => exact (Eq.trans (ht trivial) (h4 trivial)).trans ih
      | panic p => exact absurd rfl (hp p)

/-- Without definitions there are no expansions: the number of items and of steps is linear in the length of the input. -/
theorem C63_linear (cf : Cfg) (inp : Str) (hd : ¬ Defines inp) (n : Nat) (its : List Item) (s : State) (h : Steps cf inp n its s) :
    its.length ≤ n ∧ n + (s.stack.length + s.buf.length) ≤ 16 * inp.length + 1 := by
  have h0 := no_expansions hd h.exec.1
  have := C63_steps cf inp n its s h
  rw [h0] at this
  exact this

/-- A case: eleven characters, twelve steps, seven items. -/
example : (run cf0 12 (State.init c!"\\frac1{a}^'")).1.length = 7 ∧ (match run cf0 12 (State.init c!"\\frac1{a}^'") with
    | (_, .done) => true
    | _ => false) = true := by decide +kernel

/-- A case with an expansion of nine bytes, `{xx}{xx}y`: six items from twenty-one characters. -/
example : (match run cf0 11 (State.init c!"\\def\\a#1{#1#1}\\a{xx}y") with
    | (its, .more s) => its.length == 5 && s.sp.total == 9
    | _ => false) = true := by decide +kernel

end PL.Props
