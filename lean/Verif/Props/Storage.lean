import Verif.Props.Groups
set_option autoImplicit false
/-!
# Storage taken by expansions (C09)
-/
namespace PL.Props
open PL PL.Lex Spec Macros

variable {cf : Cfg}

/-! ### Without a recursion error -/

/-- A text that some expansion performed while parsing the input has put in place of a call. -/
def Performed (cf : Cfg) (inp t : Str) : Prop :=
  ∃ its s c A rest p p', Reached cf inp its s ∧ s.stack = .sub c A :: rest ∧ Expands cf (startSt s c A) p ∧ Expand cf p p' ∧ p'.h.content.cs = t

/-- A fact about the spans after parsing, unless it failed with certain errors. -/
def After (Q : Spans → Prop) (L : ErrorKind → Prop) : Res PSt (Option Desc) → Prop
  | .ok _ s => Q s.sp
  | .err e s => L e → Q s.sp
  | .panic _ => True

theorem after_liftH {Q : Spans → Prop} {L : ErrorKind → Prop} {s : PSt} (hs : Q s.sp) (m : H (Option Desc)) : After Q L (liftH m s) := by
  unfold liftH
  cases m s.h with
  | ok a h => exact hs
  | err e h => exact fun _ => hs
  | panic p => trivial

/-- Bytes counted are bytes allocated, except for refused expansions. -/
theorem parseLoop_alloc (n : Nat) : ∀ (s : PSt), s.sp.allocBytes = s.sp.total →
    After (fun sp => sp.allocBytes = sp.total) (· ≠ .macroRecursionLimit) (parseLoop cf n s) := by
  induction n with
  | zero => intro s _; trivial
  | succ n ih =>
    intro s hs
    rw [parseLoop]
    dsimp only
    cases token s.h.content.cs with
    | panic p => trivial
    | err e rest =>
      dsimp only
      by_cases he : e = .token
      · rw [if_pos he]; exact hs
      · rw [if_neg he]; exact fun _ => hs
    | ok t rest =>
      cases t with
      | chr c r => exact after_liftH hs _
      | cs name =>
        dsimp only
        cases tryExpand cf s.h.macros name rest with
        | none => exact after_liftH hs _
        | some x =>
          cases x with
          | panic p => trivial
          | err e =>
            dsimp only
            by_cases hlim : (s.sp.exps.length ≥ maxExpansionDepth || s.sp.total ≥ maxExpansionBytes) = true
            · rw [if_pos hlim]; exact fun _ => hs
            · rw [if_neg hlim]; exact fun _ => hs
          | ok new k =>
            dsimp only
            by_cases hlim : (s.sp.exps.length ≥ maxExpansionDepth || s.sp.total ≥ maxExpansionBytes) = true
            · rw [if_pos hlim]; exact fun h => absurd rfl h
            · rw [if_neg hlim]
              unfold Spans.add Spans.reach
              dsimp only
              cases reachLoop cf s.sp.input (Sl.ptr cf { s.h.content with cs := trimStart s.h.content.cs }) s.sp.exps with
              | none => trivial
              | some y =>
                dsimp only [Option.map]
                refine ih _ ?_
                show s.sp.allocBytes + blen new = s.sp.total + blen new
                rw [hs]

theorem errorContext_sp {sp sp' : Spans} {pl : Nat} {ctx : Str} (h : errorContext cf sp pl = .ok (ctx, sp')) :
    sp'.total = sp.total ∧ sp'.allocBytes = sp.allocBytes := by
  unfold errorContext at h
  cases hr : sp.reach cf pl with
  | none => rw [hr] at h; cases h
  | some y =>
    obtain ⟨i, sp2⟩ := y
    have : sp2.total = sp.total ∧ sp2.allocBytes = sp.allocBytes := by
      unfold Spans.reach at hr
      cases hl : reachLoop cf sp.input pl sp.exps with
      | none => rw [hl] at hr; cases hr
      | some z => rw [hl] at hr; cases hr; exact ⟨rfl, rfl⟩
    rw [hr] at h
    dsimp only at h
    split at h
    · split at h
      · cases h; exact this
      · cases h
    · cases h

/-- What a step does to the counters. -/
theorem step_counts {s s' : State} {o : Option Item} (h : step cf s = match o with | some i => .item i s' | none => .again s') :
    (s'.sp.total = s.sp.total ∨ ∃ c A rest, s.stack = .sub c A :: rest ∧
      After (fun sp => s'.sp.total = sp.total) (fun _ => True) (parse cf (startSt s c A)) ∧ ∀ p, parse cf (startSt s c A) ≠ .panic p) ∧
    (s.sp.allocBytes = s.sp.total → (∀ ctx, o ≠ some (.err .macroRecursionLimit ctx)) → s'.sp.allocBytes = s'.sp.total) := by
  unfold step at h
  cases hs : s.stack with
  | nil => rw [hs] at h; cases o <;> cases h
  | cons x rest =>
    rw [hs] at h
    cases x with
    | ev e => cases o <;> cases h; exact ⟨.inl rfl, fun h _ => h⟩
    | sub c A =>
      dsimp only at h
      by_cases hb : (trimStart c.cs).isEmpty = true
      · rw [if_pos hb] at h
        cases o <;> cases h
        exact ⟨.inl rfl, fun h _ => h⟩
      · rw [if_neg hb] at h
        have ha := parseLoop_alloc (cf := cf) (maxExpansionDepth + 2) (startSt s c A)
        rw [show parseLoop cf (maxExpansionDepth + 2) = parse cf from rfl] at ha
        cases hp : parse cf (startSt s c A) with
        | panic p => rw [hp] at h; cases o <;> cases h
        | err e st =>
          rw [hp] at h ha
          dsimp only at h ha
          cases he : errorContext cf st.sp (st.h.content.ptr cf) with
          | error p => rw [he] at h; cases o <;> cases h
          | ok y =>
            obtain ⟨ctx, sp⟩ := y
            rw [he] at h
            have hsp := errorContext_sp he
            cases o with
            | none => cases h
            | some i =>
              cases h
              refine ⟨.inr ⟨c, A, rest, rfl, (by rw [hp]; exact fun _ => hsp.1), (by simp [hp])⟩, fun h1 h2 => ?_⟩
              show sp.allocBytes = sp.total
              rw [hsp.1, hsp.2]
              exact ha h1 fun he => h2 ctx (by rw [he])
        | ok d st =>
          rw [hp] at h ha
          dsimp only at h ha
          cases he : unstage st.h.buf (.sub st.h.content st.h.align :: rest) d with
          | error p => rw [he] at h; cases o <;> cases h
          | ok y =>
            rw [he] at h
            cases o with
            | some i => cases h
            | none =>
              cases h
              exact ⟨.inr ⟨c, A, rest, rfl, (by rw [hp]; exact rfl), (by simp [hp])⟩, fun h1 _ => ha h1⟩

theorem final_total {p : PSt} {r : Res PSt (Option Desc)} (h : Final cf p r) : After (fun sp => sp.total = p.sp.total) (fun _ => True) r := by
  cases h with
  | nothing _ => exact rfl
  | error _ _ => exact fun _ => rfl
  | atom _ _ => exact after_liftH (Q := fun sp => sp.total = p.sp.total) (by exact rfl) _
  | macroPanic _ _ => trivial
  | macroError _ _ _ h => exact fun _ => h
  | assertion => trivial

theorem _root_.PL.Expands.last {s p : PSt} (h : Expands cf s p) : p = s ∨ ∃ q, Expands cf s q ∧ Expand cf q p := by
  induction h with
  | refl s => exact .inl rfl
  | @step s s' s'' h1 h2 ih =>
    refine .inr ?_
    rcases ih with rfl | ⟨q, h3, h4⟩
    · exact ⟨s, .refl s, h1⟩
    · exact ⟨q, .step h1 h3, h4⟩

/-- The bytes counted are fewer than the limit plus one performed expansion. -/
theorem counted (inp : Str) (its : List Item) (s : State) (h : Reached cf inp its s) :
    s.sp.total = 0 ∨ ∃ t, Performed cf inp t ∧ s.sp.total < 1048576 + blen t := by
  have next : ∀ {its s s'} {o : Option Item}, Reached cf inp its s → (s.sp.total = 0 ∨ ∃ t, Performed cf inp t ∧ s.sp.total < 1048576 + blen t) →
      step cf s = (match o with | some i => .item i s' | none => .again s') →
      (s'.sp.total = 0 ∨ ∃ t, Performed cf inp t ∧ s'.sp.total < 1048576 + blen t) := by
    intro its s s' o hr ih hs
    rcases (step_counts hs).1 with e | ⟨c, A, rest, hst, ht, hp⟩
    · rw [e]; exact ih
    · obtain ⟨q, h1, h2⟩ := parse_spec cf (startSt s c A)
      have h3 := final_total h2
      have hq : s'.sp.total = q.sp.total := by
        generalize parse cf (startSt s c A) = r at h3 ht hp
        cases r with
        | ok d st => exact Eq.trans ht h3
        | err e st => exact Eq.trans (ht trivial) (h3 trivial)
        | panic p => exact absurd rfl (hp p)
      rcases h1.last with rfl | ⟨q', h4, h5⟩
      · rw [hq]; exact ih
      · obtain ⟨name, r, new, k, start, es, len, h6, h7, h8, h9, h10, rfl⟩ := h5.ex
        refine .inr ⟨new, ⟨its, s, c, A, rest, q', _, hr, hst, h4, h5, rfl⟩, ?_⟩
        rw [hq]
        show q'.sp.total + blen new < _
        have : maxExpansionBytes = 1048576 := rfl
        omega
  induction h with
  | new => exact .inl rfl
  | @item its s i s' h1 h2 ih => exact next (o := some i) h1 ih h2
  | @again its s s' h1 h2 ih => exact next (o := none) h1 ih h2

/-! ## C09 -/

/-- As long as no recursion error has been returned, the text allocated for expansions is shorter than 1 MiB plus one
expansion performed. Missing: after a recursion error this is false (`C09_false`). -/
theorem C09_bound_partial (cf : Cfg) (inp : Str) (its : List Item) (s : State) (h : Reached cf inp its s)
    (hn : ∀ ctx, Item.err .macroRecursionLimit ctx ∉ its) :
    s.sp.allocBytes = 0 ∨ ∃ t, Performed cf inp t ∧ s.sp.allocBytes < 1048576 + blen t := by
  have : s.sp.allocBytes = s.sp.total := by
    induction h with
    | new => rfl
    | @item its s i s' h1 h2 ih =>
      exact (step_counts (o := some i) h2).2 (ih fun ctx h => hn ctx (by simp [h])) fun ctx e => hn ctx (by
        injection e with e; simp [e])
    | @again its s s' h1 h2 ih => exact (step_counts (o := none) h2).2 (ih hn) (by intro ctx e; cases e)
  rw [this]
  exact counted inp its s h

/-- A case of it: two expansions, of `xxy` with the rest of the input. -/
example : (match run cf0 12 (State.init c!"\\def\\a{xx}\\a y\\a") with
    | (its, .more s) => (its.length, s.sp.allocBytes)
    | _ => (0, 0)) = (5, 7) := by decide +kernel

/-! ### After a recursion error -/

/-- Calls of a macro `\a`. -/
def calls : Nat → Str
  | 0 => []
  | n + 1 => '\\' :: 'a' :: calls n

/-- The macro `\a` expands to nothing. -/
def emptyA : Ctx := [(c!"a", .macro_ ⟨none, [], false, []⟩)]

theorem calls_blen : ∀ n, blen (calls n) = 2 * n
  | 0 => rfl
  | n + 1 => by
    rw [calls, blen, blen, calls_blen n]
    have : ('\\' : Char).utf8Size = 1 ∧ ('a' : Char).utf8Size = 1 := by decide
    omega

theorem calls_trim : ∀ n, trimStart (calls n) = calls n
  | 0 => rfl
  | n + 1 => trimStart_eq_self (by intro c r h; cases h; decide)

theorem calls_token (n : Nat) : token (calls (n + 1)) = .ok (.cs c!"a") (calls n) := by
  have hw : CsName (c!"a" ++ calls n) c!"a" (calls n) := .word (by decide) (by decide) (by
    intro c r h
    cases n with
    | zero => cases h
    | succ n => cases h; decide)
  have := token_cs_eq (k := []) .nil hw
  rw [calls_trim] at this
  exact this

theorem calls_expand (n : Nat) : tryExpand cf emptyA c!"a" (calls n) = some (.ok (calls n) 0) := by
  have : tryExpand cf emptyA c!"a" (calls n) = some (.ok (calls n) (blen (calls n) - blen (calls n))) := rfl
  rw [this, Nat.sub_self]

/-- A limit of expansion has been reached. -/
def AtLimit (sp : Spans) : Prop := sp.exps.length ≥ maxExpansionDepth ∨ sp.total ≥ maxExpansionBytes

theorem _root_.PL.InTop.reach {s : PSt} (h : InTop s) (c : Str) : ∃ start, reachLoop cf s.sp.input (Sl.ptr cf { s.h.content with cs := c }) s.sp.exps = some (start, s.sp.exps) := by
  obtain ⟨e, es, he, h1, h2, h3⟩ := h
  rw [he]
  unfold reachLoop
  rw [if_pos (by
    simp only [Bool.and_eq_true, decide_eq_true_eq]
    unfold Sl.ptr Sl.start
    rw [← h1]
    simp only
    omega)]
  exact ⟨_, rfl⟩

/-- The state of a parse of the calls, at a limit. -/
structure Stuck (N k : Nat) (s : PSt) : Prop where
  content : s.h.content.cs = calls k
  macros : s.h.macros = emptyA
  top : InTop s
  limit : AtLimit s.sp
  calls : CallsOK s.sp.exps
  short : ∀ e ∈ s.sp.exps, blen e.full ≤ N

theorem calls_refused {s : PSt} {n : Nat} (f : Nat) (hc : s.h.content.cs = calls (n + 1)) (hm : s.h.macros = emptyA) (hl : AtLimit s.sp) :
    parseLoop cf (f + 1) s = .err .macroRecursionLimit ⟨{ s.h with content := { s.h.content with cs := calls n } },
      { s.sp with nalloc := s.sp.nalloc + 1, allocBytes := s.sp.allocBytes + blen (calls n) }⟩ := by
  rw [parseLoop]
  simp only [hc, calls_token, hm, calls_expand]
  rw [if_pos (by rcases hl with h | h <;> simp [h])]

theorem calls_accepted {s : PSt} {n : Nat} (f : Nat) (hc : s.h.content.cs = calls (n + 1)) (hm : s.h.macros = emptyA) (hl : ¬ AtLimit s.sp) {start : Nat}
    {es : List ExpSpan} (hr : reachLoop cf s.sp.input (Sl.ptr cf s.h.content) s.sp.exps = some (start, es)) :
    ∃ s' e, parseLoop cf (f + 1) s = parseLoop cf f s' ∧ s'.h.content.cs = calls n ∧ s'.h.macros = emptyA ∧ InTop s' ∧
      s'.sp.exps = e :: es ∧ e.callStart ≤ e.callStop ∧ e.full = calls n := by
  generalize hq : parseLoop cf f = q
  rw [parseLoop, hq]
  have hc' : ({ s.h.content with cs := trimStart s.h.content.cs } : Sl) = s.h.content := by
    rw [hc, calls_trim, ← hc]
  simp only [hc']
  simp only [hc, calls_token, hm, calls_expand]
  rw [if_neg (by
    unfold AtLimit at hl
    simp only [Bool.or_eq_true, decide_eq_true_eq]
    exact hl)]
  unfold Spans.add Spans.reach
  simp only [hr]
  exact ⟨_, _, rfl, rfl, rfl, ⟨_, _, rfl, rfl, Nat.le_refl _, Nat.le_refl _⟩, rfl, Nat.le_add_right _ _, rfl⟩

/-- Parsing the calls reaches a limit. -/
theorem calls_limit (N f : Nat) : ∀ (s : PSt) (m : Nat), s.h.content.cs = calls (m + f + 1) → s.h.macros = emptyA → InTop s → CallsOK s.sp.exps →
    2 * (m + f + 1) ≤ N → (∀ e ∈ s.sp.exps, blen e.full ≤ N) → maxExpansionDepth ≤ s.sp.exps.length + f →
    ∃ s' k, parseLoop cf (f + 1) s = .err .macroRecursionLimit s' ∧ m ≤ k ∧ Stuck N k s' := by
  have stop : ∀ (f : Nat) (s : PSt) (m : Nat), s.h.content.cs = calls (m + f + 1) → s.h.macros = emptyA → InTop s → CallsOK s.sp.exps →
      (∀ e ∈ s.sp.exps, blen e.full ≤ N) → AtLimit s.sp → ∃ s' k, parseLoop cf (f + 1) s = .err .macroRecursionLimit s' ∧ m ≤ k ∧ Stuck N k s' := by
    intro f s m hc hm ht hk hN hl
    refine ⟨_, m + f, calls_refused f hc hm hl, by omega, ⟨rfl, hm, ?_, hl, hk, hN⟩⟩
    obtain ⟨e, es, h1, h2, h3, h4⟩ := ht
    refine ⟨e, es, h1, h2, h3, ?_⟩
    unfold Sl.wf at h4 ⊢
    rw [hc] at h4
    simp only [calls_blen] at h4 ⊢
    omega
  induction f with
  | zero => intro s m hc hm ht hk _ hN hf; exact stop 0 s m hc hm ht hk hN (.inl hf)
  | succ f ih =>
    intro s m hc hm ht hk hN hN' hf
    by_cases hl : AtLimit s.sp
    · exact stop _ s m hc hm ht hk hN' hl
    · obtain ⟨start, hr⟩ := ht.reach (cf := cf) s.h.content.cs
      obtain ⟨s', e', h, h1, h2, h3, h4, h5, h6⟩ := calls_accepted (cf := cf) (f + 1) hc hm hl hr
      rw [h]
      refine ih s' m h1 h2 h3 ?_ (by omega) ?_ ?_
      · intro e he
        rcases List.mem_cons.1 (h4 ▸ he) with rfl | he
        · exact h5
        · exact hk e he
      · intro e he
        rcases List.mem_cons.1 (h4 ▸ he) with rfl | he
        · rw [h6, calls_blen]; omega
        · exact hN' e he
      · rw [h4, List.length_cons]; omega

/-- A call that is refused, as an item. -/
theorem stuck_item {s : State} {c : Sl} {A : Option AlignCount} {p : PSt} {e : ErrorKind} (hs : s.stack = [.sub c A]) (hne : trimStart c.cs ≠ [])
    (hp : parse cf (startSt s c A) = .err e p) (ht : InTop p) (hk : CallsOK p.sp.exps) :
    ∃ ctx, step cf s = .item (.err e ctx) ⟨[.sub p.h.content p.h.align], p.h.buf, p.h.macros, p.sp⟩ := by
  obtain ⟨start, hr⟩ := ht.reach (cf := cf) p.h.content.cs
  have hr' : p.sp.reach cf (p.h.content.ptr cf) = some (start, p.sp) := by
    unfold Spans.reach
    rw [hr]
    rfl
  obtain ⟨t, h⟩ := errorContext_ok hk hr'
  refine ⟨t, ?_⟩
  unfold step
  rw [hs]
  dsimp only
  rw [if_neg (by simpa using hne), hp]
  dsimp only
  rw [h]

/-- Refused calls keep allocating. -/
theorem stuck_run (N k : Nat) : ∀ (s : State) (c : Sl) (A : Option AlignCount), s.stack = [.sub c A] → Stuck N k (startSt s c A) →
    ∃ its s', Exec cf s its s' ∧ s'.sp.allocBytes = s.sp.allocBytes + k * (k - 1) ∧ ∀ e ∈ s'.sp.exps, blen e.full ≤ N := by
  induction k with
  | zero => intro s c A _ h; exact ⟨[], s, .init, by simp, h.short⟩
  | succ k ih =>
    intro s c A hs h
    have hp := calls_refused (cf := cf) (maxExpansionDepth + 1) h.content h.macros h.limit
    have ht : InTop (⟨{ (startSt s c A).h with content := { (startSt s c A).h.content with cs := calls k } },
      { (startSt s c A).sp with nalloc := (startSt s c A).sp.nalloc + 1, allocBytes := (startSt s c A).sp.allocBytes + blen (calls k) }⟩ : PSt) := by
      obtain ⟨e, es, h1, h2, h3, h4⟩ := h.top
      refine ⟨e, es, h1, h2, h3, ?_⟩
      have := h.content
      unfold Sl.wf at h4 ⊢
      rw [this] at h4
      simp only [calls_blen] at h4 ⊢
      omega
    obtain ⟨ctx, hst⟩ := stuck_item hs (by rw [show c.cs = calls (k + 1) from h.content, calls_trim]; simp [calls]) hp ht h.calls
    obtain ⟨its, s', h1, h2, h3⟩ := ih
      ⟨[.sub { (startSt s c A).h.content with cs := calls k } (startSt s c A).h.align], _, _, _⟩ _ _ rfl
      ⟨rfl, h.macros, ht, h.limit, h.calls, h.short⟩
    refine ⟨_, s', (Exec.init.item hst).trans h1, ?_, h3⟩
    rw [h2]
    show s.sp.allocBytes + blen (calls k) + k * (k - 1) = _
    rw [calls_blen]
    cases k with
    | zero => simp
    | succ k =>
      have : (k + 1 + 1) * (k + 1) = 2 * (k + 1) + (k + 1) * k := by rw [Nat.mul_comm (k + 1) k, ← Nat.add_mul]; congr 1; omega
      simp only [Nat.add_sub_cancel]
      rw [Nat.add_assoc, this]

set_option maxRecDepth 100000 in
theorem calls_define (m : Nat) : step cf (State.init (c!"\\def\\a{}" ++ calls (m + 1))) =
    .again ⟨[.sub ⟨0, blen (c!"\\def\\a{}" ++ calls (m + 1)), calls (m + 1)⟩ none], [], emptyA, .init (c!"\\def\\a{}" ++ calls (m + 1))⟩ := by rfl

theorem exec_reached {inp : Str} {its : List Item} {s : State} (h : Exec cf (State.init inp) its s) : Reached cf inp its s := by
  induction h with
  | init => exact .new
  | item _ h ih => exact ih.item h
  | again _ h ih => exact ih.again h

/-- For every number `K` there is an input whose parse allocates more than 1 MiB and `K` times the length of the input, although each of the
expansions performed is shorter than the input: the text of a refused expansion is allocated all the same. -/
theorem C09_false (cf : Cfg) (K : Nat) : ∃ inp its s, Reached cf inp its s ∧ s.sp.allocBytes ≥ 1048576 + K * blen inp ∧
    ∀ e ∈ s.sp.exps, blen e.full < blen inp := by
  -- many calls
  obtain ⟨m, hm⟩ : ∃ m, m = 2000 + 4 * K := ⟨_, rfl⟩
  obtain ⟨n, hn⟩ : ∃ n, n = m + 65 := ⟨_, rfl⟩
  have hstep := calls_define (cf := cf) n
  generalize hi : c!"\\def\\a{}" ++ calls (n + 1) = inp at hstep
  have hlen : blen inp = 8 + 2 * (n + 1) := by
    rw [← hi, blen_append, calls_blen]
    have : blen c!"\\def\\a{}" = 8 := by decide
    omega
  obtain ⟨s1, hs1⟩ : ∃ s1 : State, s1 = ⟨[.sub ⟨0, blen inp, calls (n + 1)⟩ none], [], emptyA, .init inp⟩ := ⟨_, rfl⟩
  obtain ⟨c, hc⟩ : ∃ c : Sl, c = ⟨0, blen inp, calls (n + 1)⟩ := ⟨_, rfl⟩
  have hreach : reachLoop cf (startSt s1 c none).sp.input (Sl.ptr cf (startSt s1 c none).h.content) (startSt s1 c none).sp.exps =
      some (blen inp - blen c.cs, []) := by
    subst hs1 hc
    show reachLoop cf inp (cf.addr 0 + (blen inp - blen (calls (n + 1)))) [] = _
    unfold reachLoop
    rw [if_pos (by simp only [Bool.and_eq_true, decide_eq_true_eq]; omega), Nat.add_sub_cancel_left]
  obtain ⟨s2', e', h1, g1, g2, g3, g4, g5, g6⟩ := calls_accepted (cf := cf) (maxExpansionDepth + 1) (s := startSt s1 c none) (n := n) (by rw [hc]; rfl)
    (by rw [hs1]; rfl) (by rw [hs1]; unfold AtLimit; simp [startSt, Spans.init, maxExpansionDepth, maxExpansionBytes]) hreach
  have h64 : maxExpansionDepth = 64 := rfl
  obtain ⟨s2, k, h2, h3, h4⟩ := calls_limit (cf := cf) (blen inp - 1) maxExpansionDepth s2' m
    (by rw [g1, hn, h64]) g2 g3
    (by intro e he; rw [g4] at he; simp only [List.mem_singleton] at he; subst he; exact g5)
    (by omega)
    (by intro e he; rw [g4] at he; simp only [List.mem_singleton] at he; subst he; rw [g6, calls_blen]; omega)
    (by rw [g4, List.length_singleton]; omega)
  rw [h2] at h1
  obtain ⟨ctx, hst⟩ := stuck_item (s := s1) (c := c) (by rw [hs1, hc]) (by rw [hc]; simp only [calls_trim]; simp [calls]) h1 h4.top h4.calls
  obtain ⟨its, s', h5, h6, h7⟩ := stuck_run (cf := cf) (blen inp - 1) k ⟨[.sub s2.h.content s2.h.align], s2.h.buf, s2.h.macros, s2.sp⟩ _ _ rfl
    ⟨h4.content, h4.macros, h4.top, h4.limit, h4.calls, h4.short⟩
  rw [← hs1] at hstep
  have hx := ((Exec.init.again hstep).item hst).trans h5
  refine ⟨inp, _, s', exec_reached hx, ?_, fun e he => ?_⟩
  · rw [h6]
    have hk : m * (m - 1) ≤ k * (k - 1) := Nat.mul_le_mul h3 (by omega)
    have e1 : m * (m - 1) = 2000 * (m - 1) + 4 * K * (m - 1) := by rw [← Nat.add_mul]; congr 1
    have e2 : 4 * K * (m - 1) = K * (4 * (m - 1)) := by rw [Nat.mul_comm 4 K, Nat.mul_assoc]
    have e3 : K * blen inp ≤ K * (4 * (m - 1)) := Nat.mul_le_mul_left K (by omega)
    show s2.sp.allocBytes + k * (k - 1) ≥ _
    omega
  · have := h7 e he
    omega

end PL.Props
