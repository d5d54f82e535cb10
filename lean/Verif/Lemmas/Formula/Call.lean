import Verif.Spec.Call
import Verif.Lemmas.Formula.Element
set_option autoImplicit false
/-!
# Calls of macros, exactly
-/
namespace PL.Formula
open PL PL.Lex PL.H PL.Macros Spec PL.Props

variable {cf : Cfg} {s r : Str} {k : ErrorKind} {T : Option Nat} {Δ : Known}

/-! ### Arguments -/

theorem any_total (s : Str) : (∃ a r, ReadArg s a r) ∨ ∃ k, NoArgument s k := by
  rcases argument_total s with ⟨g, r, h⟩ | ⟨x, t, h⟩ | h
  · exact .inl ⟨_, _, any_group h⟩
  · obtain ⟨w, h⟩ := any_tok h; exact .inl ⟨_, _, h⟩
  · exact .inr h

theorem macroArgs_bad {b : Bool} {ds : List Str} (h : BadArgs b ds s k) : ∃ r, macroArgs b (ds.map opt) s = .err k r := by
  induction h with
  | @last d s hb hn =>
    subst hb
    have hp : bracePat (opt d) = d ++ c!"{" := by cases d <;> rfl
    rw [List.map_cons, List.map_nil]
    unfold macroArgs
    rw [if_pos (by simp), hp]
    have : splitOnce (d ++ c!"{") s = none := by
      rw [splitOnce_none (by simp)]
      rintro ⟨u, v, e⟩
      exact hn u v (by rw [← e]; simp)
    rw [this]
    exact ⟨_, rfl⟩
  | @plain ds s k hb ha =>
    obtain ⟨r, e⟩ := noArgument_err ha
    rw [List.map_cons]
    unfold macroArgs
    rw [if_neg (by cases ds <;> simp_all)]
    simp only [opt, List.isEmpty_nil, if_true, bind, M.bind, e]
    exact ⟨_, rfl⟩
  | @delimited d ds s k hb hd ha =>
    obtain ⟨r, e⟩ := notDelimited_err ha
    rw [List.map_cons]
    unfold macroArgs
    rw [if_neg (by cases ds <;> simp_all)]
    cases d with
    | nil => exact absurd rfl hd
    | cons c d =>
      simp only [opt_cons, bind, M.bind, e]
      exact ⟨_, rfl⟩
  | @plainNext ds s a r k hb ha _ ih =>
    obtain ⟨r', e⟩ := ih
    obtain ⟨a', h3, h4⟩ := argument_of ha
    rw [List.map_cons]
    unfold macroArgs
    rw [if_neg (by cases ds <;> simp_all)]
    simp only [opt, List.isEmpty_nil, if_true, bind, M.bind, h3]
    have : macroArgs b (ds.map opt) r = .err k r' := e
    rw [this]
    exact ⟨_, rfl⟩
  | @delimitedNext d ds s a r k hb hd ha _ ih =>
    obtain ⟨r', e⟩ := ih
    rw [List.map_cons]
    unfold macroArgs
    rw [if_neg (by cases ds <;> simp_all)]
    cases d with
    | nil => exact absurd rfl hd
    | cons c d =>
      simp only [opt_cons, bind, M.bind, contentWithSuffix_ok.2 ha]
      have : macroArgs b (ds.map opt) r = .err k r' := e
      rw [this]
      exact ⟨_, rfl⟩

theorem macroArgs_total {b : Bool} : ∀ {ds : List Str} {s : Str}, (∀ p, macroArgs b (ds.map opt) s ≠ .panic p) →
    (∃ args r, ReadArgs b ds s args r) ∨ ∃ k, BadArgs b ds s k
  | [], s, _ => .inl ⟨_, _, .nil⟩
  | d :: ds, s, hp => by
    by_cases hl : ds = [] ∧ b = true
    · obtain ⟨rfl, rfl⟩ := hl
      by_cases hf : d ++ ['{'] <:+: s
      · obtain ⟨u, v, e⟩ := hf
        cases hs : macroArgs true ([d].map opt) s with
        | ok as r => exact .inl ⟨_, _, macroArgs_ok hs⟩
        | panic p => exact absurd hs (hp p)
        | err k r =>
          exfalso
          rw [List.map_cons, List.map_nil] at hs
          unfold macroArgs at hs
          have hq : bracePat (opt d) = d ++ c!"{" := by cases d <;> rfl
          rw [if_pos (by simp), hq] at hs
          obtain ⟨x, y, hxy⟩ := splitOnce_isSome (p := d ++ ['{']) (u := u) (v := v)
          rw [e] at hxy
          rw [hxy] at hs
          cases hs
      · exact .inr ⟨_, .last rfl fun u v e => hf ⟨u, v, by rw [e]; simp⟩⟩
    · have hb : ds = [] → b = false := fun h => by cases b <;> simp_all
      have hc : ¬ ((List.map opt ds).isEmpty && b) = true := by cases ds <;> simp_all
      rw [List.map_cons] at hp
      unfold macroArgs at hp
      rw [if_neg hc] at hp
      by_cases hd : d = []
      · subst hd
        simp only [opt, List.isEmpty_nil, if_true] at hp
        rcases any_total s with ⟨a, r, ha⟩ | ⟨k, hk⟩
        · obtain ⟨a', h3, h4⟩ := argument_of ha
          have hp1 := np_after h3 hp
          have hp2 : ∀ p, macroArgs b (ds.map opt) r ≠ .panic p := np_bind hp1
          rcases macroArgs_total hp2 with ⟨args, r', h⟩ | ⟨k, h⟩
          · exact .inl ⟨_, _, .plain hb ha h⟩
          · exact .inr ⟨_, .plainNext hb ha h⟩
        · exact .inr ⟨k, .plain hb hk⟩
      · obtain ⟨c, d, rfl⟩ := List.exists_cons_of_ne_nil hd
        simp only [opt_cons] at hp
        have hp0 : ∀ p, Lex.contentWithSuffix (c :: d) s ≠ .panic p := np_bind hp
        rcases delimited_total hp0 with ⟨a, r, ha⟩ | ⟨k, hk⟩
        · have hp1 := np_after (contentWithSuffix_ok.2 ha) hp
          have hp2 : ∀ p, macroArgs b (ds.map opt) r ≠ .panic p := np_bind hp1
          rcases macroArgs_total hp2 with ⟨args, r', h⟩ | ⟨k, h⟩
          · exact .inl ⟨_, _, .delimited hb hd ha h⟩
          · exact .inr ⟨_, .delimitedNext hb hd ha h⟩
        · exact .inr ⟨k, .delimited hb hd hk⟩

theorem commandArgs_eq : ∀ n, commandArgs n = macroArgs false ((List.replicate n ([] : Str)).map opt)
  | 0 => rfl
  | n + 1 => by
    funext s
    rw [List.replicate_succ, List.map_cons]
    unfold macroArgs commandArgs
    rw [if_neg (by simp), commandArgs_eq n]
    rfl

/-! ### Calls -/

theorem finish_of {repl : List RTok} {n : Nat} {rt r body : Str} {input : Str} {args : List Str} {m : Res Str (List XArg)} (hr : parseReplacement rt n = .ok repl)
    (h : ∃ as, m = .ok as r ∧ as.map XArg.render = args) (hs : Subst args rt body) : ∃ k, finish input repl m = .ok (body ++ r) k := by
  obtain ⟨as, h1, h2⟩ := h
  exact ⟨_, (finish_ok (parseReplacement_ok hr)).2 ⟨as, r, body, h1, by rw [h2]; exact hs, rfl, rfl⟩⟩

theorem finish_total {repl : List RTok} {n : Nat} {rt : Str} {input : Str} {m : Res Str (List XArg)} (hr : parseReplacement rt n = .ok repl)
    (hp : ∀ p, finish input repl m ≠ .panic p) : (∀ p, m ≠ .panic p) ∧ ∀ as r, m = .ok as r → ∃ body, Subst (as.map XArg.render) rt body := by
  refine ⟨?_, ?_⟩
  · rintro p rfl
    exact hp p rfl
  · rintro as r rfl
    cases h : finish input repl (.ok as r) with
    | panic p => exact absurd h (hp p)
    | err e =>
      unfold finish at h
      dsimp only at h
      split at h <;> cases h
    | ok t k =>
      obtain ⟨as', r', body, h1, h2, -, -⟩ := (finish_ok (parseReplacement_ok hr)).1 h
      cases h1
      exact ⟨body, h2⟩

theorem optional_of {g : Option Str} (h : MaybeOptional s g r) : Lex.optionalArgument s = .ok g r := by
  cases h with
  | given h => exact bracketed_iff.2 h
  | absent h => exact noOptional_iff.2 h

theorem opt_some {p : Str} (h : p ≠ []) : opt p = some p := by
  cases p with
  | nil => exact absurd rfl h
  | cons c d => exact opt_cons c d

/-- After the prefix. -/
theorem expand_prefix {pre : Str} {ps : List (Option Str)} {b : Bool} {repl : List RTok} :
    expandDefinition cf (.macro_ ⟨opt pre, ps, b, repl⟩) (pre ++ s) = finish (pre ++ s) repl (macroArgs b ps s) := by
  unfold expandDefinition
  cases pre with
  | nil => rfl
  | cons c d =>
    rw [opt_cons]
    dsimp only
    have : stripPrefix (c :: d) (c :: d ++ s) = some s := stripPrefix_some.2 rfl
    rw [this]

theorem expand_noPrefix {pre : Str} {ps : List (Option Str)} {b : Bool} {repl : List RTok} (h : ∀ u, s ≠ pre ++ u) :
    expandDefinition cf (.macro_ ⟨opt pre, ps, b, repl⟩) s = .err .incorrectMacroPrefix := by
  unfold expandDefinition
  cases pre with
  | nil => exact absurd rfl (h s)
  | cons c d =>
    rw [opt_cons]
    dsimp only
    cases hs : stripPrefix (c :: d) s with
    | none => rfl
    | some u => exact absurd (stripPrefix_some.1 hs) (h u)

theorem expand_default {n : Nat} {dflt : Str} {repl : List RTok} {g : Option Str} {u : Str} (h : MaybeOptional s g u) :
    expandDefinition cf (.command ⟨n + 1, some dflt, repl⟩) s =
      finish s repl ((do let as ← commandArgs n; return XArg.arg (.group (g.getD dflt)) :: as : M Str (List XArg)) u) := by
  unfold expandDefinition
  simp only [Nat.add_eq_zero_iff, Nat.one_ne_zero, and_false, decide_false, Bool.false_and, Bool.false_eq_true, if_false, Nat.add_sub_cancel]
  rw [M.bind_ok (optional_of h)]

theorem expand_exact {d : Spec.MacroDef} {df : Definition} (hk : Keeps d df) :
    (∀ u, Calls d s u → ∃ k, expandDefinition cf df s = .ok u k) ∧ (∀ k, BadCall d s k → expandDefinition cf df s = .err k) ∧
    (cf.overflowChecks = true → (∀ p, expandDefinition cf df s ≠ .panic p) → (∃ u, Calls d s u) ∨ ∃ k, BadCall d s k) := by
  cases hk with
  | @plain pre ds b rt repl hr =>
    refine ⟨fun u h => ?_, fun k h => ?_, fun ho hp => ?_⟩
    · cases h with
      | plain h1 h2 => rw [expand_prefix]; exact finish_of hr (macroArgs_of h1) h2
    · cases h with
      | prefix_ h => exact expand_noPrefix h
      | plain h =>
        rw [expand_prefix]
        obtain ⟨r, e⟩ := macroArgs_bad h
        rw [e]
        rfl
    · by_cases hs : ∃ u, s = pre ++ u
      · obtain ⟨u, rfl⟩ := hs
        rw [expand_prefix] at hp
        obtain ⟨hp1, hp2⟩ := finish_total hr hp
        rcases macroArgs_total hp1 with ⟨args, r, h⟩ | ⟨k, h⟩
        · obtain ⟨as, h1, h2⟩ := macroArgs_of h
          obtain ⟨body, h3⟩ := hp2 _ _ h1
          rw [h2] at h3
          exact .inl ⟨_, .plain h h3⟩
        · exact .inr ⟨k, .plain h⟩
      · exact .inr ⟨_, .prefix_ fun u e => hs ⟨u, e⟩⟩
  | @command n dflt rt repl hr =>
    cases dflt with
    | none =>
      have e0 : expandDefinition cf (.command ⟨n, none, repl⟩) s = finish s repl (commandArgs n s) := rfl
      rw [e0]
      refine ⟨fun u h => ?_, fun k h => ?_, fun ho hp => ?_⟩
      · cases h with
        | command h1 h2 => exact finish_of hr (commandArgs_of h1) h2
      · cases h with
        | command h =>
          obtain ⟨r, e⟩ := macroArgs_bad h
          rw [commandArgs_eq, e]
          rfl
      · obtain ⟨hp1, hp2⟩ := finish_total hr hp
        rw [commandArgs_eq] at hp1
        rcases macroArgs_total hp1 with ⟨args, r, h⟩ | ⟨k, h⟩
        · obtain ⟨as, h1, h2⟩ := commandArgs_of h
          obtain ⟨body, h3⟩ := hp2 _ _ h1
          rw [h2] at h3
          exact .inl ⟨_, .command h h3⟩
        · exact .inr ⟨k, .command h⟩
    | some dflt =>
      cases n with
      | zero =>
        refine ⟨fun u h => (by cases h), fun k h => (by cases h), fun ho hp => ?_⟩
        obtain ⟨g, u, hg⟩ := optional_total s
        refine absurd ?_ (hp .overflow)
        unfold expandDefinition
        dsimp only
        rw [M.bind_ok (optional_of hg)]
        simp [ho, finish]
      | succ n =>
        refine ⟨fun u h => ?_, fun k h => ?_, fun ho hp => ?_⟩
        · cases h with
          | default h0 h1 h2 =>
            rw [expand_default h0]
            obtain ⟨as, e1, e2⟩ := commandArgs_of h1
            refine finish_of hr ⟨_, M.bind_ok e1, ?_⟩ h2
            rw [List.map_cons, e2]
            rfl
        · cases h with
          | default h0 h1 =>
            rw [expand_default h0]
            obtain ⟨r, e⟩ := macroArgs_bad h1
            rw [M.run_bind, commandArgs_eq, e]
            rfl
        · obtain ⟨g, u, hg⟩ := optional_total s
          rw [expand_default hg] at hp
          obtain ⟨hp1, hp2⟩ := finish_total hr hp
          have hp3 := np_bind hp1
          rw [commandArgs_eq] at hp3
          rcases macroArgs_total hp3 with ⟨args, r, h⟩ | ⟨k, h⟩
          · obtain ⟨as, h1, h2⟩ := commandArgs_of h
            obtain ⟨body, h3⟩ := hp2 _ _ (M.bind_ok h1)
            rw [List.map_cons, h2] at h3
            exact .inl ⟨_, .default hg h h3⟩
          · exact .inr ⟨k, .default hg h⟩
  | @«alias» x =>
    have e : expandDefinition cf (aliasOf x) s = .ok (x.text ++ s) 0 := by
      cases x <;> rfl
    rw [e]
    exact ⟨fun u h => (by cases h; exact ⟨0, rfl⟩), fun k h => (by cases h), fun _ _ => .inl ⟨_, .alias⟩⟩

/-! ### Elements that may be calls -/

/-- The outcome `o` of the parser is the effect. -/
def Ended {α : Type} (cf : Cfg) (o : Res PSt α) : Effect → Prop
  | .right _ r Δ => ∃ a h' sp', o = .ok a ⟨h', sp'⟩ ∧ h'.content.cs = r ∧ Stores cf h'.macros Δ
  | .wrong k => ∃ h' sp', o = .err k ⟨h', sp'⟩

theorem Done.ended {α : Type} {o : Res PSt α} {e : Effect} {sp : Spans} (h : Done cf sp o e) : Ended cf o e := by
  cases e with
  | wrong k => obtain ⟨h', e⟩ := h; exact ⟨h', sp, e⟩
  | right m r Δ => obtain ⟨a, h', e, h1⟩ := h; exact ⟨a, h', sp, e, h1⟩

/-- The text of a macro takes the place of its call. -/
def called (h : HSt) (id : Nat) (u : Str) : HSt := { h with content := ⟨id, blen u, u⟩ }

variable {h : HSt} {sp : Spans} {n : Nat} {name t : Str} {d : Spec.MacroDef}

theorem call_token (hx : NextTok s (.cs name) t) : token s = .ok (.cs name) t := by
  obtain ⟨tk, h1, h2⟩ := nextTok_iff.1 hx
  cases tk with
  | chr => cases h2
  | cs m => cases h2; exact h1

theorem call_ok {u : Str} {c : Nat} (hx : NextTok h.content.cs (.cs name) t) (hu : tryExpand cf h.macros name t = some (.ok u c)) :
    (∃ st, parseLoop cf (n + 1) ⟨h, sp⟩ = .err .macroRecursionLimit st) ∨ parseLoop cf (n + 1) ⟨h, sp⟩ = .panic .assertion ∨
    ∃ id sp', parseLoop cf (n + 1) ⟨h, sp⟩ = parseLoop cf n ⟨called h id u, sp'⟩ := by
  generalize hq : parseLoop cf n = q
  rw [parseLoop, hq]
  simp only [call_token hx, hu]
  split
  · exact .inl ⟨_, rfl⟩
  · split
    · exact .inr (.inl rfl)
    · exact .inr (.inr ⟨_, _, rfl⟩)

theorem call_bad (hx : NextTok h.content.cs (.cs name) t) (hu : tryExpand cf h.macros name t = some (.err k)) :
    (∃ st, parseLoop cf (n + 1) ⟨h, sp⟩ = .err .macroRecursionLimit st) ∨ ∃ h' sp', parseLoop cf (n + 1) ⟨h, sp⟩ = .err k ⟨h', sp'⟩ := by
  generalize hq : parseLoop cf n = q
  rw [parseLoop, hq]
  simp only [call_token hx, hu]
  split
  · exact .inl ⟨_, rfl⟩
  · exact .inr ⟨_, _, rfl⟩

theorem call_panic {p : Panic} (hx : NextTok h.content.cs (.cs name) t) (hu : tryExpand cf h.macros name t = some (.panic p)) :
    parseLoop cf (n + 1) ⟨h, sp⟩ = .panic p := by
  generalize hq : parseLoop cf n = q
  rw [parseLoop, hq]
  simp only [call_token hx, hu]

theorem Stores.expands (hS : Stores cf h.macros Δ) (hd : Δ name = some d) (t : Str) :
    ∃ df, Keeps d df ∧ tryExpand cf h.macros name t = some (expandDefinition cf df t) := by
  obtain ⟨df, h1, h2⟩ := (hS name).2.2 d hd
  refine ⟨df, h2, ?_⟩
  unfold tryExpand
  rw [h1]
  rfl

theorem acts_sound {e : Effect} (he : Acts T Δ s e) : ∀ (n : Nat) (h : HSt) (sp : Spans), h.content.cs = s → Fresh T h → Stores cf h.macros Δ →
    Ended cf (parseLoop cf n ⟨h, sp⟩) e ∨ (∃ st, parseLoop cf n ⟨h, sp⟩ = .err .macroRecursionLimit st) ∨
    ∃ p, parseLoop cf n ⟨h, sp⟩ = .panic p ∧ (p = .fuel ∨ p = .assertion) := by
  induction he with
  | here hm =>
    intro n h sp hc hF hS
    cases n with
    | zero => exact .inr (.inr ⟨_, rfl, .inl rfl⟩)
    | succ n =>
      subst hc
      exact .inl (element_sound hF hS hm).ended
  | call hx hd hu _ ih =>
    intro n h sp hc hF hS
    cases n with
    | zero => exact .inr (.inr ⟨_, rfl, .inl rfl⟩)
    | succ n =>
      subst hc
      obtain ⟨df, hk, e⟩ := hS.expands hd _
      obtain ⟨c, e'⟩ := (expand_exact (cf := cf) hk).1 _ hu
      rw [e'] at e
      rcases call_ok (n := n) (sp := sp) hx e with h1 | h1 | ⟨id, sp', h1⟩
      · exact .inr (.inl h1)
      · exact .inr (.inr ⟨_, h1, .inr rfl⟩)
      · rw [h1]
        exact ih n (called h id _) sp' rfl ⟨hF.mods, hF.skip, hF.harg, hF.room⟩ hS
  | badCall hx hd hb =>
    intro n h sp hc hF hS
    cases n with
    | zero => exact .inr (.inr ⟨_, rfl, .inl rfl⟩)
    | succ n =>
      subst hc
      obtain ⟨df, hk, e⟩ := hS.expands hd _
      rw [(expand_exact (cf := cf) hk).2.1 _ hb] at e
      rcases call_bad (n := n) (sp := sp) hx e with h1 | h1
      · exact .inr (.inl h1)
      · exact .inl h1

theorem acts_total (ho : cf.overflowChecks = true) : ∀ (n : Nat) (h : HSt) (sp : Spans), Fresh T h → Stores cf h.macros Δ →
    (∀ p, parseLoop cf n ⟨h, sp⟩ ≠ .panic p) → (∃ e, Acts T Δ h.content.cs e) ∨ ∃ st, parseLoop cf n ⟨h, sp⟩ = .err .macroRecursionLimit st
  | 0, h, sp, _, _, hp => absurd rfl (hp .fuel)
  | n + 1, h, sp, hF, hS, hp => by
    by_cases hx : ∀ x t, NextTok h.content.cs x t → Δ.Free x
    · obtain ⟨e, h1⟩ := element_total hF hS hx ho hp
      exact .inl ⟨e, .here h1⟩
    · obtain ⟨x, t, hx, name, rfl, d, hd⟩ : ∃ x t, NextTok h.content.cs x t ∧ ∃ name, x = .cs name ∧ ∃ d, Δ name = some d := by
        simp only [not_forall] at hx
        obtain ⟨x, t, h1, h2⟩ := hx
        refine ⟨x, t, h1, ?_⟩
        unfold Known.Free at h2
        simp only [not_forall] at h2
        obtain ⟨name, h3, h4⟩ := h2
        exact ⟨name, h3, Option.ne_none_iff_exists'.1 h4⟩
      obtain ⟨df, hk, e⟩ := hS.expands hd t
      have hp' : ∀ p, expandDefinition cf df t ≠ .panic p := by
        intro p e'
        rw [e'] at e
        exact hp p (call_panic hx e)
      rcases (expand_exact (cf := cf) hk).2.2 ho hp' with ⟨u, hu⟩ | ⟨k, hk'⟩
      · obtain ⟨c, e'⟩ := (expand_exact (cf := cf) hk).1 _ hu
        rw [e'] at e
        rcases call_ok (n := n) (sp := sp) hx e with h1 | h1 | ⟨id, sp', h1⟩
        · exact .inr h1
        · exact absurd h1 (hp _)
        · rw [h1] at hp ⊢
          rcases acts_total ho n (called h id u) sp' ⟨hF.mods, hF.skip, hF.harg, hF.room⟩ hS hp with ⟨e, h2⟩ | h2
          · exact .inl ⟨e, .call hx hd hu h2⟩
          · exact .inr h2
      · exact .inl ⟨_, .badCall hx hd hk'⟩

end PL.Formula
