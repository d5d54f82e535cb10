import Verif.Lemmas.Formula.Begin
import Verif.Lemmas.Formula.Definitions
set_option autoImplicit false
/-!
# Definitions: what can be wrong with them
-/
namespace PL.Formula
open PL PL.Lex PL.H Spec PL.Props PL.Macros

variable {cf : Cfg} {s r : Str} {k : ErrorKind} {n : Nat}

/-! ### Replacement texts -/

theorem bad_plain {u : Str} (hu : '#' ∉ u) (h : BadRepl n s k) : BadRepl n (u ++ s) k := by
  induction u with
  | nil => exact h
  | cons c u ih =>
    simp at hu
    exact .char (fun e => hu.1 e.symm) (ih hu.2)

theorem replLoop_bad : ∀ (fuel : Nat) (done : List RTok) (sp : List Str), Pieces sp → replLoop n fuel done sp = .error (.inl k) → BadRepl n sp.flatten k
  | 0, _, _, _, h => by cases h
  | fuel + 1, done, sp, hp, h => by
    cases sp with
    | nil => cases h
    | cons split more =>
      cases hp with
      | last hu =>
        unfold replLoop at h
        simp only at h
        split at h
        · cases h
        · split at h
          · cases h
          · rename_i h2
            simp at h2
            exact absurd (List.mem_of_getLast? h2) hu
      | @lastHash u hu =>
        unfold replLoop at h
        simp only at h
        rw [if_neg (by simp), if_neg (by simp)] at h
        cases h
        simpa using bad_plain hu .last
      | @cons u next more' hu hne hp' =>
        unfold replLoop at h
        simp only at h
        cases next with
        | nil => exact absurd rfl hne
        | cons first nextTail =>
          simp only at h
          simp only [List.flatten_cons, List.append_assoc, List.cons_append, List.nil_append]
          by_cases h1 : first = '#'
          · subst h1
            rw [if_pos rfl] at h
            obtain ⟨h2, h3⟩ : nextTail = [] ∧ Pieces more' := by
              generalize hy : ('#' :: nextTail) :: more' = y at hp'
              cases hp' with
              | nil => cases hy
              | last hu => cases hy; simp at hu
              | @lastHash v hv =>
                cases v with
                | nil => cases hy; exact ⟨rfl, .nil⟩
                | cons d v => cases hy; simp at hv
              | @cons v x xs hv h1 h2 =>
                cases v with
                | nil => cases hy; exact ⟨rfl, h2⟩
                | cons d v => cases hy; simp at hv
            subst h2
            exact bad_plain hu (.hash (replLoop_bad fuel _ more' h3 h))
          · rw [if_neg h1] at h
            by_cases h2 : isDigit first = true
            · rw [if_pos h2] at h
              obtain ⟨hd9, hd⟩ := digit_eq h2
              by_cases h3 : (digitVal first > n || digitVal first = 0) = true
              · simp only [h3, if_true] at h
                cases h
                refine bad_plain hu (.number h2 ?_)
                simp at h3
                rcases h3 with h3 | h3
                · exact .inr h3
                · left; rw [hd, h3]; rfl
              · simp only [h3] at h
                have := replLoop_bad fuel _ (nextTail :: more') (hp'.tail h1) h
                simp at h3
                refine bad_plain hu ?_
                rw [hd]
                exact .param (by omega) (by omega) hd9 (by simpa using this)
            · rw [if_neg h2] at h
              cases h
              exact bad_plain hu (.other h1 (by simpa using h2))

theorem badRepl_not {k : ErrorKind} (h : BadRepl n s k) : ¬ ReplText n s := by
  induction h with
  | last => intro h; cases h with | char h => exact h rfl
  | other h1 h2 =>
    intro h
    generalize hx : '#' :: _ :: _ = x at h
    cases h with
    | nil => cases hx
    | hash => cases hx; exact h1 rfl
    | param _ _ h3 => cases hx; rw [paramDigit_isDigit h3] at h2; cases h2
    | char h => cases hx; exact h rfl
  | @number c t h1 h2 =>
    intro h
    generalize hx : '#' :: _ :: _ = x at h
    cases h with
    | nil => cases hx
    | hash => cases hx; revert h1; decide
    | @param i _ h3 h4 h5 =>
      cases hx
      have := digitVal_paramDigit h5
      rcases h2 with h2 | h2
      · rw [h2] at this
        have : digitVal '0' = 0 := rfl
        omega
      · change n < digitVal (paramDigit i) at h2
        omega
    | char h => cases hx; exact h rfl
  | hash _ ih =>
    intro h
    generalize hx : '#' :: '#' :: _ = x at h
    cases h with
    | nil => cases hx
    | hash h => cases hx; exact ih h
    | param _ _ h3 =>
      injection hx with _ hx
      injection hx with hx _
      exact paramDigit_ne_hash h3 hx.symm
    | char h => cases hx; exact h rfl
  | @param i t _ h1 h2 h3 _ ih =>
    intro h
    generalize hx : '#' :: paramDigit i :: t = x at h
    cases h with
    | nil => cases hx
    | hash h =>
      injection hx with _ hx
      injection hx with hx _
      exact paramDigit_ne_hash h3 hx
    | param _ _ _ h =>
      injection hx with _ hx
      injection hx with _ hx
      exact ih (hx ▸ h)
    | char h => cases hx; exact h rfl
  | char h1 _ ih =>
    intro h
    cases h with
    | hash => exact h1 rfl
    | param => exact h1 rfl
    | char _ h => exact ih h

theorem badRepl_det {k k' : ErrorKind} (h : BadRepl n s k) : BadRepl n s k' → k = k' := by
  have notHash : isDigit '#' = false := by decide
  induction h with
  | last => intro h; cases h with
    | last => rfl
    | char h => exact absurd rfl h
  | other h1 h2 =>
    intro h
    generalize hx : '#' :: _ :: _ = x at h
    cases h with
    | last => cases hx
    | other => rfl
    | number h3 => cases hx; rw [h2] at h3; cases h3
    | hash => cases hx; exact absurd rfl h1
    | param _ _ h3 => cases hx; rw [paramDigit_isDigit h3] at h2; cases h2
    | char h => cases hx; exact absurd rfl h
  | @number c t h1 h2 =>
    intro h
    generalize hx : '#' :: _ :: _ = x at h
    cases h with
    | last => cases hx
    | other _ h3 => cases hx; rw [h1] at h3; cases h3
    | number h3 => cases hx; rfl
    | hash => cases hx; rw [notHash] at h1; cases h1
    | @param i _ _ h3 h4 h5 =>
      cases hx
      have := digitVal_paramDigit h5
      rcases h2 with h2 | h2
      · rw [h2] at this
        have : digitVal '0' = 0 := rfl
        omega
      · change n < digitVal (paramDigit i) at h2
        omega
    | char h => cases hx; exact absurd rfl h
  | hash _ ih =>
    intro h
    generalize hx : '#' :: '#' :: _ = x at h
    cases h with
    | last => cases hx
    | other h3 => cases hx; exact absurd rfl h3
    | number h3 => cases hx; rw [notHash] at h3; cases h3
    | hash h => cases hx; exact ih h
    | param _ _ h3 =>
      injection hx with _ hx
      injection hx with hx _
      exact absurd hx.symm (paramDigit_ne_hash h3)
    | char h => cases hx; exact absurd rfl h
  | @param i t _ h1 h2 h3 _ ih =>
    intro h
    generalize hx : '#' :: paramDigit i :: t = x at h
    cases h with
    | last => cases hx
    | other _ h4 => cases hx; rw [paramDigit_isDigit h3] at h4; cases h4
    | @number c _ h4 h5 =>
      injection hx with _ hx
      injection hx with hx _
      subst hx
      have := digitVal_paramDigit h3
      rcases h5 with h2 | h2
      · rw [h2] at this
        have : digitVal '0' = 0 := rfl
        omega
      · change n < digitVal (paramDigit i) at h2
        omega
    | hash h =>
      injection hx with _ hx
      injection hx with hx _
      exact absurd hx (paramDigit_ne_hash h3)
    | param _ _ _ h =>
      injection hx with _ hx
      injection hx with _ hx
      exact ih (hx ▸ h)
    | char h => cases hx; exact absurd rfl h
  | char h1 _ ih =>
    intro h
    cases h with
    | last => exact absurd rfl h1
    | other => exact absurd rfl h1
    | number => exact absurd rfl h1
    | hash => exact absurd rfl h1
    | param => exact absurd rfl h1
    | char _ h => exact ih h

theorem repl_cases (n : Nat) (s : Str) : (∃ t, parseReplacement s n = .ok t) ∧ ReplText n s ∨ ∃ k, parseReplacement s n = .error (.inl k) ∧ BadRepl n s k := by
  have h := parseReplacement_spec s n
  cases e : parseReplacement s n with
  | ok t => exact .inl ⟨⟨t, rfl⟩, parseReplacement_iff.1 ⟨t, e⟩⟩
  | error x =>
    cases x with
    | inl k =>
      refine .inr ⟨k, rfl, ?_⟩
      have := replLoop_bad _ _ _ (splitInclusive_pieces s) e
      rwa [splitInclusive_flatten] at this
    | inr p => rw [e] at h; exact h.elim

theorem badRepl_parse (h : BadRepl n s k) : parseReplacement s n = .error (.inl k) := by
  rcases repl_cases n s with ⟨-, h'⟩ | ⟨k', h1, h2⟩
  · exact absurd h' (badRepl_not h)
  · rw [badRepl_det h h2]; exact h1

/-! ### Parameter texts -/

theorem badParams_parse {i : Nat} (h : BadParams i s k) : i ≤ 10 → ∀ {u : Str}, '#' ∉ u →
    ∃ args, splitHash (u ++ s) = u :: args ∧ parseParams i args = .error k := by
  induction h with
  | last => intro _ u hu; exact ⟨_, splitHash_hash hu [], rfl⟩
  | @other i c t h1 =>
    intro _ u hu
    refine ⟨_, splitHash_hash hu (c :: t), ?_⟩
    obtain ⟨x, xs, e, -⟩ := splitHash_spec t
    unfold splitHash
    split
    · rfl
    · rw [e]
      simp only
      unfold parseParams
      simp only [h1]
      rfl
  | @number i c t h1 h2 =>
    intro hi u hu
    refine ⟨_, splitHash_hash hu (c :: t), ?_⟩
    obtain ⟨x, xs, e, -⟩ := splitHash_spec t
    unfold splitHash
    rw [if_neg (by rintro rfl; revert h1; decide), e]
    simp only
    unfold parseParams
    have h3 : 48 ≤ c.toNat := by
      unfold isDigit at h1
      simp only [Bool.and_eq_true, decide_eq_true_eq] at h1
      exact h1.1
    simp only [h1, if_true]
    rw [if_pos (by unfold digitVal; rw [Nat.mod_eq_of_lt (by omega)]; omega), Nat.mod_eq_of_lt (by omega)]
    rfl
  | @later i d t k h1 h2 _ ih =>
    intro hi u hu
    have hpd : '#' ∉ paramDigit i :: d := by
      simp [h2]; exact fun e => paramDigit_ne_hash h1 e.symm
    obtain ⟨args, e1, e2⟩ := ih (by omega) hpd
    refine ⟨(paramDigit i :: d) :: args, ?_, ?_⟩
    · rw [splitHash_hash hu, ← e1]; rfl
    · unfold parseParams
      simp only [paramDigit_isDigit h1, if_true, digitVal_paramDigit h1, e2]
      rw [if_neg (by rw [Nat.mod_eq_of_lt (by omega)]; simp)]

theorem parseParams_bad {args : List Str} (hh : ∀ y ∈ args, '#' ∉ y) : ∀ {i : Nat}, i ≤ 10 →
    parseParams i args = .error k → BadParams i (args.map ('#' :: ·)).flatten k := by
  induction args with
  | nil => intro i _ h; cases h
  | cons a args ih =>
    intro i hi h
    simp only [List.map_cons, List.flatten_cons, List.cons_append]
    unfold parseParams at h
    cases a with
    | nil =>
      cases h
      cases args with
      | nil => exact .last
      | cons b args => exact .other (by decide)
    | cons c suffix =>
      simp only at h
      split at h
      · rename_i hd
        obtain ⟨h9, hc⟩ := digit_eq hd
        split at h
        · rename_i hv
          cases h
          rw [Nat.mod_eq_of_lt (by omega)] at hv ⊢
          refine .number hd ?_
          intro e
          apply hv
          unfold digitVal
          omega
        · rename_i hv
          rw [Nat.mod_eq_of_lt (by omega)] at hv
          simp at hv
          split at h
          · cases h
          · rename_i e hp
            cases h
            have := hh (c :: suffix) (by simp)
            simp at this
            rw [hc, hv]
            exact .later (by omega) this.2 (ih (fun y hy => hh y (by simp [hy])) (by omega) hp)
      · rename_i hd
        cases h
        exact .other (by simpa using hd)

theorem define_badParams {D : Ctx} {name pt rt : Str} (h : BadParamText pt k) : define D name pt rt = .error (.inl k) := by
  cases h with
  | @plain pre t k h1 h2 h3 =>
    obtain ⟨args, e1, e2⟩ := badParams_parse h2 (by omega) h1
    unfold define
    have h3' : ¬ (pre ++ t).getLast? = some '#' := h3
    simp only [h3', if_false, e1, e2]
  | @brace pre t k h1 h2 =>
    obtain ⟨args, e1, e2⟩ := badParams_parse h2 (by omega) h1
    unfold define
    simp only [List.getLast?_append, List.getLast?_singleton, Option.some_or, if_true, List.dropLast_concat, e1, e2]

theorem define_badRepl {D : Ctx} {name pt rt pre : Str} {ds : List Str} {b : Bool} (h : DefText pt pre ds b) (h' : BadRepl ds.length rt k) :
    define D name pt rt = .error (.inl k) := by
  rw [define_of h, badRepl_parse h']

theorem params_total (pt : Str) : (∃ pre ds b, DefText pt pre ds b) ∨ ∃ k, BadParamText pt k := by
  by_cases hl : pt.getLast? = some '#'
  · obtain ⟨t, rfl⟩ : ∃ t, pt = t ++ ['#'] := by
      obtain ⟨t, e⟩ := List.getLast?_eq_some_iff.1 hl
      exact ⟨t, e⟩
    obtain ⟨pre, args, h1, h2, h3, h4⟩ := splitHash_spec t
    rw [h4]
    cases e : parseParams 1 args with
    | ok ps =>
      obtain ⟨ds, hd, -⟩ := parseParams_ok h3 (by omega) e
      exact .inl ⟨_, _, _, .brace h2 hd⟩
    | error k => exact .inr ⟨k, .brace h2 (parseParams_bad h3 (by omega) e)⟩
  · obtain ⟨pre, args, h1, h2, h3, h4⟩ := splitHash_spec pt
    rw [h4] at hl ⊢
    cases e : parseParams 1 args with
    | ok ps =>
      obtain ⟨ds, hd, -⟩ := parseParams_ok h3 (by omega) e
      exact .inl ⟨_, _, _, .plain h2 hd⟩
    | error k => exact .inr ⟨k, .plain h2 (parseParams_bad h3 (by omega) e) hl⟩

/-! ### Names -/

theorem noCs_err (h : NoCs s k) : ∃ r, controlSequence s = .err k r := by
  cases h with
  | nothing => exact ⟨_, rfl⟩
  | backslash => exact ⟨_, rfl⟩
  | char h => exact ⟨_, (C14_fail _ _ _).2 (.inr (.inr ⟨_, _, rfl, h, rfl, rfl⟩))⟩

theorem cs_total (s : Str) : (∃ g name u, s = '\\' :: g ∧ CsName g name u) ∨ ∃ k, NoCs s k := by
  cases h : controlSequence s with
  | ok name r =>
    obtain ⟨g, u, h1, h2, -⟩ := cs_start h
    exact .inl ⟨g, name, u, h1, h2⟩
  | err e r =>
    rcases (C14_fail _ _ _).1 h with ⟨rfl, -⟩ | ⟨rfl, -⟩ | ⟨c, t, rfl, hc, -⟩
    · exact .inr ⟨_, .nothing⟩
    · exact .inr ⟨_, .backslash⟩
    · exact .inr ⟨_, .char hc⟩
  | panic p => exact absurd h (C14_no_panic _ _)

theorem cs_of {g name u : Str} (h : CsName g name u) : controlSequence ('\\' :: g) = .ok name (trimStart u) := (C14_name _ _ _).2 ⟨_, h, rfl⟩

/-! ### `\def` -/

theorem trimStart_mid {p t : Str} {c : Char} (hc : isWs c = false) : trimStart (p ++ c :: t) = trimStart p ++ c :: t := by
  obtain ⟨w, hw, e⟩ := trimStart_spec p
  have e' : p ++ c :: t = w ++ (trimStart p ++ c :: t) := by rw [← List.append_assoc, ← e]
  rw [e', trimStart_ws_append hw]
  refine trimStart_eq_self ?_
  intro d v hd
  cases hp : trimStart p with
  | nil => rw [hp] at hd; cases hd; exact hc
  | cons x y => rw [hp] at hd; cases hd; exact trimStart_head hp

theorem trimStart_mem {p : Str} {c : Char} (h : c ∉ p) : c ∉ trimStart p := by
  obtain ⟨w, -, e⟩ := trimStart_spec p
  intro hm
  apply h
  rw [e]
  simp [hm]

theorem definition_unfold {g name u : Str} (h : CsName g name u) : definition ('\\' :: g) =
    (match splitOnce c!"{" (trimStart u) with
      | none => M.fail .missingExpansion
      | some (paramText, rest) =>
        match paramText.find? (fun c => c == '%' || c == '}') with
        | some c => M.fail (if c = '%' then .commentInParamText else .bracesInParamText)
        | none => do
          M.set rest
          let repl ← Lex.groupContent .normal
          return (name, paramText, repl) : L (Str × Str × Str)) (trimStart u) := by
  unfold definition
  rw [M.bind_ok (cs_of h), M.get_bind]
  rfl

theorem find_first {p q : Str} {c : Char} (h1 : '%' ∉ p) (h2 : '}' ∉ p) (hc : c = '%' ∨ c = '}') :
    (p ++ c :: q).find? (fun c => c == '%' || c == '}') = some c := by
  rw [List.find?_append, List.find?_eq_none.2]
  · simp [hc]
  · intro x hx
    simp only [Bool.or_eq_true, beq_iff_eq, not_or]
    exact ⟨fun e => h1 (e ▸ hx), fun e => h2 (e ▸ hx)⟩

theorem find_none {p : Str} (h1 : '%' ∉ p) (h2 : '}' ∉ p) : p.find? (fun c => c == '%' || c == '}') = none := by
  rw [List.find?_eq_none]
  intro x hx
  simp only [Bool.or_eq_true, beq_iff_eq, not_or]
  exact ⟨fun e => h1 (e ▸ hx), fun e => h2 (e ▸ hx)⟩

theorem split_brace {p t : Str} (h : '{' ∉ p) : splitOnce c!"{" (trimStart (p ++ '{' :: t)) = some (trimStart p, t) := by
  rw [trimStart_mid (by decide)]
  exact splitOnce_char_eq (trimStart_mem h)

theorem definition_mid {g name p q t : Str} {c : Char} (h : CsName g name (p ++ c :: (q ++ '{' :: t))) (hw : isWs c = false) (hp : '{' ∉ p) (hq : '{' ∉ q) (h1 : '%' ∉ p)
    (h2 : '}' ∉ p) (hc : c = '%' ∨ c = '}') : ∃ r, definition ('\\' :: g) = .err (if c = '%' then .commentInParamText else .bracesInParamText) r := by
  rw [definition_unfold h]
  have e : p ++ c :: (q ++ '{' :: t) = (p ++ c :: q) ++ '{' :: t := by simp
  have hne : '{' ≠ c := by rcases hc with rfl | rfl <;> decide
  rw [e, split_brace (by simp [hp, hq, hne])]
  dsimp only
  rw [trimStart_mid hw, find_first (trimStart_mem h1) (trimStart_mem h2) hc]
  exact ⟨_, rfl⟩

/-- What the handler of `\def` does. -/
def defArg : H PUnit := do
  let (name, params, repl) ← lex definition
  setSkip
  macros fun m => Macros.define m name params repl

theorem def_err {h : HSt} (hb : BadDef h.content.cs k) : Errs defArg h k := by
  unfold defArg
  have early : (∃ r, definition h.content.cs = .err k r) → Errs (lex definition) h k := by
    rintro ⟨r, e⟩
    exact ⟨_, by unfold H.lex; rw [e]⟩
  generalize hs : h.content.cs = s at hb
  rw [hs] at early
  cases hb with
  | name hk =>
    obtain ⟨r, e⟩ := noCs_err hk
    exact (early ⟨_, by unfold definition; rw [M.run_bind, e]⟩).bind
  | missing hn hu =>
    refine (early ?_).bind
    · rw [definition_unfold hn, (splitOnce_none (by simp)).2]
      · exact ⟨_, rfl⟩
      · intro hi
        exact trimStart_mem hu (hi.subset (List.mem_singleton_self _))
  | comment hn h1 h2 h3 h4 => exact (early (definition_mid hn (by decide) h1 h2 h3 h4 (.inl rfl))).bind
  | brace hn h1 h2 h3 h4 => exact (early (definition_mid hn (by decide) h1 h2 h3 h4 (.inr rfl))).bind
  | @unclosed g name pt t hn h1 h2 h3 hu =>
    refine (early ?_).bind
    rw [definition_unfold hn, split_brace h1]
    dsimp only
    rw [find_none (trimStart_mem h2) (trimStart_mem h3)]
    dsimp only
    obtain ⟨r, e⟩ := unclosed_group (K := .normal) hu
    rw [M.set_bind, M.run_bind, e]
    exact ⟨_, rfl⟩
  | params hd hk =>
    refine .after (lex_of (by rw [hs]; exact definition_iff.2 hd)) ?_
    refine .after rfl ?_
    exact ⟨_, by unfold H.macros; dsimp only; rw [define_badParams hk]⟩
  | repl hd ht hk =>
    refine .after (lex_of (by rw [hs]; exact definition_iff.2 hd)) ?_
    refine .after rfl ?_
    exact ⟨_, by unfold H.macros; dsimp only; rw [define_badRepl ht hk]⟩

theorem defCommand_total (s : Str) : (∃ name pt rt r, DefCommand s name pt rt r) ∨ ∃ k, BadDef s k := by
  rcases cs_total s with ⟨g, name, u, rfl, hn⟩ | ⟨k, hk⟩
  · by_cases hb : '{' ∈ u
    · obtain ⟨p, t, rfl, hp⟩ := mem_first.1 hb
      by_cases hf : p.find? (fun c => c == '%' || c == '}') = none
      · rw [List.find?_eq_none] at hf
        have h1 : '%' ∉ p := fun hm => hf _ hm (by decide)
        have h2 : '}' ∉ p := fun hm => hf _ hm (by decide)
        by_cases hs : ∃ g r, Split ['{'] ['}'] 0 t g r
        · obtain ⟨rt, r, hs⟩ := hs
          obtain ⟨w, hw, e⟩ := trimStart_spec p
          refine .inl ⟨name, trimStart p, rt, r, g, w, t, rfl, ?_, hw, ?_, trimStart_mem hp, trimStart_mem h2, trimStart_mem h1, hs⟩
          · rw [← List.append_assoc, ← e]; exact hn
          · intro c v hv; exact trimStart_head hv
        · exact .inr ⟨_, .unclosed hn hp h1 h2 hs⟩
      · cases hc : p.find? (fun c => c == '%' || c == '}') with
        | none => exact absurd hc hf
        | some c =>
          obtain ⟨h1, a, q, rfl, h2⟩ := List.find?_eq_some_iff_append.1 hc
          simp at h1
          have h3 : '%' ∉ a := fun hm => by simpa using h2 _ hm
          have h4 : '}' ∉ a := fun hm => by simpa using h2 _ hm
          simp at hp
          rw [List.append_assoc] at hn
          rcases h1 with rfl | rfl
          · exact .inr ⟨_, .comment hn (by simp [hp]) (by simp [hp]) h3 h4⟩
          · exact .inr ⟨_, .brace hn (by simp [hp]) (by simp [hp]) h3 h4⟩
    · exact .inr ⟨_, .missing hn hb⟩
  · exact .inr ⟨k, .name hk⟩

theorem def_total (s : Str) : (∃ name pt rt r pre ds b, DefCommand s name pt rt r ∧ DefText pt pre ds b ∧ ReplText ds.length rt) ∨ ∃ k, BadDef s k := by
  rcases defCommand_total s with ⟨name, pt, rt, r, hd⟩ | h
  · rcases params_total pt with ⟨pre, ds, b, ht⟩ | ⟨k, hk⟩
    · rcases repl_cases ds.length rt with ⟨-, hr⟩ | ⟨k, -, hk⟩
      · exact .inl ⟨_, _, _, _, _, _, _, hd, ht, hr⟩
      · exact .inr ⟨k, .repl hd ht hk⟩
    · exact .inr ⟨k, .params hd hk⟩
  · exact .inr h

/-! ### `\let` and `\futurelet` -/

def letArg : H PUnit := do
  let (name, t) ← lex letAssignment
  setSkip
  macros fun m => .ok (m.assign name t)

def futureArg : H PUnit := do
  let (name, t, rest) ← lex futureletAssignment
  setSkip
  macros fun m => .ok (m.assign name t)
  M.modify fun s => { s with content := { s.content with cs := rest } }

theorem equals_strip {w v : Str} (hw : Spaces w) : stripPrefix c!"=" (trimStart (w ++ '=' :: v)) = some v := by
  rw [trimStart_ws_append hw, trimStart_eq_self (by intro c r e; cases e; decide)]
  exact stripPrefix_some.2 rfl

theorem let_err {h : HSt} (hb : BadLet h.content.cs k) : Errs letArg h k := by
  unfold letArg
  refine Errs.bind ?_
  suffices h' : ∃ r, letAssignment h.content.cs = .err k r by
    obtain ⟨r, e⟩ := h'
    exact ⟨_, by unfold H.lex; rw [e]⟩
  generalize h.content.cs = s at hb
  cases hb with
  | name hk =>
    obtain ⟨r, e⟩ := noCs_err hk
    exact ⟨_, by unfold letAssignment; rw [M.run_bind, e]⟩
  | equals hn hw hk =>
    obtain ⟨r, e⟩ := noTok_err hk
    refine ⟨r, ?_⟩
    unfold letAssignment
    rw [M.bind_ok (cs_of hn), M.get_bind, trimStart_twice, equals_strip hw]
    dsimp only
    rw [M.set_bind, M.run_bind, e]
  | @plain g name u k hn hw hk =>
    obtain ⟨r, e⟩ := noTok_err hk
    refine ⟨r, ?_⟩
    unfold letAssignment
    rw [M.bind_ok (cs_of hn), M.get_bind, trimStart_twice]
    have : stripPrefix c!"=" (trimStart u) = none := by
      rw [stripPrefix_none]
      intro v hv
      obtain ⟨w, hw', e⟩ := trimStart_spec u
      rw [hv] at e
      exact hw w v hw' e
    rw [this]
    dsimp only
    show (token >>= _) (trimStart u) = _
    rw [M.run_bind, token_trim, e]

theorem let_total (s : Str) : (∃ name x r, LetText s name x r) ∨ ∃ k, BadLet s k := by
  rcases cs_total s with ⟨g, name, u, rfl, hn⟩ | ⟨k, hk⟩
  · by_cases hw : ∃ w v, Spaces w ∧ u = w ++ '=' :: v
    · obtain ⟨w, v, hw, rfl⟩ := hw
      rcases tok_total v with ⟨x, t, hx⟩ | ⟨k, hk⟩
      · exact .inl ⟨_, _, _, .equals hn hw hx⟩
      · exact .inr ⟨_, .equals hn hw hk⟩
    · have hw' : ∀ w v, Spaces w → u ≠ w ++ '=' :: v := fun w v h e => hw ⟨w, v, h, e⟩
      rcases tok_total u with ⟨x, t, hx⟩ | ⟨k, hk⟩
      · exact .inl ⟨_, _, _, .plain hn hw' hx⟩
      · exact .inr ⟨_, .plain hn hw' hk⟩
  · exact .inr ⟨k, .name hk⟩

theorem future_err {h : HSt} (hb : BadFuture h.content.cs k) : Errs futureArg h k := by
  unfold futureArg
  refine Errs.bind ?_
  suffices h' : ∃ r, futureletAssignment h.content.cs = .err k r by
    obtain ⟨r, e⟩ := h'
    exact ⟨_, by unfold H.lex; rw [e]⟩
  generalize h.content.cs = s at hb
  cases hb with
  | name hk =>
    obtain ⟨r, e⟩ := noCs_err hk
    exact ⟨_, by unfold futureletAssignment; rw [M.run_bind, e]⟩
  | first hn hk =>
    obtain ⟨r, e⟩ := noTok_err hk
    refine ⟨r, ?_⟩
    unfold futureletAssignment
    rw [M.bind_ok (cs_of hn), M.get_bind, M.run_bind, token_trim, e]
  | second hn hx hk =>
    obtain ⟨r, e⟩ := noTok_err hk
    obtain ⟨t, ht, -⟩ := nextTok_iff.1 hx
    refine ⟨r, ?_⟩
    unfold futureletAssignment
    rw [M.bind_ok (cs_of hn), M.get_bind, M.run_bind, token_trim, ht]
    dsimp only
    rw [M.run_bind, e]

theorem future_total (s : Str) : (∃ name x r, FutureText s name x r) ∨ ∃ k, BadFuture s k := by
  rcases cs_total s with ⟨g, name, u, rfl, hn⟩ | ⟨k, hk⟩
  · rcases tok_total u with ⟨x, t, hx⟩ | ⟨k, hk⟩
    · rcases tok_total t with ⟨y, v, hy⟩ | ⟨k, hk⟩
      · obtain ⟨w, hw, e⟩ := trimStart_spec u
        refine .inl ⟨name, y, trimStart u, .mk (w := w) (by rw [← e]; exact hn) hw (fun c r h => trimStart_head h) (x1 := x) (u2 := t) ?_ hy⟩
        obtain ⟨tk, h1, h2⟩ := nextTok_iff.1 hx
        exact nextTok_iff.2 ⟨tk, by rw [token_trim]; exact h1, h2⟩
      · exact .inr ⟨_, .second hn hx hk⟩
    · exact .inr ⟨_, .first hn hk⟩
  · exact .inr ⟨k, .name hk⟩

/-! ### `\newcommand` -/

theorem byteText_iff {g : Str} {n : Nat} : ByteText g n ↔ parseU8 g = some n := by
  have main : ∀ ds : Str, (if ds.isEmpty || !ds.all isDigit then none else
      (if digitsVal 10 0 ds < 256 then some (digitsVal 10 0 ds) else none : Option Nat)) = some n ↔
      ds ≠ [] ∧ (∀ c ∈ ds, isDigit c = true) ∧ n = digitsVal 10 0 ds ∧ n < 256 := by
    intro ds
    by_cases h1 : ds = []
    · subst h1; simp
    by_cases h2 : ∀ c ∈ ds, isDigit c = true
    · rw [if_neg (by simpa [h1] using h2)]
      constructor
      · intro h
        split at h
        · cases h; exact ⟨h1, h2, rfl, by assumption⟩
        · cases h
      · rintro ⟨-, -, rfl, hn⟩
        rw [if_pos (by omega)]
    · rw [if_pos (by
        simp only [Bool.or_eq_true, Bool.not_eq_true', List.all_eq_false]
        simp only [Classical.not_forall] at h2
        obtain ⟨c, hc, hd⟩ := h2
        exact .inr ⟨c, hc, hd⟩)]
      simp only [h2, false_and, and_false]
      simp
  unfold parseU8 ByteText
  constructor
  · rintro ⟨ds, h, h1, h2, h3, h4⟩
    have := (main ds).2 ⟨h1, h2, h3, h4⟩
    rcases h with rfl | rfl
    · cases g with
      | nil => exact absurd rfl h1
      | cons c g =>
        by_cases hc : c = '+'
        · subst hc
          exact absurd (h2 '+' (by simp)) (by decide)
        · split
          · rename_i heq; cases heq; exact absurd rfl hc
          · exact this
    · exact this
  · intro h
    cases g with
    | nil => obtain ⟨h1, h2, h3, h4⟩ := (main []).1 h; exact absurd rfl h1
    | cons c g =>
      by_cases hc : c = '+'
      · subst hc
        obtain ⟨h1, h2, h3, h4⟩ := (main g).1 h
        exact ⟨g, .inr rfl, h1, h2, h3, h4⟩
      · dsimp only at h
        obtain ⟨h1, h2, h3, h4⟩ := (main (c :: g)).1 (by
          revert h
          split
          · rename_i heq; cases heq; exact absurd rfl hc
          · exact id)
        exact ⟨_, .inl rfl, h1, h2, h3, h4⟩

section
variable {D : Ctx} {Δ : Known} {should : Option Bool} {name : Str}

theorem contains_iff (hS : Stores cf D Δ) : D.contains name = true ↔ ∃ d, Δ name = some d := by
  have := (hS name).1
  unfold Ctx.contains
  cases h : Δ name with
  | none => rw [this.1 h]; simp
  | some d =>
    cases h' : D.get name with
    | none => rw [this.2 h'] at h; cases h
    | some x => simp

theorem contains_not (hS : Stores cf D Δ) : D.contains name = false ↔ Δ name = none := by
  cases h : Δ name with
  | none => simp; rw [Bool.eq_false_iff, Ne, contains_iff hS]; simp [h]
  | some d => simp; exact (contains_iff hS).2 ⟨d, h⟩

theorem refuses_of (hS : Stores cf D Δ) (h : Refuses Δ name should k) :
    (should.isSome && should != some (D.contains name)) = true ∧ k = if should = some true then .macroNotDefined else .macroAlreadyDefined := by
  cases h with
  | new hd => rw [(contains_iff hS).2 ⟨_, hd⟩]; exact ⟨rfl, rfl⟩
  | renew hd => rw [(contains_not hS).2 hd]; exact ⟨rfl, rfl⟩

theorem refuses_not (hS : Stores cf D Δ) (h : ∀ k, ¬ Refuses Δ name should k) : ¬ (should.isSome && should != some (D.contains name)) = true := by
  intro hc
  cases should with
  | none => cases hc
  | some b =>
    cases hk : D.contains name with
    | true =>
      cases b with
      | true => rw [hk] at hc; cases hc
      | false =>
        obtain ⟨d, hd⟩ := (contains_iff hS).1 hk
        exact h _ (.new hd)
    | false =>
      cases b with
      | false => rw [hk] at hc; cases hc
      | true => exact h _ (.renew ((contains_not hS).1 hk))

theorem onName {g name u : Str} {h : HSt} (e : controlSequence g = .ok name u) : onStr controlSequence g h = .ok name h := by
  unfold H.onStr; rw [e]

theorem new_start {h : HSt} (hn : Names h.content.cs name r) (hS : Stores cf h.macros Δ) (hr : ∀ k, ¬ Refuses Δ name should k) : newCommand should h = (do
    match ← optionalArgument with
    | none => M.fail .argument
    | some n =>
      match parseU8 n.cs with
      | none => M.fail .number
      | some argCount =>
        let default ← optionalArgument
        if argCount > 9 then M.fail .tooManyParams
        else
          let repl ← H.braceArgument
          let st ← M.get
          if st.macros.contains name && should.isNone then pure ⟨⟩
          else macros fun m => Macros.insertCommand m name argCount (default.map (·.cs)) repl.cs : H PUnit) (past h r) := by
  obtain ⟨g, u, h1, h2⟩ := names_iff.1 hn
  unfold newCommand
  rw [M.bind_ok (braceArgument_of (braceArgument_iff.1 h1)), show (h.content.part g 1 r).cs = g from rfl, M.bind_ok (onName h2), M.get_bind, if_neg (show ¬ (should.isSome && should != some ((past h r).macros.contains name)) = true from refuses_not hS hr)]
  rfl

theorem new_body {h : HSt} {g t u : Str} {n : Nat} {d : Option Str} (hn : Names h.content.cs name r) (hS : Stores cf h.macros Δ) (hr : ∀ k, ¬ Refuses Δ name should k)
    (hb : Bracketed r g t) (hg : ByteText g n) (h9 : n ≤ 9) (hd : MaybeOptional t d u) : newCommand should h = (do
      let repl ← H.braceArgument
      let st ← M.get
      if st.macros.contains name && should.isNone then pure ⟨⟩
      else macros fun m => Macros.insertCommand m name n d repl.cs : H PUnit) (past h u) := by
  rw [new_start hn hS hr, M.bind_ok (optionalArgument_some (h := past h r) hb)]
  dsimp only
  rw [show ∀ sl : Sl, (sl.part g 1 t).cs = g from fun _ => rfl, byteText_iff.1 hg]
  dsimp only
  obtain ⟨x, e, hx⟩ := maybeOptional_of (h := past (past h r) t) hd
  rw [M.bind_ok e, if_neg (by omega), hx]
  rfl

theorem new_err {h : HSt} (hS : Stores cf h.macros Δ) (hb : BadNew Δ should h.content.cs k) : Errs (newCommand should) h k := by
  cases hb with
  | group hk =>
    obtain ⟨r, e⟩ := noBraces_err hk
    unfold newCommand
    exact Errs.bind ⟨_, by unfold H.braceArgument; rw [e]⟩
  | @name g r k hg hk =>
    obtain ⟨r', e⟩ := noCs_err hk
    unfold newCommand
    refine .after (braceArgument_of hg) ?_
    rw [show (h.content.part g 1 r).cs = g from rfl]
    exact Errs.bind ⟨_, by unfold H.onStr; rw [e]⟩
  | @refused name r k hn hr =>
    obtain ⟨g, u, h1, h2⟩ := names_iff.1 hn
    obtain ⟨h3, rfl⟩ := refuses_of hS hr
    refine ⟨past h r, ?_⟩
    unfold newCommand
    rw [M.bind_ok (braceArgument_of (braceArgument_iff.1 h1)), show (h.content.part g 1 r).cs = g from rfl, M.bind_ok (onName h2), M.get_bind, if_pos (show (should.isSome && should != some ((past h r).macros.contains name)) = true from h3)]
    rfl
  | @noNumber name r t hn hr ho =>
    unfold Errs
    rw [new_start hn hS hr, M.bind_ok (optionalArgument_none (h := past h r) ho)]
    exact ⟨_, rfl⟩
  | @badNumber name r g t hn hr hb hg =>
    unfold Errs
    rw [new_start hn hS hr, M.bind_ok (optionalArgument_some (h := past h r) hb)]
    dsimp only
    rw [show ∀ sl : Sl, (sl.part g 1 t).cs = g from fun _ => rfl]
    cases hp : parseU8 g with
    | none => exact ⟨_, rfl⟩
    | some n => exact absurd (byteText_iff.2 hp) (hg n)
  | @tooMany name r g t n hn hr hb hg h9 =>
    unfold Errs
    rw [new_start hn hS hr, M.bind_ok (optionalArgument_some (h := past h r) hb)]
    dsimp only
    rw [show ∀ sl : Sl, (sl.part g 1 t).cs = g from fun _ => rfl, byteText_iff.1 hg]
    dsimp only
    obtain ⟨d, u, hd⟩ := optional_total t
    obtain ⟨x, e, hx⟩ := maybeOptional_of (h := past (past h r) t) hd
    rw [M.bind_ok e, if_pos h9]
    exact ⟨_, rfl⟩
  | @noBody name r g t n d u k hn hr hb hg h9 hd hk =>
    unfold Errs
    rw [new_body hn hS hr hb hg h9 hd]
    obtain ⟨r', e⟩ := noBraces_err hk
    exact Errs.bind (h := past h u) ⟨_, by unfold H.braceArgument; rw [show (past h u).content.cs = u from rfl, e]⟩
  | @repl name r g t n d u rt v k hn hr hb hg h9 hd hrt hc hk =>
    unfold Errs
    rw [new_body hn hS hr hb hg h9 hd, M.bind_ok (braceArgument_of (h := past h u) hrt), M.get_bind, if_neg]
    · exact ⟨_, by unfold H.macros insertCommand; dsimp only; rw [show ∀ sl : Sl, (sl.part rt 1 v).cs = rt from fun _ => rfl, badRepl_parse hk]⟩
    · rw [Bool.and_eq_true]
      rintro ⟨h1, h2⟩
      rcases hc with hc | hc
      · cases should with
        | none => exact hc rfl
        | some => cases h2
      · rw [show (past (past h u) v).macros = h.macros from rfl, (contains_not hS).2 hc] at h1
        cases h1

theorem new_ok {h : HSt} {Δ' : Known} (hS : Stores cf h.macros Δ) (hb : NewMacro Δ should h.content.cs Δ' r) :
    ∃ h', newCommand should h = .ok ⟨⟩ h' ∧ h'.content.cs = r ∧ h'.allowMods = h.allowMods ∧ h'.skip = h.skip ∧ Stores cf h'.macros Δ' := by
  cases hb with
  | set hn hr hb hg h9 hd hrt hc hk =>
    rename_i name r0 g t n d u rt
    rw [new_body hn hS hr hb hg h9 hd, M.bind_ok (braceArgument_of (h := past h u) hrt), M.get_bind, if_neg]
    · obtain ⟨m', hm⟩ := (C16_command_accepts h.macros name rt n d).2 hk
      refine ⟨{ past (past h u) r with macros := m' }, ?_, rfl, rfl, rfl, stores_command hS hm⟩
      unfold H.macros
      rw [show ∀ sl : Sl, (sl.part rt 1 r).cs = rt from fun _ => rfl, show (past (past h u) r).macros = h.macros from rfl]
      dsimp only
      rw [hm]
    · rw [Bool.and_eq_true]
      rintro ⟨h1, h2⟩
      rcases hc with hc | hc
      · cases should with
        | none => exact hc rfl
        | some => cases h2
      · rw [show (past (past h u) r).macros = h.macros from rfl, (contains_not hS).2 hc] at h1
        cases h1
  | kept hn hb hg h9 hd hrt hs hx =>
    rename_i name r0 g t n d u rt x
    subst hs
    have hr : ∀ k, ¬ Refuses Δ name none k := by intro k hk; cases hk
    rw [new_body hn hS hr hb hg h9 hd, M.bind_ok (braceArgument_of (h := past h u) hrt), M.get_bind, if_pos]
    · exact ⟨_, rfl, rfl, rfl, rfl, hS⟩
    · rw [show (past (past h u) r).macros = h.macros from rfl, (contains_iff hS).2 ⟨_, hx⟩]
      rfl

theorem names_total (s : Str) : (∃ name r, Names s name r) ∨ (∃ k, NoBraces s k) ∨ ∃ g r k, Braced s g r ∧ NoCs g k := by
  rcases braces_total s with ⟨g, r, hb⟩ | h
  · rcases cs_total g with ⟨g', name, u, rfl, hn⟩ | ⟨k, hk⟩
    · exact .inl ⟨name, r, names_iff.2 ⟨_, _, braceArgument_iff.2 hb, cs_of hn⟩⟩
    · exact .inr (.inr ⟨_, _, _, hb, hk⟩)
  · exact .inr (.inl h)

theorem new_total (Δ : Known) (should : Option Bool) (s : Str) : (∃ Δ' r, NewMacro Δ should s Δ' r) ∨ ∃ k, BadNew Δ should s k := by
  rcases names_total s with ⟨name, r, hn⟩ | ⟨k, hk⟩ | ⟨g, r, k, hg, hk⟩
  · by_cases hr : ∃ k, Refuses Δ name should k
    · obtain ⟨k, hk⟩ := hr
      exact .inr ⟨k, .refused hn hk⟩
    have hr' : ∀ k, ¬ Refuses Δ name should k := fun k hk => hr ⟨k, hk⟩
    obtain ⟨g, t, ho⟩ := optional_total r
    cases ho with
    | absent ho => exact .inr ⟨_, .noNumber hn hr' ho⟩
    | given hb =>
      rename_i g
      by_cases hg : ∃ n, ByteText g n
      · obtain ⟨n, hg⟩ := hg
        by_cases h9 : n ≤ 9
        · obtain ⟨d, u, hd⟩ := optional_total t
          rcases braces_total u with ⟨rt, v, hrt⟩ | ⟨k, hk⟩
          · by_cases hc : should ≠ none ∨ Δ name = none
            · rcases repl_cases n rt with ⟨-, hk⟩ | ⟨k, -, hk⟩
              · exact .inl ⟨_, _, .set hn hr' hb hg h9 hd hrt hc hk⟩
              · exact .inr ⟨_, .repl hn hr' hb hg h9 hd hrt hc hk⟩
            · rw [not_or, Classical.not_not] at hc
              cases hx : Δ name with
              | none => exact absurd hx hc.2
              | some x => exact .inl ⟨_, _, .kept hn hb hg h9 hd hrt hc.1 hx⟩
          · exact .inr ⟨_, .noBody hn hr' hb hg h9 hd hk⟩
        · exact .inr ⟨_, .tooMany hn hr' hb hg (by omega)⟩
      · exact .inr ⟨_, .badNumber hn hr' hb (fun n h => hg ⟨n, h⟩)⟩
  · exact .inr ⟨k, .group hk⟩
  · exact .inr ⟨k, .name hg hk⟩

end

end PL.Formula
