import Verif.Lemmas.Macro
import Verif.Lemmas.Arg
set_option autoImplicit false
/-! # Lemmas on definitions and expansion -/
namespace PL.Macros
open PL.Spec PL.Lex

theorem ReplText_iff {n : Nat} {s : Str} : ReplText n s ↔ ∃ f, PT n s f := by
  constructor
  · intro h
    induction h with
    | nil => exact ⟨_, .nil⟩
    | hash _ ih => obtain ⟨f, h⟩ := ih; exact ⟨_, .hash h⟩
    | param h1 h2 h3 _ ih => obtain ⟨f, h⟩ := ih; exact ⟨_, .param h1 h2 h3 h⟩
    | char h1 _ ih => obtain ⟨f, h⟩ := ih; exact ⟨_, .char h1 h⟩
  · rintro ⟨f, h⟩
    induction h with
    | nil => exact .nil
    | hash _ ih => exact .hash ih
    | param h1 h2 h3 _ ih => exact .param h1 h2 h3 ih
    | char h1 _ ih => exact .char h1 ih

theorem parseReplacement_spec (s : Str) (n : Nat) :
    match parseReplacement s n with
    | .ok toks => PT n s (flat toks)
    | .error (.inl _) => ¬ ReplText n s
    | .error (.inr _) => False := by
  have := replLoop_spec n ((splitInclusive s).length + 1) [] (splitInclusive s) (splitInclusive_pieces s) (by omega)
  rw [splitInclusive_flatten] at this
  unfold parseReplacement
  simp only
  split at this
  · rename_i out ho
    obtain ⟨t, e, h⟩ := this
    simp at e
    rw [ho]
    exact e ▸ h
  · rename_i e ho
    rw [ho]
    intro h
    obtain ⟨f, h⟩ := ReplText_iff.1 h
    exact this f h
  · exact this.elim

theorem parseReplacement_ok {s : Str} {n : Nat} {toks : List RTok} (h : parseReplacement s n = .ok toks) :
    PT n s (flat toks) := by
  have := parseReplacement_spec s n
  rw [h] at this
  exact this

theorem parseReplacement_iff {s : Str} {n : Nat} : (∃ toks, parseReplacement s n = .ok toks) ↔ ReplText n s := by
  constructor
  · rintro ⟨t, h⟩
    exact ReplText_iff.2 ⟨_, parseReplacement_ok h⟩
  · intro h
    have := parseReplacement_spec s n
    split at this
    · rename_i t ht; exact ⟨t, ht⟩
    · exact absurd h this
    · exact this.elim

/-- Substitution in a flattened replacement. -/
def substFlat (args : List Str) : List (Char ⊕ Nat) → Option Str
  | [] => some []
  | .inl c :: f => (substFlat args f).map (c :: ·)
  | .inr i :: f => match args[i - 1]? with
    | none => none
    | some a => (substFlat args f).map (a ++ ·)

theorem substFlat_str (args : List Str) (s : Str) (f : List (Char ⊕ Nat)) :
    substFlat args (s.map .inl ++ f) = (substFlat args f).map (s ++ ·) := by
  induction s with
  | nil => simp
  | cons c s ih =>
    simp only [List.map_cons, List.cons_append, substFlat, ih, Option.map_map]
    rfl

theorem expandReplacement_flat (repl : List RTok) (args : List XArg) (rest : Str) :
    expandReplacement repl args rest = (substFlat (args.map XArg.render) (flat repl)).map (· ++ rest) := by
  induction repl with
  | nil => simp [expandReplacement, flat, substFlat]
  | cons t repl ih =>
    cases t with
    | str s =>
      simp only [expandReplacement, flat, substFlat_str, ih, Option.map_map]
      congr 1
      funext x
      simp
    | param i =>
      simp only [expandReplacement, flat, substFlat, List.getElem?_map]
      cases args[i - 1]? with
      | none => rfl
      | some a =>
        simp only [Option.map_some, ih, Option.map_map]
        congr 1
        funext x
        simp

theorem substFlat_iff {n : Nat} {s : Str} {f : List (Char ⊕ Nat)} (h : PT n s f) (args : List Str) :
    ∀ t, substFlat args f = some t ↔ Subst args s t := by
  induction h with
  | nil =>
    intro t
    constructor
    · intro h; cases h; exact .nil
    · intro h; cases h; rfl
  | @hash s f h ih =>
    intro t
    simp only [substFlat, Option.map_eq_some_iff]
    constructor
    · rintro ⟨a, h1, rfl⟩; exact .hash ((ih a).1 h1)
    · intro h
      generalize hx : '#' :: '#' :: s = x at h
      cases h with
      | nil => cases hx
      | hash h => cases hx; exact ⟨_, (ih _).2 h, rfl⟩
      | param h1 h2 =>
        injection hx with _ hx
        injection hx with hx _
        exact absurd hx.symm (paramDigit_ne_hash h2)
      | char h1 => cases hx; exact absurd rfl h1
  | @param i s f h1 h2 h3 h ih =>
    intro t
    simp only [substFlat]
    constructor
    · intro h
      split at h
      · cases h
      · rename_i a ha
        obtain ⟨b, hb, rfl⟩ := Option.map_eq_some_iff.1 h
        exact .param h1 h3 ha ((ih b).1 hb)
    · intro h
      generalize hx : '#' :: paramDigit i :: s = x at h
      cases h with
      | nil => cases hx
      | hash h =>
        injection hx with _ hx
        injection hx with hx _
        exact absurd hx (paramDigit_ne_hash h3)
      | @param j a s' t' g1 g2 g3 g4 =>
        injection hx with _ hx
        injection hx with hx hy
        have := congrArg digitVal hx
        rw [digitVal_paramDigit h3, digitVal_paramDigit g2] at this
        subst this
        subst hy
        rw [g3]
        simp [(ih _).2 g4]
      | char h1 => cases hx; exact absurd rfl h1
  | @char c s f h1 h ih =>
    intro t
    simp only [substFlat, Option.map_eq_some_iff]
    constructor
    · rintro ⟨a, h2, rfl⟩; exact .char h1 ((ih a).1 h2)
    · intro h
      generalize hx : c :: s = x at h
      cases h with
      | nil => cases hx
      | hash h => cases hx; exact absurd rfl h1
      | param => injection hx with hx; exact absurd hx h1
      | char h1 h2 => cases hx; exact ⟨_, (ih _).2 h2, rfl⟩

theorem substFlat_total {n : Nat} {s : Str} {f : List (Char ⊕ Nat)} (h : PT n s f) (args : List Str)
    (hl : n ≤ args.length) : ∃ t, substFlat args f = some t := by
  induction h with
  | nil => exact ⟨[], rfl⟩
  | hash _ ih => obtain ⟨t, h⟩ := ih; exact ⟨'#' :: t, by simp [substFlat, h]⟩
  | @param i s f h1 h2 h3 h ih =>
    obtain ⟨t, h⟩ := ih
    have : i - 1 < args.length := by omega
    exact ⟨args[i - 1] ++ t, by simp [substFlat, h, this]⟩
  | @char c s f h1 h ih => obtain ⟨t, h⟩ := ih; exact ⟨c :: t, by simp [substFlat, h]⟩

/-! ### Parameter texts -/

theorem splitHash_plain {u : Str} (hu : '#' ∉ u) : splitHash u = [u] := by
  induction u with
  | nil => rfl
  | cons c u ih =>
    simp at hu
    unfold splitHash
    rw [if_neg (fun e => hu.1 e.symm), ih hu.2]

theorem splitHash_hash {u : Str} (hu : '#' ∉ u) (s : Str) : splitHash (u ++ '#' :: s) = u :: splitHash s := by
  induction u with
  | nil => simp [splitHash]
  | cons c u ih =>
    simp at hu
    rw [List.cons_append, splitHash, if_neg (fun e => hu.1 e.symm), ih hu.2]

theorem splitHash_spec (s : Str) : ∃ x xs, splitHash s = x :: xs ∧ '#' ∉ x ∧ (∀ y ∈ xs, '#' ∉ y) ∧
    s = x ++ (xs.map ('#' :: ·)).flatten := by
  induction s with
  | nil => exact ⟨[], [], rfl, by simp, by simp, rfl⟩
  | cons c s ih =>
    obtain ⟨x, xs, h1, h2, h3, h4⟩ := ih
    unfold splitHash
    by_cases hc : c = '#'
    · subst hc
      rw [if_pos rfl]
      refine ⟨[], x :: xs, by rw [h1], by simp, ?_, by simp [h4]⟩
      intro y hy
      simp at hy
      rcases hy with rfl | hy
      · exact h2
      · exact h3 y hy
    · rw [if_neg hc, h1]
      exact ⟨c :: x, xs, rfl, by simp [h2]; exact fun e => hc e.symm, h3, by simp [h4]⟩

/-- An empty delimiter is stored as `None`. -/
def opt (d : Str) : Option Str := if d.isEmpty then none else some d

theorem getLast?_append_ne {a b : Str} (h : b ≠ []) : (a ++ b).getLast? = b.getLast? := by
  rw [List.getLast?_append]
  cases hb : b.getLast? with
  | none => exact absurd (List.getLast?_eq_none_iff.1 hb) h
  | some c => rfl

theorem ParamText.getLast {i : Nat} {s : Str} {ds : List Str} (h : ParamText i s ds) : s.getLast? ≠ some '#' := by
  induction h with
  | nil => simp
  | @cons i d s ds h1 h2 _ ih =>
    intro hl
    have hmem : ∀ {x : Str}, x.getLast? = some '#' → '#' ∈ x := fun h => List.mem_of_getLast? h
    rw [List.getLast?_cons_cons] at hl
    by_cases hs : s = []
    · subst hs
      simp only [List.append_nil] at hl
      have := hmem hl
      simp at this
      rcases this with h | h
      · exact paramDigit_ne_hash h1 h.symm
      · exact h2 h
    · rw [show paramDigit i :: (d ++ s) = (paramDigit i :: d) ++ s by simp,
        getLast?_append_ne hs] at hl
      exact ih hl

theorem parseParams_of {i : Nat} {s : Str} {ds : List Str} (h : ParamText i s ds) : ∀ {u : Str}, '#' ∉ u →
    ∃ args, splitHash (u ++ s) = u :: args ∧ parseParams i args = .ok (ds.map opt) := by
  induction h with
  | nil => intro u hu; exact ⟨[], by simp [splitHash_plain hu], rfl⟩
  | @cons i d s ds h1 h2 _ ih =>
    intro u hu
    have hpd : '#' ∉ paramDigit i :: d := by
      simp [h2]; exact fun e => paramDigit_ne_hash h1 e.symm
    obtain ⟨args, e1, e2⟩ := ih hpd
    refine ⟨(paramDigit i :: d) :: args, ?_, ?_⟩
    · rw [splitHash_hash hu, ← e1]; rfl
    · unfold parseParams
      simp only [paramDigit_isDigit h1, if_true, digitVal_paramDigit h1, e2]
      rw [if_neg (by rw [Nat.mod_eq_of_lt (by omega)]; simp)]
      rfl

theorem parseParams_ok {args : List Str} (hh : ∀ y ∈ args, '#' ∉ y) : ∀ {i : Nat} {ps}, i ≤ 10 →
    parseParams i args = .ok ps → ∃ ds, ParamText i (args.map ('#' :: ·)).flatten ds ∧ ps = ds.map opt := by
  induction args with
  | nil => intro i ps _ h; cases h; exact ⟨[], .nil, rfl⟩
  | cons a args ih =>
    intro i ps hi h
    unfold parseParams at h
    split at h
    · cases h
    · rename_i c suffix
      split at h
      · rename_i hd
        obtain ⟨h9, hc⟩ := digit_eq hd
        split at h
        · cases h
        · rename_i hv
          rw [Nat.mod_eq_of_lt (by omega)] at hv
          simp at hv
          split at h
          · rename_i ps' hp
            cases h
            obtain ⟨ds, h1, h2⟩ := ih (fun y hy => hh y (by simp [hy])) (by omega) hp
            refine ⟨suffix :: ds, ?_, ?_⟩
            · simp only [List.map_cons, List.flatten_cons, List.cons_append]
              rw [hc, hv]
              have := hh (c :: suffix) (by simp)
              simp at this
              exact .cons (by omega) this.2 h1
            · simp [h2, opt]
          · cases h
      · cases h

theorem _root_.PL.Spec.ParamText.length {i : Nat} {s : Str} {ds : List Str} (h : ParamText i s ds) (hi : i ≤ 10) :
    i + ds.length ≤ 10 := by
  induction h with
  | nil => simpa using hi
  | cons h1 _ _ ih => have := ih (by omega); simp; omega

/-- The effect of a definition whose parameter text is well formed. -/
theorem define_of {m : Ctx} {name pt rt pre : Str} {ds : List Str} {b : Bool} (h : DefText pt pre ds b) :
    define m name pt rt = match parseReplacement rt ds.length with
      | .error e => .error e
      | .ok repl => .ok (m.insert name (.macro_ ⟨opt pre, ds.map opt, b, repl⟩)) := by
  cases h with
  | @plain _ s _ h1 h2 =>
    have hb : ¬ (pre ++ s).getLast? = some '#' := by
      intro hl
      by_cases hs : s = []
      · subst hs
        simp only [List.append_nil] at hl
        exact h1 (List.mem_of_getLast? hl)
      · rw [getLast?_append_ne hs] at hl
        exact ParamText.getLast h2 hl
    obtain ⟨args, e1, e2⟩ := parseParams_of h2 h1
    have hlen := h2.length (by omega)
    unfold define
    simp only [hb, decide_false, if_false, e1, e2, List.length_map]
    rw [Nat.mod_eq_of_lt (by omega)]
    rfl
  | @brace _ s _ h1 h2 =>
    obtain ⟨args, e1, e2⟩ := parseParams_of h2 h1
    have hlen := h2.length (by omega)
    unfold define
    simp only [List.getLast?_append, List.getLast?_singleton, Option.some_or, decide_true, if_true,
      List.dropLast_concat, e1, e2, List.length_map]
    rw [Nat.mod_eq_of_lt (by omega)]
    rfl

theorem define_ok {m m' : Ctx} {name pt rt : Str} (h : define m name pt rt = .ok m') :
    ∃ pre ds b, DefText pt pre ds b := by
  unfold define at h
  simp only at h
  obtain ⟨x, xs, h1, h2, h3, h4⟩ := splitHash_spec (if pt.getLast? = some '#' then pt.dropLast else pt)
  rw [h1] at h
  simp only at h
  split at h
  · cases h
  · rename_i ps hps
    obtain ⟨ds, h5, h6⟩ := parseParams_ok h3 (by omega) hps
    by_cases hb : pt.getLast? = some '#'
    case neg =>
      simp only [hb, if_false] at h4
      refine ⟨x, ds, false, ?_⟩
      rw [h4]
      exact .plain h2 h5
    case pos =>
      simp only [hb, if_true] at h4
      have : pt = pt.dropLast ++ ['#'] := by
        rw [List.getLast?_eq_some_iff] at hb
        obtain ⟨ys, rfl⟩ := hb
        simp
      refine ⟨x, ds, true, ?_⟩
      rw [this, h4]
      exact .brace h2 h5

theorem define_no_panic {m : Ctx} {name pt rt : Str} {p : Panic} : define m name pt rt ≠ .error (.inr p) := by
  intro h
  unfold define at h
  simp only at h
  obtain ⟨x, xs, h1, -⟩ := splitHash_spec (if pt.getLast? = some '#' then pt.dropLast else pt)
  rw [h1] at h
  simp only at h
  split at h
  · cases h
  · rename_i ps hps
    have hs := parseReplacement_spec rt (ps.length % 256)
    cases hr : parseReplacement rt (ps.length % 256) with
    | ok t => rw [hr] at h; cases h
    | error e =>
      rw [hr] at h hs
      cases h
      exact hs

/-! ### Reading the arguments -/

theorem opt_cons (c : Char) (d : Str) : opt (c :: d) = some (c :: d) := rfl

theorem macroArgs_ok {b : Bool} : ∀ {ds : List Str} {s r : Str} {as : List XArg},
    macroArgs b (ds.map opt) s = .ok as r → ReadArgs b ds s (as.map XArg.render) r
  | [], s, r, as, h => by cases h; exact .nil
  | d :: ds, s, r, as, h => by
    rw [List.map_cons] at h
    unfold macroArgs at h
    split at h
    · rename_i hc
      simp at hc
      obtain ⟨hd, rfl⟩ := hc
      subst hd
      have hp : bracePat (opt d) = d ++ c!"{" := by
        cases d <;> rfl
      simp only [hp] at h
      split at h
      · cases h
      · rename_i before after hsp
        cases h
        have e := splitOnce_some hsp
        have e' : s = before ++ d ++ '{' :: after := by rw [e]; simp
        subst e'
        have hf := splitOnce_first hsp
        have hd : (before ++ d ++ '{' :: after).drop before.length = d ++ '{' :: after := by simp
        rw [hd]
        refine .last rfl ?_
        intro u v huv
        exact hf u v (by rw [huv]; simp)
    · rename_i hc
      have hb : ds = [] → b = false := by
        intro hd
        subst hd
        simpa using hc
      cases d with
      | nil =>
        simp only [opt, List.isEmpty_nil, if_true, bind, M.bind] at h
        cases ha : argument s with
        | ok a s' =>
          rw [ha] at h
          simp only at h
          cases hm : macroArgs b (ds.map opt) s' with
          | ok as' r' =>
            rw [hm] at h
            cases h
            exact .plain hb (argument_ok ha) (macroArgs_ok hm)
          | err => rw [hm] at h; cases h
          | panic => rw [hm] at h; cases h
        | err => rw [ha] at h; cases h
        | panic => rw [ha] at h; cases h
      | cons c d =>
        simp only [opt_cons, bind, M.bind] at h
        cases ha : contentWithSuffix (c :: d) s with
        | ok a s' =>
          rw [ha] at h
          simp only at h
          cases hm : macroArgs b (ds.map opt) s' with
          | ok as' r' =>
            rw [hm] at h
            cases h
            exact .delimited hb (by simp) (contentWithSuffix_ok.1 ha) (macroArgs_ok hm)
          | err => rw [hm] at h; cases h
          | panic => rw [hm] at h; cases h
        | err => rw [ha] at h; cases h
        | panic => rw [ha] at h; cases h

theorem macroArgs_of {b : Bool} {ds : List Str} {s r : Str} {ws : List Str} (h : ReadArgs b ds s ws r) :
    ∃ as, macroArgs b (ds.map opt) s = .ok as r ∧ as.map XArg.render = ws := by
  induction h with
  | nil => exact ⟨[], rfl, rfl⟩
  | @last d a t hb hf =>
    subst hb
    refine ⟨[.raw a], ?_, rfl⟩
    rw [List.map_cons, List.map_nil]
    unfold macroArgs
    have hp : bracePat (opt d) = d ++ c!"{" := by
      cases d <;> rfl
    rw [if_pos (by simp)]
    simp only [hp]
    obtain ⟨x, y, hxy⟩ := splitOnce_isSome (p := d ++ ['{']) (u := a) (v := t)
    have ee : a ++ (d ++ ['{']) ++ t = a ++ d ++ '{' :: t := by simp
    rw [ee] at hxy
    have e := splitOnce_some hxy
    have h1 := splitOnce_first hxy a t (by simp)
    have h2 := hf x y (by rw [e]; simp)
    have hx : x = a := by
      have e2 : a ++ (d ++ '{' :: t) = x ++ (d ++ '{' :: y) := by simpa using e
      exact (List.append_inj_left e2 (by omega)).symm
    subst hx
    rw [hxy]
    simp
  | @plain ds s a s' as r hb ha _ ih =>
    obtain ⟨as', h1, h2⟩ := ih
    obtain ⟨a', h3, h4⟩ := argument_of ha
    refine ⟨.arg a' :: as', ?_, by simp [h2, h4]⟩
    rw [List.map_cons]
    unfold macroArgs
    rw [if_neg]
    · simp only [opt, List.isEmpty_nil, if_true, bind, M.bind, h3]
      have : macroArgs b (ds.map opt) s' = .ok as' r := h1
      rw [this]
      rfl
    · cases ds <;> simp_all
  | @delimited d ds s a s' as r hb hd ha _ ih =>
    obtain ⟨as', h1, h2⟩ := ih
    refine ⟨.raw a :: as', ?_, by simp [h2, XArg.render]⟩
    rw [List.map_cons]
    unfold macroArgs
    rw [if_neg]
    · cases d with
      | nil => exact absurd rfl hd
      | cons c d =>
        simp only [opt_cons, bind, M.bind, contentWithSuffix_ok.2 ha]
        have : macroArgs b (ds.map opt) s' = .ok as' r := h1
        rw [this]
        rfl
    · cases ds <;> simp_all

theorem ReadArgs.length {b : Bool} {ds : List Str} {s r : Str} {ws : List Str} (h : ReadArgs b ds s ws r) :
    ws.length = ds.length := by
  induction h <;> simp_all

theorem commandArgs_ok : ∀ {n : Nat} {s r : Str} {as : List XArg}, commandArgs n s = .ok as r →
    ReadArgs false (List.replicate n []) s (as.map XArg.render) r
  | 0, _, _, _, h => by cases h; exact .nil
  | n + 1, s, r, as, h => by
    unfold commandArgs at h
    simp only [bind, M.bind] at h
    cases ha : argument s with
    | ok a s' =>
      rw [ha] at h
      simp only at h
      cases hm : commandArgs n s' with
      | ok as' r' =>
        rw [hm] at h
        cases h
        exact .plain (fun _ => rfl) (argument_ok ha) (commandArgs_ok hm)
      | err => rw [hm] at h; cases h
      | panic => rw [hm] at h; cases h
    | err => rw [ha] at h; cases h
    | panic => rw [ha] at h; cases h

theorem commandArgs_of : ∀ {n : Nat} {s r : Str} {ws : List Str}, ReadArgs false (List.replicate n []) s ws r →
    ∃ as, commandArgs n s = .ok as r ∧ as.map XArg.render = ws
  | 0, s, r, ws, h => by cases h; exact ⟨[], rfl, rfl⟩
  | n + 1, s, r, ws, h => by
    rw [List.replicate_succ] at h
    generalize hd : ([] : Str) :: List.replicate n [] = ds at h
    cases h with
    | nil => cases hd
    | last hb => cases hb
    | plain hb ha hr =>
      injection hd with _ hd
      obtain ⟨as, h1, h2⟩ := commandArgs_of (hd ▸ hr)
      obtain ⟨a', h3, h4⟩ := argument_of ha
      refine ⟨.arg a' :: as, ?_, by simp [h2, h4]⟩
      unfold commandArgs
      simp only [bind, M.bind, h3, h1]
      rfl
    | delimited _ h => injection hd with hd _; exact absurd hd.symm h

theorem commandArgs_no_panic : ∀ {n : Nat} {s : Str} {p : Panic}, commandArgs n s ≠ .panic p
  | 0, _, _, h => by cases h
  | n + 1, s, p, h => by
    unfold commandArgs at h
    simp only [bind, M.bind] at h
    cases ha : argument s with
    | ok a s' =>
      rw [ha] at h
      simp only at h
      cases hm : commandArgs n s' with
      | ok as' r' => rw [hm] at h; cases h
      | err => rw [hm] at h; cases h
      | panic => exact commandArgs_no_panic hm
    | err => rw [ha] at h; cases h
    | panic => exact argument_no_panic ha

end PL.Macros
