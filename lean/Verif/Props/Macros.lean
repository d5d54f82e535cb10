import Verif.Lemmas.Expand
import Verif.Model.Parser
import Verif.Spec.Expansion
set_option autoImplicit false
/-!
# Properties of macro definitions and expansion (C16, C17, C18)
-/
namespace PL.Props
open PL.Spec PL.Lex PL.Macros

/-! ## C16: parameters are validated when a macro is defined -/

/-- `\def` accepts exactly the parameter texts `prefix #1 delim #2 delim ...` with the numbers in order, and
the replacement texts which refer only to those. -/
theorem C16_def_accepts (m : Ctx) (name pt rt : Str) :
    (∃ m', define m name pt rt = .ok m') ↔ ∃ pre ds b, DefText pt pre ds b ∧ ReplText ds.length rt := by
  constructor
  · rintro ⟨m', h⟩
    obtain ⟨pre, ds, b, hd⟩ := define_ok h
    rw [define_of hd] at h
    refine ⟨pre, ds, b, hd, ?_⟩
    split at h
    · cases h
    · rename_i repl hr
      exact parseReplacement_iff.1 ⟨repl, hr⟩
  · rintro ⟨pre, ds, b, hd, hr⟩
    obtain ⟨repl, hr⟩ := parseReplacement_iff.2 hr
    rw [define_of hd, hr]
    exact ⟨_, rfl⟩

/-- At most nine parameters. -/
theorem C16_at_most_nine (pt pre : Str) (ds : List Str) (b : Bool) (h : DefText pt pre ds b) : ds.length ≤ 9 := by
  cases h with
  | plain _ h => have := h.length (by omega); omega
  | brace _ h => have := h.length (by omega); omega

/-- `\newcommand` with `n` parameters accepts exactly the replacement texts which refer to 1..n. -/
theorem C16_command_accepts (m : Ctx) (name rt : Str) (n : Nat) (d : Option Str) :
    (∃ m', insertCommand m name n d rt = .ok m') ↔ ReplText n rt := by
  rw [← parseReplacement_iff]
  unfold insertCommand
  constructor
  · rintro ⟨m', h⟩
    split at h
    · cases h
    · rename_i r hr; exact ⟨r, hr⟩
  · rintro ⟨r, hr⟩
    rw [hr]
    exact ⟨_, rfl⟩

/-- Refusing a definition is an error, never a panic. -/
theorem C16_define_no_panic (m : Ctx) (name pt rt : Str) (p : Panic) : define m name pt rt ≠ .error (.inr p) :=
  define_no_panic

theorem get_insert {m : Ctx} {name : Str} {d : Definition} : (m.insert name d).get name = some d := by
  simp [Ctx.get, Ctx.insert]

theorem finish_panic {input : Str} {repl : List RTok} {n : Nat} {rt : Str} (hr : PT n rt (flat repl))
    {r : Res Str (List XArg)} {p : Panic} (hl : ∀ as rest, r = .ok as rest → n ≤ as.length)
    (h : finish input repl r = .panic p) : r = .panic p := by
  cases r with
  | panic q => cases h; rfl
  | err => cases h
  | ok as rest =>
    obtain ⟨t, ht⟩ := substFlat_total hr (as.map XArg.render) (by simpa using hl as rest rfl)
    simp [finish, expandReplacement_flat, ht] at h

theorem ReadArg_suffix {s a r : Str} (h : ReadArg s a r) : r <:+ s := by
  cases h with
  | @group w s g r hw hs => exact ⟨w ++ '{' :: (g ++ ['}']), by rw [hs.eq]; simp⟩
  | @char k c r => exact ⟨k ++ [c], by simp⟩
  | @cs k s name w r hk hn hw => exact ⟨k ++ '\\' :: (name ++ w), by rw [hn.eq.1]; simp⟩

theorem Delimited_suffix {d s a r : Str} (h : Delimited d s a r) : r <:+ s := by
  induction h with
  | found => exact ⟨d, rfl⟩
  | @comment line s a r _ _ _ ih => exact ih.trans ⟨'%' :: (line ++ ['\n']), by simp⟩
  | @escaped c s a r _ _ ih => exact ih.trans ⟨['\\', c], rfl⟩
  | @braces s g s' a r _ h _ ih => exact ih.trans ⟨'{' :: (g ++ ['}']), by rw [h.eq]; simp⟩
  | @char c s a r _ _ _ _ _ ih => exact ih.trans ⟨[c], rfl⟩

theorem macroArgs_panic {b : Bool} : ∀ {ds : List Str} {s : Str} {p : Panic},
    macroArgs b (ds.map opt) s = .panic p → p = .index ∧ (∃ d ∈ ds, blen d = 1) ∧ ∃ t, s = t ++ ['\\']
  | [], s, p, h => by cases h
  | d :: ds, s, p, h => by
    have lift : ∀ {s' : Str} {t : Str}, s' <:+ s → s' = t ++ ['\\'] → ∃ t, s = t ++ ['\\'] := by
      rintro s' t ⟨u, rfl⟩ rfl
      exact ⟨u ++ t, by simp⟩
    rw [List.map_cons] at h
    unfold macroArgs at h
    split at h
    · split at h <;> cases h
    · cases d with
      | nil =>
        simp only [opt, List.isEmpty_nil, if_true, bind, M.bind] at h
        cases ha : argument s with
        | ok a s' =>
          rw [ha] at h
          simp only at h
          cases hm : macroArgs b (ds.map opt) s' with
          | ok as' r' => rw [hm] at h; cases h
          | err => rw [hm] at h; cases h
          | panic q =>
            rw [hm] at h
            cases h
            obtain ⟨h1, ⟨d, hd, h2⟩, t, h3⟩ := macroArgs_panic hm
            exact ⟨h1, ⟨d, by simp [hd], h2⟩, lift (ReadArg_suffix (argument_ok ha)) h3⟩
        | err => rw [ha] at h; cases h
        | panic => exact absurd ha argument_no_panic
      | cons c d =>
        simp only [opt_cons, bind, M.bind] at h
        cases ha : contentWithSuffix (c :: d) s with
        | ok a s' =>
          rw [ha] at h
          simp only at h
          cases hm : macroArgs b (ds.map opt) s' with
          | ok as' r' => rw [hm] at h; cases h
          | err => rw [hm] at h; cases h
          | panic q =>
            rw [hm] at h
            cases h
            obtain ⟨h1, ⟨d', hd, h2⟩, t, h3⟩ := macroArgs_panic hm
            exact ⟨h1, ⟨d', by simp [hd], h2⟩, lift (Delimited_suffix (contentWithSuffix_ok.1 ha)) h3⟩
        | err => rw [ha] at h; cases h
        | panic q =>
          rw [ha] at h
          cases h
          obtain ⟨h1, h2, h3⟩ := contentWithSuffix_panic (by simp) ha
          exact ⟨h1, ⟨c :: d, by simp, h2⟩, h3⟩

/-- Expanding an accepted `\def` macro never refers to a missing argument. The only panic comes from
reading a delimited argument, when its delimiter has one byte and the text ends in a backslash. -/
theorem C16_def_expand (cf : Cfg) (m m' : Ctx) (name pt rt pre : Str) (ds : List Str) (b : Bool)
    (hd : DefText pt pre ds b) (h : define m name pt rt = .ok m') (input : Str) (p : Panic)
    (hx : tryExpand cf m' name input = some (.panic p)) :
    (∃ d ∈ ds, blen d = 1) ∧ ∃ t, input = t ++ ['\\'] := by
  rw [define_of hd] at h
  split at h
  · cases h
  rename_i repl hr
  cases h
  have hPT := parseReplacement_ok hr
  simp only [tryExpand, get_insert, Option.map_some, Option.some.injEq, expandDefinition] at hx
  have key : ∀ {inp s : Str}, finish inp repl (macroArgs b (ds.map opt) s) = .panic p →
      (∃ d ∈ ds, blen d = 1) ∧ ∃ t, s = t ++ ['\\'] := by
    intro inp s h
    have := finish_panic hPT (by
      intro as rest ha
      have := ReadArgs.length (macroArgs_ok ha)
      simp at this; omega) h
    exact (macroArgs_panic this).2
  split at hx
  · exact key hx
  · split at hx
    · cases hx
    · rename_i rest hs
      obtain ⟨h1, t, rfl⟩ := key hx
      rw [stripPrefix_some] at hs
      exact ⟨h1, _, by rw [hs, ← List.append_assoc]⟩

/-- Expanding an accepted command never refers to a missing argument and never panics, except when a
command without parameters was given a default value (in builds that check overflow). -/
theorem C16_command_expand (cf : Cfg) (m m' : Ctx) (name rt : Str) (n : Nat) (d : Option Str)
    (h : insertCommand m name n d rt = .ok m') (input : Str) (p : Panic)
    (hx : tryExpand cf m' name input = some (.panic p)) : n = 0 ∧ d.isSome = true ∧ cf.overflowChecks = true := by
  unfold insertCommand at h
  split at h
  · cases h
  rename_i repl hr
  cases h
  have hPT := parseReplacement_ok hr
  simp only [tryExpand, get_insert, Option.map_some, Option.some.injEq, expandDefinition] at hx
  split at hx
  · have := finish_panic hPT (by
      intro as rest ha
      have := ReadArgs.length (commandArgs_ok ha)
      simp at this; omega) hx
    exact absurd this commandArgs_no_panic
  · rename_i def_
    by_cases hc : n = 0 ∧ cf.overflowChecks = true
    · exact ⟨hc.1, rfl, hc.2⟩
    · exfalso
      have hif : (decide (n = 0) && cf.overflowChecks) = false := by
        rw [Bool.and_eq_false_iff]
        simp only [decide_eq_false_iff_not] at *
        by_cases h0 : n = 0
        · right; simpa [h0] using hc
        · exact .inl h0
      simp only [hif, Bool.false_eq_true, if_false] at hx
      have := finish_panic hPT (by
        intro as rest ha
        simp only [bind, M.bind] at ha
        split at ha <;> try cases ha
        split at ha <;> try cases ha
        rename_i s' _ as' r' hm
        have := ReadArgs.length (commandArgs_ok hm)
        simp at this ⊢
        split at this <;> omega) hx
      simp only [bind, M.bind] at this
      split at this
      · split at this
        · cases this
        · cases this
        · rename_i hm; exact commandArgs_no_panic hm
      · cases this
      · rename_i ho
        unfold optionalArgument at ho
        split at ho
        · split at ho <;> try cases ho
          rename_i hg
          exact groupContent_no_panic hg
        · cases ho

/-- A definition with a prefix, an undelimited and a delimited parameter. -/
example : ∃ m, define [] c!"f" c!"x#1#2;" c!"[#2##{#1}]" = .ok m := ⟨_, rfl⟩
example : DefText c!"x#1#2;" c!"x" [[], c!";"] false :=
  .plain (pre := c!"x") (s := c!"#1#2;") (by decide)
    (.cons (i := 1) (d := []) (by decide) (by decide) (.cons (i := 2) (d := c!";") (s := []) (by decide) (by decide) .nil))
/-- A parameter that was not declared is refused. -/
example : define [] c!"f" c!"#1" c!"#2" = .error (.inl (.incorrectReplacementParams 2 1)) := rfl

/-! ## C17: expansion substitutes exactly -/

theorem finish_ok {input : Str} {repl : List RTok} {n : Nat} {rt : Str} (hr : PT n rt (flat repl))
    {r : Res Str (List XArg)} {t : Str} {k : Nat} :
    finish input repl r = .ok t k ↔ ∃ as rest body, r = .ok as rest ∧ Subst (as.map XArg.render) rt body ∧
      t = body ++ rest ∧ k = blen input - blen rest := by
  cases r with
  | panic q => simp [finish]
  | err => simp [finish]
  | ok as rest =>
    have hf := substFlat_iff hr (as.map XArg.render)
    constructor
    · intro h
      simp only [finish, expandReplacement_flat] at h
      cases hs : substFlat (as.map XArg.render) (flat repl) with
      | none => rw [hs] at h; cases h
      | some body =>
        rw [hs] at h
        simp only [Option.map_some, XRes.ok.injEq] at h
        exact ⟨as, rest, body, rfl, (hf body).1 hs, h.1.symm, h.2.symm⟩
    · rintro ⟨as', rest', body, h1, h2, rfl, rfl⟩
      cases h1
      simp [finish, expandReplacement_flat, (hf body).2 h2]

theorem ReadArgs_suffix {b : Bool} {ds : List Str} {s r : Str} {ws : List Str} (h : ReadArgs b ds s ws r) : r <:+ s := by
  induction h with
  | nil => exact List.suffix_rfl
  | @last d a t => exact ⟨a, by simp⟩
  | plain _ h _ ih => exact ih.trans (ReadArg_suffix h)
  | delimited _ _ h _ ih => exact ih.trans (Delimited_suffix h)

theorem blen_suffix {r s : Str} (h : r <:+ s) : blen r ≤ blen s := by
  obtain ⟨u, rfl⟩ := h; simp

/-- `\def` macros: the expansion is the replacement text with the arguments substituted, followed by the
text that was not read as prefix or argument; the length reported is that of the text read. -/
theorem C17_def (cf : Cfg) (m m' : Ctx) (name pt rt pre : Str) (ds : List Str) (b : Bool)
    (hd : DefText pt pre ds b) (h : define m name pt rt = .ok m') (input t : Str) (k : Nat) :
    tryExpand cf m' name input = some (.ok t k) ↔
      ∃ s args rest body, input = pre ++ s ∧ ReadArgs b ds s args rest ∧ Subst args rt body ∧
        t = body ++ rest ∧ k + blen rest = blen input := by
  rw [define_of hd] at h
  split at h
  · cases h
  rename_i repl hr
  cases h
  have hPT := parseReplacement_ok hr
  simp only [tryExpand, get_insert, Option.map_some, Option.some.injEq, expandDefinition]
  have key : ∀ {s : Str}, blen s ≤ blen input → (finish input repl (macroArgs b (ds.map opt) s) = .ok t k ↔
      ∃ args rest body, ReadArgs b ds s args rest ∧ Subst args rt body ∧ t = body ++ rest ∧ k + blen rest = blen input) := by
    intro s hs
    rw [finish_ok hPT]
    constructor
    · rintro ⟨as, rest, body, h1, h2, h3, h4⟩
      have := macroArgs_ok h1
      have := blen_suffix (ReadArgs_suffix this)
      exact ⟨_, rest, body, macroArgs_ok h1, h2, h3, by omega⟩
    · rintro ⟨args, rest, body, h1, h2, h3, h4⟩
      obtain ⟨as, h5, rfl⟩ := macroArgs_of h1
      exact ⟨as, rest, body, h5, h2, h3, by omega⟩
  cases pre with
  | nil =>
    show finish input repl (macroArgs b (ds.map opt) input) = .ok t k ↔ _
    rw [key (Nat.le_refl _)]
    constructor
    · rintro ⟨args, rest, body, h⟩; exact ⟨input, args, rest, body, rfl, h⟩
    · rintro ⟨s, args, rest, body, rfl, h⟩; exact ⟨args, rest, body, h⟩
  | cons c pre =>
    simp only [opt_cons]
    cases hs : stripPrefix (c :: pre) input with
    | none =>
      rw [stripPrefix_none] at hs
      constructor
      · intro h; cases h
      · rintro ⟨s, args, rest, body, h, -⟩; exact absurd h (hs s)
    | some s =>
      rw [stripPrefix_some] at hs
      simp only
      rw [key (by rw [hs]; simp; omega)]
      constructor
      · rintro ⟨args, rest, body, h⟩; exact ⟨s, args, rest, body, hs, h⟩
      · rintro ⟨s', args, rest, body, h1, h⟩
        rw [hs] at h1
        have := List.append_cancel_left h1
        subst this
        exact ⟨args, rest, body, h⟩

/-- `\newcommand` macros without a default value. -/
theorem C17_command (cf : Cfg) (m m' : Ctx) (name rt : Str) (n : Nat)
    (h : insertCommand m name n none rt = .ok m') (input t : Str) (k : Nat) :
    tryExpand cf m' name input = some (.ok t k) ↔
      ∃ args rest body, ReadArgs false (List.replicate n []) input args rest ∧ Subst args rt body ∧
        t = body ++ rest ∧ k + blen rest = blen input := by
  unfold insertCommand at h
  split at h
  · cases h
  rename_i repl hr
  cases h
  have hPT := parseReplacement_ok hr
  simp only [tryExpand, get_insert, Option.map_some, Option.some.injEq, expandDefinition]
  rw [finish_ok hPT]
  constructor
  · rintro ⟨as, rest, body, h1, h2, h3, h4⟩
    have := commandArgs_ok h1
    have := blen_suffix (ReadArgs_suffix this)
    exact ⟨_, rest, body, commandArgs_ok h1, h2, h3, by omega⟩
  · rintro ⟨args, rest, body, h1, h2, h3, h4⟩
    obtain ⟨as, h5, rfl⟩ := commandArgs_of h1
    exact ⟨as, rest, body, h5, h2, h3, by omega⟩

theorem ReadOpt_iff {dflt s : Str} : (∀ w t, Spaces w → s = w ++ '[' :: t → ∃ g r, Split ['['] [']'] 0 t g r) →
    ∃ o r, optionalArgument s = .ok o r ∧ ∀ g r', ReadOpt dflt s g r' ↔ g = o.getD dflt ∧ r' = r := by
  intro hc
  unfold optionalArgument
  obtain ⟨w, hw, e⟩ := trimStart_spec s
  cases hs : stripPrefix ['['] (trimStart s) with
  | some t =>
    rw [stripPrefix_some] at hs
    rw [hs] at e
    obtain ⟨g, r, hg⟩ := hc w t hw e
    refine ⟨some g, r, by simp only; rw [show groupContent .optionalArgument t = .ok g r from groupContent_ok.2 hg], ?_⟩
    intro g' r'
    constructor
    · intro h
      cases h with
      | @given w' t' _ _ hw' h' =>
        have : trimStart (w' ++ '[' :: t') = '[' :: t' := by
          rw [trimStart_ws_append hw', trimStart_eq_self (by intro c r e; cases e; decide)]
        rw [this] at hs
        cases hs
        have h1 : groupContent .optionalArgument t = .ok g r := groupContent_ok.2 hg
        have h2 : groupContent .optionalArgument t = .ok g' r' := groupContent_ok.2 h'
        rw [h1] at h2
        cases h2
        exact ⟨rfl, rfl⟩
      | absent h => exact absurd e (h w t hw)
    · rintro ⟨rfl, rfl⟩
      rw [e]
      exact .given hw hg
  | none =>
    rw [stripPrefix_none] at hs
    refine ⟨none, s, rfl, ?_⟩
    intro g' r'
    have hab : ∀ w t, Spaces w → s ≠ w ++ '[' :: t := by
      rintro w' t' hw' rfl
      rw [trimStart_ws_append hw', trimStart_eq_self (by intro c r e; cases e; decide)] at hs
      exact hs t' rfl
    constructor
    · intro h
      cases h with
      | given hw' _ => exact absurd rfl (hab _ _ hw')
      | absent => exact ⟨rfl, rfl⟩
    · rintro ⟨rfl, rfl⟩
      exact .absent hab

/-- `\newcommand` macros with a default value for the first of at least one parameter, when no bracket
is left open. The first argument is inserted in braces. -/
theorem C17_command_default (cf : Cfg) (m m' : Ctx) (name rt dflt : Str) (n : Nat)
    (h : insertCommand m name (n + 1) (some dflt) rt = .ok m') (input t : Str) (k : Nat)
    (hc : ∀ w t, Spaces w → input = w ++ '[' :: t → ∃ g r, Split ['['] [']'] 0 t g r) :
    tryExpand cf m' name input = some (.ok t k) ↔
      ∃ g s args rest body, ReadOpt dflt input g s ∧ ReadArgs false (List.replicate n []) s args rest ∧
        Subst (('{' :: g ++ ['}']) :: args) rt body ∧ t = body ++ rest ∧ k + blen rest = blen input := by
  unfold insertCommand at h
  split at h
  · cases h
  rename_i repl hr
  cases h
  have hPT := parseReplacement_ok hr
  obtain ⟨o, r, ho, hro⟩ := ReadOpt_iff (dflt := dflt) hc
  simp only [tryExpand, get_insert, Option.map_some, Option.some.injEq, expandDefinition]
  rw [finish_ok hPT]
  simp only [Nat.add_eq_zero_iff, Nat.one_ne_zero, and_false, decide_false, Bool.false_and, Bool.false_eq_true,
    if_false, bind, M.bind, ho, Nat.add_sub_cancel]
  have hsuf : blen r ≤ blen input := by
    have := (hro (o.getD dflt) r).2 ⟨rfl, rfl⟩
    generalize o.getD dflt = x at this
    cases this with
    | given hw hs => rw [hs.eq]; simp; omega
    | absent => exact Nat.le_refl _
  constructor
  · rintro ⟨as, rest, body, h1, h2, h3, h4⟩
    split at h1 <;> cases h1
    rename_i as' hm
    have h5 := commandArgs_ok hm
    have := blen_suffix (ReadArgs_suffix h5)
    exact ⟨_, r, _, rest, body, (hro _ _).2 ⟨rfl, rfl⟩, h5, by simpa [XArg.render] using h2, h3, by omega⟩
  · rintro ⟨g, s, args, rest, body, h0, h1, h2, h3, h4⟩
    obtain ⟨rfl, rfl⟩ := (hro _ _).1 h0
    obtain ⟨as, h5, rfl⟩ := commandArgs_of h1
    refine ⟨.arg (.group (o.getD dflt)) :: as, rest, body, ?_, by simpa [XArg.render] using h2, h3, by omega⟩
    rw [h5]
    rfl

/-- Aliases: the text of the token is put in front of the input. -/
theorem C17_alias (cf : Cfg) (m : Ctx) (name input : Str) :
    (∀ n, tryExpand cf (m.assign name (.cs n)) name input = some (.ok ('\\' :: n ++ input) 0)) ∧
    (∀ c r, tryExpand cf (m.assign name (.chr c r)) name input = some (.ok (c :: input) 0)) := by
  constructor
  · intro n; simp [tryExpand, Ctx.assign, get_insert, expandDefinition]
  · intro c r; simp [tryExpand, Ctx.assign, get_insert, expandDefinition]

/-- A non-trivial expansion: delimited and undelimited arguments, a doubled hash. -/
example : (define [] c!"f" c!"x#1#2;" c!"[#2##{#1}]").toOption.bind
    (fun m => tryExpand ⟨true, fun _ => 0⟩ m c!"f" c!"x {ab}c{;}d; rest") =
      some (.ok c!"[c{;}d#{{ab}}] rest" 12) := by decide

/-- An opening bracket that is never closed makes the rest of the input disappear: the case excluded
in `C17_command_default`. -/
theorem C17_open_bracket_loses_text_partial :
    (insertCommand [] c!"a" 1 (some c!"d") c!"#1").toOption.bind
      (fun m => tryExpand ⟨true, fun _ => 0⟩ m c!"a" c!"[x y z") = some (.ok c!"{d}" 6) := by decide

/-! ## C18: expansion does not merge tokens -/

/-- False in general: the control word at the end of the replacement is extended by the next letters.
Expanding the macro `\a` with replacement `\alpha` before ` b` (the space was skipped after the name)
gives a text whose first token is `\alphab`. -/
theorem C18_false : ∃ (m m' : Ctx) (t rest : Str) (k : Nat), define m c!"a" [] c!"\\alpha" = .ok m' ∧
    token c!"\\a b" = .ok (.cs c!"a") c!"b" ∧
    tryExpand ⟨true, fun _ => 0⟩ m' c!"a" c!"b" = some (.ok t k) ∧ token t = .ok (.cs c!"alphab") rest :=
  ⟨[], _, c!"\\alphab", [], 0, rfl, by decide, by decide, by decide⟩

/-- Whole parse of that example: an error instead of `α b`. -/
theorem C18_false_parse : (run ⟨true, fun k => 1000000 * k⟩ 20 (State.init c!"\\def\\a{\\alpha}\\a b")).1 =
    [.err .unknownPrimitive c!"╭─► context:\n│\n│ \\alphab\n│ ^^^^^^^\n├─► which was expanded from:\n│\n│…ef\\a{\\alpha}\\a b\n│ ^^^^^^^^^^^^^^^^\n╰─────────────────"] := by
  decide +kernel

/-- The part that holds: a character that starts the replacement is the first token read. -/
theorem C18_char_partial (body rest : Str) (c : Char) (r r' : Str) (h : token body = .ok (.chr c r) r') :
    token (body ++ rest) = .ok (.chr c (r ++ rest)) (r ++ rest) := by
  have := token_ok_of_spec h
  cases this with
  | @chr k c r hk hs h1 h2 h3 =>
    subst hs
    have := token_chr_eq (r := r ++ rest) hk h1 h2 h3
    simpa using this

/-- A control sequence that starts the replacement is the first token read, unless it is a word at the
very end of the replacement and a letter follows. -/
theorem C18_cs_partial (k t name r rest : Str) (hk : Blank k) (hn : CsName t name r)
    (hr : r = [] → (∀ c ∈ name, isLetter c = true) → ∀ c s, rest = c :: s → isLetter c = false) :
    token (k ++ '\\' :: t ++ rest) = .ok (.cs name) (trimStart (r ++ rest)) := by
  have hn' : CsName (t ++ rest) name (r ++ rest) := by
    cases hn with
    | word h1 h2 h3 =>
      rw [List.append_assoc]
      refine .word h1 h2 ?_
      intro c s e
      cases r with
      | nil => exact hr rfl h2 c s (by simpa using e)
      | cons d r => cases e; exact h3 _ _ rfl
    | symbol h => exact .symbol h
  have := token_cs_eq hk hn'
  simpa using this

example : CsName c!"alpha" c!"alpha" [] := .word (name := c!"alpha") (by decide) (by decide) (by simp)
example : token c!" %x\n\\sum_2" = .ok (.cs c!"sum") c!"_2" := by decide

end PL.Props
