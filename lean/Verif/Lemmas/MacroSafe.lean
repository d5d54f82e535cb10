import Verif.Props.Macros
import Verif.Lemmas.Ext
set_option autoImplicit false
/-! # Texts produced by expansion, and panics during expansion -/
namespace PL
open Lex Spec Macros PL.Props

theorem subst_chars {args : List Str} {rt body : Str} (h : Subst args rt body) :
    ∀ c ∈ body, c ∈ rt ∨ ∃ a ∈ args, c ∈ a := by
  induction h with
  | nil => simp
  | hash _ ih =>
    intro c hc
    simp at hc
    rcases hc with rfl | hc
    · simp
    · rcases ih c hc with h | h
      · simp [h]
      · exact .inr h
  | @param i a s t _ _ ha _ ih =>
    intro c hc
    simp at hc
    rcases hc with hc | hc
    · exact .inr ⟨a, List.mem_of_getElem? ha, hc⟩
    · rcases ih c hc with h | h
      · simp [h]
      · exact .inr h
  | char _ _ ih =>
    intro c hc
    simp at hc
    rcases hc with rfl | hc
    · simp
    · rcases ih c hc with h | h
      · simp [h]
      · exact .inr h

theorem readArg_chars {s a r : Str} (h : ReadArg s a r) : ∀ c ∈ a, c ∈ s := by
  cases h with
  | @group w s g r hw hs => intro c hc; rw [hs.eq]; simp at hc ⊢; rcases hc with h | h | h <;> simp [h]
  | @char k c r => intro d hd; simp at hd; simp [hd]
  | @cs k s name w r hk hn hw =>
    intro c hc
    rw [hn.eq.1]
    simp at hc ⊢
    rcases hc with h | h <;> simp [h]

theorem delimited_chars {d s a r : Str} (h : Delimited d s a r) : ∀ c ∈ a, c ∈ s := by
  induction h with
  | found => simp
  | @comment line s a r _ _ _ ih =>
    intro c hc
    simp at hc ⊢
    rcases hc with h | h | h | h
    · simp [h]
    · simp [h]
    · simp [h]
    · simp [ih c h]
  | @escaped c s a r _ _ ih =>
    intro c hc
    simp at hc ⊢
    rcases hc with h | h | h
    · simp [h]
    · simp [h]
    · simp [ih c h]
  | @braces s g s' a r _ h _ ih =>
    intro c hc
    rw [h.eq]
    simp at hc ⊢
    rcases hc with h | h | h | h
    · simp [h]
    · simp [h]
    · simp [h]
    · simp [ih c h]
  | @char c s a r _ _ _ _ _ ih =>
    intro c hc
    simp at hc ⊢
    rcases hc with h | h
    · simp [h]
    · simp [ih c h]

theorem readArgs_chars {b : Bool} {ds : List Str} {s r : Str} {ws : List Str} (h : ReadArgs b ds s ws r) :
    ∀ w ∈ ws, ∀ c ∈ w, c ∈ s := by
  induction h with
  | nil => simp
  | last => intro w hw c hc; simp at hw; subst hw; simp [hc]
  | plain _ h _ ih =>
    intro w hw c hc
    simp at hw
    rcases hw with rfl | hw
    · exact readArg_chars h c hc
    · exact (ReadArg_suffix h).subset (ih w hw c hc)
  | delimited _ _ h _ ih =>
    intro w hw c hc
    simp at hw
    rcases hw with rfl | hw
    · exact delimited_chars h c hc
    · exact (Delimited_suffix h).subset (ih w hw c hc)

theorem finish_chars {input : Str} {repl : List RTok} {n : Nat} {rt s : Str} (hr : PT n rt (flat repl))
    {r : Res Str (List XArg)} {t : Str} {k : Nat} (h : finish input repl r = .ok t k)
    {P : Char → Prop} (hrt : ∀ c ∈ rt, P c) (hr : ∀ as rest, r = .ok as rest →
      rest <:+ s ∧ ∀ w ∈ as.map XArg.render, ∀ c ∈ w, P c) (hs : ∀ c ∈ s, P c) : ∀ c ∈ t, P c := by
  obtain ⟨as, rest, body, h1, h2, rfl, -⟩ := (finish_ok ‹_›).1 h
  obtain ⟨h3, h4⟩ := hr as rest h1
  intro c hc
  rcases List.mem_append.1 hc with hc | hc
  · rcases subst_chars h2 c hc with h | ⟨a, ha, hca⟩
    · exact hrt c h
    · exact h4 a ha c hca
  · exact hs c (h3.subset hc)

/-- Every character of an expansion comes from the definition or from the input. -/
theorem expand_chars {cf : Cfg} {o : Str} {d : Definition} (hd : DefFrom o d) {input new : Str} {k : Nat}
    (h : expandDefinition cf d input = .ok new k) {P : Char → Prop} (ho : ∀ c ∈ o, P c) (hi : ∀ c ∈ input, P c)
    (hb1 : P '{') (hb2 : P '}') : ∀ c ∈ new, P c := by
  cases hd with
  | @mac pt rt pre ds b repl h1 h2 h3 h4 =>
    have hPT := parseReplacement_ok h2
    have key : ∀ {s : Str}, s <:+ input → finish input repl (macroArgs b (ds.map opt) s) = .ok new k → ∀ c ∈ new, P c := by
      intro s hs h
      refine finish_chars hPT h (fun c hc => ho c (h4.subset hc)) (s := input) ?_ hi
      intro as rest ha
      have := macroArgs_ok ha
      exact ⟨(ReadArgs_suffix this).trans hs, fun w hw c hc => hi c (hs.subset (readArgs_chars this w hw c hc))⟩
    simp only [expandDefinition] at h
    split at h
    · exact key (List.suffix_refl _) h
    · split at h
      · cases h
      · rename_i rest hs
        rw [stripPrefix_some] at hs
        exact key ⟨_, hs.symm⟩ h
  | @cmd rt n dflt repl h1 h2 h3 h4 =>
    have hPT := parseReplacement_ok h2
    simp only [expandDefinition] at h
    split at h
    · refine finish_chars hPT h (fun c hc => ho c (h3.subset hc)) (s := input) ?_ hi
      intro as rest ha
      have := commandArgs_ok ha
      exact ⟨ReadArgs_suffix this, fun w hw c hc => hi c (readArgs_chars this w hw c hc)⟩
    · rename_i def_
      refine finish_chars hPT h (fun c hc => ho c (h3.subset hc)) (s := input) ?_ hi
      intro as rest ha
      obtain ⟨og, r1, ha1, ha⟩ := M.bind_eq_ok ha
      split at ha
      · cases ha
      · obtain ⟨as1, r2, ha2, ha⟩ := M.bind_eq_ok ha
        cases ha
        have hg := good_optionalArgument (cf := cf) input
        rw [ha1] at hg
        have hra := commandArgs_ok ha2
        refine ⟨(ReadArgs_suffix hra).trans hg, ?_⟩
        intro w hw c hc
        simp only [List.map_cons, List.mem_cons] at hw
        rcases hw with rfl | hw
        · simp only [XArg.render, List.cons_append, List.mem_cons, List.mem_append, List.not_mem_nil, or_false] at hc
          rcases hc with rfl | hc | rfl
          · exact hb1
          · cases og with
            | none => exact ho c ((h4 def_ rfl).subset hc)
            | some g =>
              rcases optionalArgument_eq ha1 with ⟨h, _⟩ | ⟨w, t, _, e, h | ⟨g', h, ht⟩⟩
              · cases h
              · cases h.1
              · cases h
                exact hi c (by rw [e, ht]; simp [show c ∈ g from hc])
          · exact hb2
        · exact hi c (hg.subset (readArgs_chars hra w hw c hc))
  | @chr c h1 h2 h3 h4 =>
    cases h
    intro d hd
    simp at hd
    rcases hd with rfl | hd
    · exact ho _ h1
    · exact hi _ hd
  | @cs name h1 h2 =>
    cases h
    intro d hd
    simp at hd
    rcases hd with rfl | hd | hd
    · exact ho _ (h1.subset (by simp))
    · exact ho _ (h1.subset (by simp [hd]))
    · exact hi _ hd

/-- The panics of expansion. -/
theorem expand_panic {cf : Cfg} {o : Str} {d : Definition} (hd : DefFrom o d) {input : Str} {p : Panic}
    (h : expandDefinition cf d input = .panic p) : p = .overflow ∧ cf.overflowChecks = true ∨ p = .index := by
  cases hd with
  | @mac pt rt pre ds b repl h1 h2 h3 h4 =>
    have hPT := parseReplacement_ok h2
    have key : ∀ {s : Str}, finish input repl (macroArgs b (ds.map opt) s) = .panic p → p = .index := by
      intro s h
      have := finish_panic hPT (by
        intro as rest ha
        have := ReadArgs.length (macroArgs_ok ha)
        simp at this; omega) h
      exact (macroArgs_panic this).1
    simp only [expandDefinition] at h
    split at h
    · exact .inr (key h)
    · split at h
      · cases h
      · exact .inr (key h)
  | @cmd rt n dflt repl h1 h2 h3 h4 =>
    by_cases hov : p = .overflow
    · refine .inl ⟨hov, ?_⟩
      have := C16_command_expand cf [] [([], .command ⟨n, dflt, repl⟩)] [] rt n dflt (by
        unfold insertCommand; rw [h2]; rfl) input p (by simp [tryExpand, Ctx.get]; exact h)
      exact this.2.2
    · exfalso
      have hb := C16_command_expand cf [] [([], .command ⟨n, dflt, repl⟩)] [] rt n dflt (by
        unfold insertCommand; rw [h2]; rfl) input p (by simp [tryExpand, Ctx.get]; exact h)
      obtain ⟨rfl, hdf, hc⟩ := hb
      cases dflt with
      | none => cases hdf
      | some def_ =>
        simp only [expandDefinition] at h
        have hpp := finish_panic (parseReplacement_ok h2) (by intro as rest ha; omega) h
        rw [M.run_bind] at hpp
        cases ho : optionalArgument input with
        | ok a r =>
          rw [ho] at hpp
          simp only [hc, Bool.and_true, decide_true, if_true] at hpp
          cases hpp
          exact hov rfl
        | err => rw [ho] at hpp; cases hpp
        | panic q =>
          unfold optionalArgument at ho
          split at ho
          · split at ho <;> try cases ho
            rename_i hg
            exact groupContent_no_panic hg
          · cases ho
  | chr => cases h
  | cs => cases h

end PL
