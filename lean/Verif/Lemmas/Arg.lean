import Verif.Lemmas.Lex
import Verif.Spec.Macro
import Verif.Model.Macros
set_option autoImplicit false
/-! # Lemmas on arguments and delimited texts -/
namespace PL.Lex
open PL.Spec

theorem tokenLoop_fuel : ∀ {n m : Nat} {s : Str}, s.length + 1 < n → s.length + 1 < m →
    tokenLoop n s = tokenLoop m s
  | 0, _, _, h, _ => by omega
  | _, 0, _, _, h => by omega
  | n + 1, m + 1, s, hn, hm => by
    unfold tokenLoop
    split
    · rfl
    · rename_i c r hc
      split
      · rfl
      · split
        · have hl := trimStart_length_le s
          rw [hc] at hl
          simp at hl
          split
          · rename_i hs
            have := congrArg List.length (splitOnce_some hs)
            simp at this
            exact tokenLoop_fuel (by omega) (by omega)
          · exact tokenLoop_fuel (by simp; omega) (by simp; omega)
        · rfl

theorem token_ws {c : Char} {s : Str} (h : isWs c = true) : token (c :: s) = token s := by
  unfold token
  rw [tokenLoop_fuel (s := s) (n := s.length + 2) (m := s.length + 3) (by omega) (by omega)]
  show tokenLoop (s.length + 2 + 1) (c :: s) = tokenLoop (s.length + 2 + 1) s
  unfold tokenLoop
  have : trimStart (c :: s) = trimStart s := trimStart_ws_append (w := [c]) (by intro d hd; simp at hd; rw [hd]; exact h) s
  rw [this]

theorem token_comment {line s : Str} (h : '\n' ∉ line) : token ('%' :: (line ++ '\n' :: s)) = token s := by
  have e : splitOnce ['\n'] ('%' :: (line ++ '\n' :: s)) = some ('%' :: line, s) := by
    have := splitOnce_char_eq (c := '\n') (a := '%' :: line) (b := s) (by simp [h])
    simpa using this
  unfold token
  rw [tokenLoop]
  have : trimStart ('%' :: (line ++ '\n' :: s)) = '%' :: (line ++ '\n' :: s) :=
    trimStart_eq_self (by intro c r hc; cases hc; decide)
  rw [this]
  simp only [e]
  exact tokenLoop_fuel (by simp; omega) (by omega)

theorem token_blank {k : Str} (h : Blank k) (s : Str) : token (k ++ s) = token s := by
  induction h with
  | nil => rfl
  | ws hc _ ih => rw [List.cons_append, token_ws hc, ih]
  | @comment line t hl _ ih =>
    have := token_comment (s := t ++ s) hl
    simp only [List.cons_append, List.append_assoc] at this ⊢
    rw [this, ih]

theorem token_chr_eq {k r : Str} {c : Char} (h : Blank k) (h1 : c ≠ '\\') (h2 : c ≠ '%') (h3 : isWs c = false) :
    token (k ++ c :: r) = .ok (.chr c r) r := by
  rw [token_blank h]
  unfold token tokenLoop
  rw [trimStart_eq_self (by intro d t e; cases e; exact h3)]
  simp [h1, h2]

theorem token_cs_eq {k s name r : Str} (h : Blank k) (hn : CsName s name r) :
    token (k ++ '\\' :: s) = .ok (.cs name) (trimStart r) := by
  rw [token_blank h]
  unfold token tokenLoop
  rw [trimStart_eq_self (by intro d t e; cases e; decide)]
  simp only [if_true]
  rw [rhs_ok.2 ⟨r, hn, rfl⟩]

theorem token_ok_of_spec {s r : Str} {t : Tok} (h : token s = .ok t r) : TokSpec s (.ok t r) := h ▸ token_spec s

theorem Blank.no_percent {k : Str} (h : Blank k) (hp : '%' ∉ k) : AllWs k := by
  induction h with
  | nil => intro c hc; simp at hc
  | ws hc _ ih =>
    intro d hd
    simp at hd hp
    rcases hd with rfl | hd
    · exact hc
    · exact ih hp.2 d hd
  | comment => simp at hp

theorem Blank.trimStart_percent {k : Str} (h : Blank k) (hp : '%' ∈ k) : ∃ t, ∀ s, trimStart (k ++ s) = '%' :: (t ++ s) := by
  induction h with
  | nil => simp at hp
  | @ws c s hc _ ih =>
    have : c ≠ '%' := by rintro rfl; revert hc; decide
    simp at hp
    rcases hp with hp | hp
    · exact absurd hp.symm this
    · obtain ⟨t, ht⟩ := ih hp
      refine ⟨t, fun s' => ?_⟩
      rw [List.cons_append]
      have : trimStart (c :: (s ++ s')) = trimStart (s ++ s') := by simp [trimStart, hc]
      rw [this, ht]
  | @comment line s hl _ ih =>
    refine ⟨line ++ '\n' :: s, fun s' => ?_⟩
    rw [trimStart_eq_self]
    · simp
    · intro c r hc; cases hc; decide

end PL.Lex
namespace PL.Macros
open PL.Spec PL.Lex

/-- The written form of an argument. -/
theorem argument_ok {s r : Str} {a : Arg} (h : argument s = .ok a r) :
    ReadArg s (XArg.render (.arg a)) r := by
  unfold argument at h
  split at h
  · rename_i rest hr
    rw [stripPrefix_some] at hr
    obtain ⟨w, hw, e⟩ := trimStart_spec s
    simp only [bind, M.bind] at h
    cases hg : groupContent .normal rest with
    | ok g r' =>
      rw [hg] at h
      cases h
      rw [e, hr]
      exact ReadArg.group hw (groupContent_ok.1 hg)
    | err => rw [hg] at h; cases h
    | panic => rw [hg] at h; cases h
  · rename_i hn
    simp only [bind, M.bind] at h
    cases ht : token s with
    | ok t r' =>
      rw [ht] at h
      cases h
      have := token_ok_of_spec ht
      cases this with
      | @chr k c r hk hs h1 h2 h3 =>
        subst hs
        refine ReadArg.char hk h1 h2 h3 ?_
        intro hc
        subst hc
        refine Classical.byContradiction fun hp => ?_
        have := Blank.no_percent hk hp
        rw [trimStart_ws_append this, trimStart_eq_self (by intro c r e; cases e; decide)] at hn
        simp [stripPrefix] at hn
      | @cs k t name r hk hs hcs =>
        subst hs
        obtain ⟨w, hw, e⟩ := trimStart_spec r
        exact ReadArg.cs hk (e ▸ hcs) hw (fun _ _ h => trimStart_head h)
    | err => rw [ht] at h; cases h
    | panic => rw [ht] at h; cases h

theorem argument_of {s r w : Str} (h : ReadArg s w r) : ∃ a, argument s = .ok a r ∧ XArg.render (.arg a) = w := by
  unfold argument
  cases h with
  | @group w s g r hw hs =>
    refine ⟨.group g, ?_, rfl⟩
    rw [trimStart_ws_append hw, trimStart_eq_self (by intro c r e; cases e; decide)]
    have : stripPrefix ['{'] ('{' :: s) = some s := stripPrefix_some.2 rfl
    rw [this]
    simp only [bind, M.bind]
    rw [show groupContent .normal s = .ok g r from groupContent_ok.2 hs]
    rfl
  | @char k c r hk h1 h2 h3 h4 =>
    refine ⟨.token (.chr c r), ?_, rfl⟩
    have : stripPrefix ['{'] (trimStart (k ++ c :: r)) = none := by
      rw [stripPrefix_none]
      intro t ht
      by_cases hp : '%' ∈ k
      · obtain ⟨u, hu⟩ := Blank.trimStart_percent hk hp
        rw [hu] at ht
        cases ht
      · rw [trimStart_ws_append (Blank.no_percent hk hp), trimStart_eq_self (by intro d t e; cases e; exact h3)] at ht
        injection ht with ht
        exact hp (h4 ht)
    rw [this]
    simp only [bind, M.bind, token_chr_eq hk h1 h2 h3]
    rfl
  | @cs k s name w r hk hn hw hr =>
    refine ⟨.token (.cs name), ?_, rfl⟩
    have : stripPrefix ['{'] (trimStart (k ++ '\\' :: s)) = none := by
      rw [stripPrefix_none]
      intro t ht
      by_cases hp : '%' ∈ k
      · obtain ⟨u, hu⟩ := Blank.trimStart_percent hk hp
        rw [hu] at ht
        cases ht
      · rw [trimStart_ws_append (Blank.no_percent hk hp), trimStart_eq_self (by intro d t e; cases e; decide)] at ht
        cases ht
    rw [this]
    simp only [bind, M.bind, token_cs_eq hk hn]
    rw [trimStart_ws_append hw, trimStart_eq_self hr]
    rfl

/-! ### Delimited arguments -/

theorem suffixLoop_escaped {d acc r : Str} {n : Nat} {c : Char} :
    suffixLoop d (n + 1) true acc (c :: r) = suffixLoop d n false (c :: acc) r := by
  rw [suffixLoop]
  by_cases hc : c = '\\'
  · simp [hc]
  · simp [hc]

theorem suffixLoop_found {d : Str} :
    ∀ {n : Nat} {acc s g r : Str}, s.length < n →
      suffixLoop d n false acc s = .found g r → ∃ g', g = acc.reverse ++ g' ∧ Delimited d s g' r := by
  intro n
  induction n using Nat.strongRecOn with
  | ind n ih =>
    intro acc s g r hn h
    cases n with
    | zero => omega
    | succ n =>
      unfold suffixLoop at h
      simp only [Bool.false_or, Bool.not_false, Bool.true_and] at h
      split at h
      · cases h
      · split at h
        · rename_i hlen hs
          have hs' : ¬ d <+: s := by
            intro hp; simp [prefix_iff.2 hp] at hs
          split at h
          · cases h
          · rename_i c r'
            simp at hn
            split at h
            · rename_i hc
              subst hc
              cases n with
              | zero => omega
              | succ n =>
                cases r' with
                | nil => simp [suffixLoop] at h
                | cons c2 r2 =>
                  rw [suffixLoop_escaped] at h
                  simp at hn
                  obtain ⟨g', e, hsp⟩ := ih n (by omega) (by omega) h
                  exact ⟨'\\' :: c2 :: g', by rw [e]; simp, .escaped hs' hsp⟩
            · rename_i hc
              split at h
              · rename_i hp
                simp at hp
                subst hp
                split at h
                · cases h
                · rename_i before after hsp
                  obtain ⟨e1, e2⟩ := splitOnce_char hsp
                  cases before with
                  | nil => cases e1
                  | cons b line =>
                    simp only [List.cons_append, List.cons.injEq] at e1
                    obtain ⟨e0, e1⟩ := e1
                    subst e0
                    subst e1
                    simp at hn
                    obtain ⟨g', e, hspl⟩ := ih n (by omega) (by omega) h
                    refine ⟨'%' :: (line ++ '\n' :: g'), by rw [e]; simp, .comment hs' ?_ hspl⟩
                    intro hm; exact e2 (by simp [hm])
              · rename_i hp
                split at h
                · rename_i hb
                  simp at hb
                  subst hb
                  split at h
                  · rename_i g1 rest hg
                    have e1 := groupContent_eq hg
                    have := congrArg List.length e1
                    simp at this
                    obtain ⟨g', e, hspl⟩ := ih n (by omega) (by omega) h
                    exact ⟨'{' :: (g1 ++ '}' :: g'), by rw [e]; simp, .braces hs' (groupContent_ok.1 hg) hspl⟩
                  · cases h
                  · cases h
                · rename_i hb
                  obtain ⟨g', e, hspl⟩ := ih n (by omega) (by omega) h
                  refine ⟨c :: g', by rw [e]; simp, .char hs' hc (by simpa using hp) (by simpa using hb) hspl⟩
        · rename_i hlen hs
          simp at hs
          obtain ⟨r', rfl⟩ := prefix_iff.1 hs
          simp at h
          obtain ⟨h1, h2⟩ := h
          subst h1; subst h2
          exact ⟨[], by simp, .found⟩

theorem _root_.PL.Spec.Delimited.blen_le {d s g r : Str} (h : Delimited d s g r) : blen d ≤ blen s := by
  induction h with
  | braces _ h _ ih =>
    have := congrArg blen h.eq
    simp at this ⊢
    omega
  | _ => simp <;> omega

theorem suffixLoop_of {d : Str} {s g r : Str} (h : Delimited d s g r) : ∀ {n : Nat} {acc : Str}, s.length < n →
      suffixLoop d n false acc s = .found (acc.reverse ++ g) r := by
  induction h with
  | @found r =>
    intro n acc hn
    cases n with
    | zero => omega
    | succ n =>
      unfold suffixLoop
      rw [if_neg (by simp), if_neg]
      · simp
      · simp [prefix_iff.2 (List.prefix_append d r)]
  | @comment line s a r h1 h3 hs ih =>
    intro n acc hn
    cases n with
    | zero => omega
    | succ n =>
      have hb := hs.blen_le
      simp at hn
      unfold suffixLoop
      rw [if_neg (by simp; omega), if_pos (by simp [not_prefix_iff.2 h1])]
      have : splitOnce ['\n'] ('%' :: (line ++ '\n' :: s)) = some ('%' :: line, s) := by
        have := splitOnce_char_eq (c := '\n') (a := '%' :: line) (b := s) (by simp [h3])
        simpa using this
      simp [this]
      rw [ih (by omega)]; simp
  | @escaped c s g r h1 hs ih =>
    intro n acc hn
    have hb := hs.blen_le
    simp at hn
    obtain ⟨n, rfl⟩ : ∃ m, n = m + 2 := ⟨n - 2, by omega⟩
    have hlt : ¬ blen ('\\' :: c :: s) < blen d := by simp only [blen_cons]; omega
    unfold suffixLoop
    rw [if_neg (by simp only [hlt]; simp), if_pos (by simp [not_prefix_iff.2 h1])]
    simp only [if_true, Bool.not_false]
    rw [suffixLoop_escaped, ih (by omega)]
    simp
  | @braces s g s' a r h1 h2 h3 ih =>
    intro n acc hn
    cases n with
    | zero => omega
    | succ n =>
      have hb := (Delimited.braces h1 h2 h3).blen_le
      have e := congrArg List.length h2.eq
      simp at hn e
      have hg : groupContent .normal s = .ok g s' := groupContent_ok.2 h2
      have hlt : ¬ blen ('{' :: s) < blen d := by omega
      unfold suffixLoop
      rw [if_neg (by simp only [hlt]; simp), if_pos (by simp [not_prefix_iff.2 h1])]
      simp [hg]
      rw [ih (by omega)]; simp
  | @char c s g r h1 h3 h4 h5 hs ih =>
    intro n acc hn
    cases n with
    | zero => omega
    | succ n =>
      have hb := hs.blen_le
      simp at hn
      have hlt : ¬ blen (c :: s) < blen d := by simp only [blen_cons]; omega
      unfold suffixLoop
      rw [if_neg (by simp only [hlt]; simp), if_pos (by simp [not_prefix_iff.2 h1])]
      simp [h3, h4, h5]
      rw [ih (by omega)]; simp

theorem contentWithSuffix_ok {d s g r : Str} : contentWithSuffix d s = .ok g r ↔ Delimited d s g r := by
  constructor
  · intro h
    unfold contentWithSuffix at h
    split at h <;> cases h
    rename_i h
    obtain ⟨g', e, hs⟩ := suffixLoop_found (by omega) h
    simpa using e ▸ hs
  · intro h
    unfold contentWithSuffix
    rw [suffixLoop_of h (by omega)]
    rfl

/-- The loop panics only when the delimiter has one byte and the text ends in a backslash. -/
theorem suffixLoop_panic {d : Str} (hd : d ≠ []) :
    ∀ {n : Nat} {acc s : Str} {p : Panic}, s.length < n →
      suffixLoop d n false acc s = .panic p → p = .index ∧ blen d = 1 ∧ ∃ t, s = t ++ ['\\'] := by
  have hdl : 0 < d.length := List.length_pos_iff.2 hd
  have hdb : 0 < blen d := by have := length_le_blen d; omega
  intro n
  induction n using Nat.strongRecOn with
  | ind n ih =>
    intro acc s p hn h
    cases n with
    | zero => omega
    | succ n =>
      unfold suffixLoop at h
      simp only [Bool.false_or, Bool.not_false, Bool.true_and] at h
      split at h
      · cases h
      · rename_i hb
        simp at hb
        split at h
        · split at h
          · simp at hb; omega
          · rename_i _ c r' _
            simp at hn
            split at h
            · rename_i hc
              subst hc
              cases n with
              | zero => omega
              | succ n =>
                cases r' with
                | nil =>
                  simp [suffixLoop] at h
                  simp [show ('\\' : Char).utf8Size = 1 from rfl] at hb
                  exact ⟨h.symm, by omega, [], rfl⟩
                | cons c2 r2 =>
                  rw [suffixLoop_escaped] at h
                  simp at hn
                  obtain ⟨h1, h2, t, rfl⟩ := ih n (by omega) (by omega) h
                  exact ⟨h1, h2, '\\' :: c2 :: t, by simp⟩
            · split at h
              · split at h
                · cases h
                · rename_i before after hsp
                  have e := splitOnce_some hsp
                  have h2 := congrArg List.length e
                  simp at h2
                  obtain ⟨g1, g2, t, rfl⟩ := ih n (by omega) (by omega) h
                  exact ⟨g1, g2, before ++ ['\n'] ++ t, by rw [e]; simp⟩
              · split at h
                · split at h
                  · rename_i g1 rest hg
                    have e1 := groupContent_eq hg
                    have := congrArg List.length e1
                    simp at this
                    obtain ⟨g2, g3, t, rfl⟩ := ih n (by omega) (by omega) h
                    exact ⟨g2, g3, c :: (g1 ++ c!"}" ++ t), by rw [e1]; simp [GroupingKind.closingStr]⟩
                  · cases h
                  · rename_i p' hg
                    exact absurd hg groupContent_no_panic
                · obtain ⟨g2, g3, t, rfl⟩ := ih n (by omega) (by omega) h
                  exact ⟨g2, g3, c :: t, rfl⟩
        · cases h

theorem contentWithSuffix_panic {d s : Str} {p : Panic} (hd : d ≠ []) (h : contentWithSuffix d s = .panic p) :
    p = .index ∧ blen d = 1 ∧ ∃ t, s = t ++ ['\\'] := by
  unfold contentWithSuffix at h
  split at h <;> cases h
  rename_i h
  exact suffixLoop_panic hd (by omega) h

theorem argument_no_panic {s : Str} {p : Panic} : argument s ≠ .panic p := by
  intro h
  unfold argument at h
  split at h
  · rename_i rest _
    simp only [bind, M.bind] at h
    cases hg : groupContent .normal rest with
    | ok => rw [hg] at h; cases h
    | err => rw [hg] at h; cases h
    | panic => exact groupContent_no_panic hg
  · simp only [bind, M.bind] at h
    have hs := token_spec s
    cases ht : token s with
    | ok => rw [ht] at h; cases h
    | err => rw [ht] at h; cases h
    | panic => rw [ht] at hs; cases hs
end PL.Macros
