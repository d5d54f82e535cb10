import Verif.Lemmas.Formula.Definitions
set_option autoImplicit false
/-!
# The grammar is sound

Whatever text the grammar of Spec/Formula.lean reads as a tree, the parser reads as the events of that tree. There is one lemma for each rule, in the
other files of this directory.
-/
namespace PL.Formula
open PL PL.Lex PL.H Spec PL.Props

theorem sound {cf : Cfg} {D : Macros.Ctx} {Δ : Known} (hS : Stores cf D Δ) {j : Judgement} (h : Reads Δ j) : Sound cf D j := by
  induction h with
  | single h0 => exact sound_single h0
  | number h0 h1 => exact sound_number h0 h1
  | digit h0 => exact sound_digit h0
  | braces h0 _ i1 => exact sound_braces h0 i1
  | noBase h0 => exact sound_noBase h0
  | operator h0 => exact sound_operator h0
  | operatorname h0 h1 => exact sound_operatorname h0 h1
  | dotsLow h0 h1 h2 => exact sound_dotsLow h0 h1 h2
  | dots h0 h1 => exact sound_dots h0 h1
  | char h0 h1 h2 => exact sound_char h0 h1 h2
  | relax h0 => exact sound_relax h0
  | change h0 => exact sound_change h0
  | color h0 h1 => exact sound_color h0 h1
  | begingroup h0 h1 _ i2 => exact sound_begingroup h0 h1 i2
  | sized h0 h1 => exact sound_sized h0 h1
  | middle h0 h1 => exact sound_middle h0 h1
  | left h0 h1 h2 h3 _ i4 => exact sound_left h0 h1 h2 h3 i4
  | space h0 => exact sound_space h0
  | kern h0 h1 => exact sound_kern h0 h1
  | mkern h0 h1 h2 => exact sound_mkern h0 h1 h2
  | hskip h0 h1 => exact sound_hskip h0 h1
  | mskip h0 h1 h2 h3 h4 => exact sound_mskip h0 h1 h2 h3 h4
  | hspace h0 h1 h2 => exact sound_hspace h0 h1 h2
  | space3 h0 h1 h2 h3 h4 h5 h6 => exact sound_space3 h0 h1 h2 h3 h4 h5 h6
  | pmod h0 _ i1 => exact sound_pmod h0 i1
  | classChar h0 h1 => exact sound_classChar h0 h1
  | classLone h0 h1 h2 => exact sound_classLone h0 h1 h2
  | classGroup h0 h1 h2 h3 _ i4 => exact sound_classGroup h0 h1 h2 h3 i4
  | className h0 h1 h2 => exact sound_className h0 h1 h2
  | classToken h0 h1 _ _ i2 => exact sound_classToken h0 h1 i2
  | fontGroup h0 h1 _ i2 => exact sound_fontGroup h0 h1 i2
  | fontToken h0 h1 _ _ i2 => exact sound_fontToken h0 h1 i2
  | textcolor h0 h1 _ i2 => exact sound_textcolor h0 h1 i2
  | colorbox h0 h1 h2 => exact sound_colorbox h0 h1 h2
  | fcolorbox h0 h1 h2 h3 => exact sound_fcolorbox h0 h1 h2 h3
  | text h0 h1 => exact sound_text h0 h1
  | textFont h0 h1 => exact sound_textFont h0 h1
  | accent h0 _ i1 => exact sound_accent h0 i1
  | under h0 _ i1 => exact sound_under h0 i1
  | xarrow h0 h1 _ i2 => exact sound_xarrow h0 h1 i2
  | xarrowBelow h0 h1 _ _ i2 i3 => exact sound_xarrowBelow h0 h1 i2 i3
  | frac h0 _ _ i1 i2 => exact sound_frac h0 i1 i2
  | genfrac h0 h1 h2 h3 h4 _ _ i5 i6 => exact sound_genfrac h0 h1 h2 h3 h4 i5 i6
  | overset h0 _ _ i1 i2 => exact sound_overset h0 i1 i2
  | buildrel h0 h1 h2 _ _ i3 i4 => exact sound_buildrel h0 h1 h2 i3 i4
  | buildrelToken h0 h1 h2 h3 _ _ _ i4 i5 => exact sound_buildrelToken h0 h1 h2 h3 i4 i5
  | buildrelDigit h0 h1 h2 h3 _ i4 => exact sound_buildrelDigit h0 h1 h2 h3 i4
  | sideset h0 h1 h2 _ i3 => exact sound_sideset h0 h1 h2 i3
  | sqrt h0 h1 _ i2 => exact sound_sqrt h0 h1 i2
  | root h0 h1 _ _ i2 i3 => exact sound_root h0 h1 i2 i3
  | surd h0 => exact sound_surd h0
  | negated h0 _ i1 => exact sound_negated h0 i1
  | substack h0 h1 _ i2 => exact sound_substack h0 h1 i2
  | environment h0 h1 h2 h3 _ i4 => exact sound_environment h0 h1 h2 h3 i4
  | groupArg h0 _ i1 => exact sound_groupArg h0 i1
  | tokenArg h0 _ _ i1 => exact sound_tokenArg h0 i1
  | nil => exact sound_nil
  | call h0 h1 h2 _ _ _ i =>
    obtain ⟨k, hk⟩ := (hS _).2.1 _ _ _ _ h1 h2
    exact sound_call h0 hk i
  | plain h0 hf _ hk h2 h3 _ i1 i4 => exact sound_plain h0 (hS.unbound hf) i1 hk h2 h3 i4
  | skipping h0 hf _ hk _ i1 i4 => exact sound_skipping h0 (hS.unbound hf) i1 hk i4
  | script h0 hf _ hk h2 h3 h4 _ h6 _ i1 i5 i7 => exact sound_script h0 (hS.unbound hf) i1 hk h2 h3 h4 i5 h6 i7
  | subSup h0 hf _ hk h2 h3 _ _ h6 _ i1 i4 i5 i7 => exact sound_subSup h0 (hS.unbound hf) i1 hk h2 h3 i4 i5 h6 i7
  | supSub h0 hf _ hk h2 h3 _ _ h6 _ i1 i4 i5 i7 => exact sound_supSub h0 (hS.unbound hf) i1 hk h2 h3 i4 i5 h6 i7
  | whole _ h1 i0 => exact sound_whole i0 h1
  | lastCell _ i0 => exact sound_lastCell i0
  | cell _ h1 h2 _ i0 i3 => exact sound_cell i0 h1 h2 i3
  | lastLine _ h1 i0 => exact sound_lastLine i0 h1
  | line _ h1 hf h2 h3 h4 h5 _ i0 i6 => exact sound_line i0 h1 (hS.free hf) h2 h3 h4 h5 i6
  | spacedLine _ h1 hf h2 h3 h4 h5 h6 _ i0 i7 => exact sound_spacedLine i0 h1 (hS.free hf) h2 h3 h4 h5 h6 i7

/-! ### Documents -/

theorem document {cf : Cfg} {Δ : Known} {s : Str} {ns : Nodes} (h : Document Δ s ns) : ∀ (D : Macros.Ctx) (c : Sl) (sp : Spans), Stores cf D Δ →
    trimStart c.cs = trimStart s →
    (∃ s', Walk cf ⟨[.sub c none], [], D, sp⟩ (ns.events.map .ok) s' ∧ s'.stack = []) ∨
    ∃ es s', es <+: ns.events ∧ Walk cf ⟨[.sub c none], [], D, sp⟩ (es.map .ok) s' ∧ Stop cf s' := by
  induction h with
  | formula h =>
    intro D c sp hS hc
    rcases sound hS h c none hc [] sp with ⟨s', h1, sp', rfl⟩ | ⟨-, h1⟩
    · exact .inl ⟨_, h1, rfl⟩
    · exact .inr h1
  | @define Δ s ns t Δ' u ms h hd _ ih =>
    intro D c sp hS hc
    rw [nodes_append_events]
    rcases sound hS h c none [] sp hc with ⟨_, h1, c1, sp1, hc1, rfl⟩ | ⟨-, es, s1, h1, h2, h3⟩
    · obtain ⟨D', c2, hS', hc2, h2⟩ := sound_define hS hd none [] sp1 hc1
      have h2 := h1.trans h2.walk
      rw [List.append_nil] at h2
      rcases ih D' c2 sp1 hS' hc2 with ⟨s3, h3, h4⟩ | ⟨es, s3, h3, h4, h5⟩
      · exact .inl ⟨s3, by rw [List.map_append]; exact h2.trans h3, h4⟩
      · exact .inr ⟨_, s3, (List.prefix_append_right_inj ns.events).2 h3, by rw [List.map_append]; exact h2.trans h4, h5⟩
    · exact .inr ⟨es, s1, h1.trans (List.prefix_append _ _), h2, h3⟩

/-- The error with which an execution stops. -/
theorem stop_error {cf : Cfg} {inp : Str} {its : List Item} {s1 s2 : State} (h : Exec cf (State.init inp) its s1) (hn : NoErr its)
    (hp : Pending cf s1 s2) (hs : Stop cf s2) : ∃ ctx s', step cf s1 = .item (.err .macroRecursionLimit ctx) s' := by
  cases hs with
  | @mk c' A B D sp name rest new k ht hx he =>
    obtain ⟨c, e1, e2, e3⟩ := hp.expands rfl rfl
    have hcalls := (h.base.onText e1 e3).calls
    have hne : trimStart c'.cs ≠ [] := by
      intro h0
      rw [← token_trim, h0] at ht
      cases ht
    have key : step cf s1 = step cf ⟨.sub c' A :: B, [], D, sp⟩ := by
      rcases hp.parse with rfl | ⟨c1, c2, A1, B1, M1, sp1, sp2, rfl, e4, hne1, hp'⟩
      · rfl
      · cases e4
        rw [step_sub_ne hne1, hp', ← step_sub_ne hne]
    have hpanic : ∀ p, step cf s1 = .panic p → p ≠ .assertion := by
      rintro p h1 rfl
      rcases h.panic h1 with ⟨h2, -⟩ | ⟨h2, -⟩ | ⟨h2, -⟩ | ⟨-, -, e, ctx, h2⟩
      · cases h2
      · cases h2
      · cases h2
      · obtain ⟨_, h3⟩ := hn _ h2; cases h3
    rw [key] at hpanic ⊢
    rw [step_sub_ne hne] at hpanic ⊢
    have ht' : token (startSt ⟨.sub c' A :: B, [], D, sp⟩ c' A).h.content.cs = .ok (.cs name) rest := ht
    have hx' : Macros.tryExpand cf (startSt ⟨.sub c' A :: B, [], D, sp⟩ c' A).h.macros name rest = some (.ok new k) := hx
    generalize startSt ⟨.sub c' A :: B, [], D, sp⟩ c' A = p at hcalls he ht' hx' hpanic ⊢
    unfold parse at hpanic ⊢
    rw [parseLoop] at hpanic ⊢
    unfold expansion at he
    simp only [ht', hx'] at hpanic he ⊢
    by_cases hl : (p.sp.exps.length ≥ maxExpansionDepth || p.sp.total ≥ maxExpansionBytes) = true
    · simp only [hl, if_true] at hpanic ⊢
      generalize hq : Sl.ptr cf { p.h.content with cs := rest } = q at hpanic ⊢
      cases hr : Spans.reach cf ⟨p.sp.input, p.sp.exps, p.sp.total, p.sp.nalloc + 1, p.sp.allocBytes + blen new⟩ q with
      | some y =>
        obtain ⟨i, sp'⟩ := y
        obtain ⟨t, hk⟩ := errorContext_ok (sp := ⟨p.sp.input, p.sp.exps, p.sp.total, p.sp.nalloc + 1, p.sp.allocBytes + blen new⟩) hcalls hr
        rw [hk]
        exact ⟨_, _, rfl⟩
      | none =>
        rw [errorContext_none hr] at hpanic
        exact absurd rfl (hpanic _ rfl)
    · simp only [hl] at hpanic he ⊢
      cases ha : Spans.add cf ⟨p.sp.input, p.sp.exps, p.sp.total + blen new, p.sp.nalloc + 1, p.sp.allocBytes + blen new⟩ (p.sp.nalloc + 1) new
          { p.h.content with cs := trimStart p.h.content.cs } (blen name + k + 1) with
      | none =>
        simp only [ha] at hpanic
        exact absurd rfl (hpanic _ rfl)
      | some sp' => simp only [ha] at he; cases he

theorem meaning (cf : Cfg) {inp : Str} {ns : Nodes} (h : Document Known.none inp ns) :
    Yields cf inp (ns.events.map .ok) ∨
    ∃ es ctx s, es <+: ns.events ∧ Exec cf (State.init inp) (es.map .ok ++ [.err .macroRecursionLimit ctx]) s := by
  rcases document (cf := cf) h [] ⟨0, blen inp, inp⟩ (.init inp) stores_none rfl with ⟨s', h1, h2⟩ | ⟨es, s2, h1, h2, h3⟩
  · obtain ⟨s1, h3, h4⟩ := h1.exec
    cases h4 with
    | same => exact .inl (exec_yields h3 h2)
    | expand => cases h2
  · obtain ⟨s1, h4, h5⟩ := h2.exec
    obtain ⟨ctx, s', h6⟩ := stop_error h4 (noErr_ok es) h5 h3
    exact .inr ⟨es, ctx, s', h1, h4.item h6⟩

end PL.Formula
