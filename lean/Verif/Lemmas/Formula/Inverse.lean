import Verif.Spec.Regular
import Verif.Lemmas.Formula.Main
set_option autoImplicit false
/-! # What successful reading says about the text -/
namespace PL.Formula
open PL PL.Lex PL.H Spec PL.Props

variable {cf : Cfg}

theorem eq_past {h : HSt} {r : Str} : ({ h with content := { h.content with cs := r } } : HSt) = past h r := rfl

theorem lex_inv {α : Type} {m : L α} {h h' : HSt} {a : α} (e : H.lex m h = .ok a h') : ∃ r, m h.content.cs = .ok a r ∧ h' = past h r := by
  unfold H.lex at e
  cases hm : m h.content.cs with
  | ok b r => rw [hm] at e; cases e; exact ⟨r, rfl, rfl⟩
  | err => rw [hm] at e; cases e
  | panic => rw [hm] at e; cases e

theorem onStr_inv {α : Type} {m : L α} {h h' : HSt} {g : Str} {a : α} (e : H.onStr m g h = .ok a h') : (∃ r, m g = .ok a r) ∧ h' = h := by
  unfold H.onStr at e
  cases hm : m g with
  | ok b r => rw [hm] at e; cases e; exact ⟨⟨r, rfl⟩, rfl⟩
  | err => rw [hm] at e; cases e
  | panic => rw [hm] at e; cases e

theorem says_ex (t : Tok) : ∃ x, Tok.says t x := by
  cases t with
  | cs n => exact ⟨.cs n, rfl⟩
  | chr c r => exact ⟨.chr c, rfl⟩

theorem token_inv {s r : Str} {t : Tok} (h : token s = .ok t r) : ∃ x, Tok.says t x ∧ NextTok s x r := by
  obtain ⟨x, hx⟩ := says_ex t
  exact ⟨x, hx, nextTok_iff.2 ⟨t, h, hx⟩⟩

theorem lexArgument_token {s r : Str} {tk : Tok} (h : Lex.argument s = .ok (.token tk) r) : token s = .ok tk r ∧ ∀ w u, Spaces w → s ≠ w ++ '{' :: u := by
  refine ⟨arg_facts h, ?_⟩
  rintro w u hw rfl
  unfold Lex.argument at h
  rw [trimStart_ws_append hw, trimStart_eq_self (by intro c r e; cases e; decide)] at h
  have : stripPrefix c!"{" ('{' :: u) = some u := stripPrefix_some.2 rfl
  rw [this] at h
  dsimp only at h
  obtain ⟨g, r', -, h⟩ := bind_inv h
  cases h

/-- An argument is a group or a token. -/
theorem argument_inv {h h' : HSt} {a : HArg} (e : H.argument h = .ok a h') :
    (∃ g r, Braced h.content.cs g r ∧ a = .group (h.content.part g 1 r) ∧ h' = past h r) ∨
    ∃ x ht t, TokArg h.content.cs x t ∧ a = .token ht ∧ ht.is x t ∧ h' = past h t := by
  unfold H.argument at e
  cases ha : Lex.argument h.content.cs with
  | ok b r =>
    rw [ha] at e
    cases e
    cases b with
    | group g => exact .inl ⟨g, r, argument_group_iff.1 ha, rfl, rfl⟩
    | token tk =>
      obtain ⟨h1, h2⟩ := lexArgument_token ha
      obtain ⟨x, hx, hn⟩ := token_inv h1
      exact .inr ⟨x, _, r, ⟨hn, h2⟩, rfl, ofTok_is h1 hx, rfl⟩
  | err => rw [ha] at e; cases e
  | panic => rw [ha] at e; cases e

/-- The same for an argument of a part of the text. -/
theorem argumentOf_inv {sl : Sl} {h h' : HSt} {a : HArg} (e : H.argumentOf sl h = .ok a h') : h' = h ∧
    ((∃ g r, Braced sl.cs g r ∧ a = .group (sl.part g 1 r)) ∨ ∃ x ht t, TokArg sl.cs x t ∧ a = .token ht ∧ ht.is x t) := by
  unfold H.argumentOf at e
  cases ha : Lex.argument sl.cs with
  | ok b r =>
    rw [ha] at e
    cases e
    refine ⟨rfl, ?_⟩
    cases b with
    | group g => exact .inl ⟨g, r, argument_group_iff.1 ha, rfl⟩
    | token tk =>
      obtain ⟨h1, h2⟩ := lexArgument_token ha
      obtain ⟨x, hx, hn⟩ := token_inv h1
      exact .inr ⟨x, _, r, ⟨hn, h2⟩, rfl, ofTok_is h1 hx⟩
  | err => rw [ha] at e; cases e
  | panic => rw [ha] at e; cases e

theorem groupArg_inv {er : ErrorKind} {h h' : HSt} {g : Sl} (e : groupArg er h = .ok g h') : ∃ r, Braced h.content.cs g.cs r ∧ h' = past h r := by
  obtain ⟨t, r, h1, rfl, rfl⟩ := groupArg_iff.1 e
  exact ⟨r, h1, rfl⟩

theorem braceArgument_inv {h h' : HSt} {g : Sl} (e : H.braceArgument h = .ok g h') : ∃ r, Braced h.content.cs g.cs r ∧ h' = past h r := by
  unfold H.braceArgument at e
  cases ha : Lex.braceArgument h.content.cs with
  | ok b r => rw [ha] at e; cases e; exact ⟨r, braceArgument_iff.1 ha, rfl⟩
  | err => rw [ha] at e; cases e
  | panic => rw [ha] at e; cases e

theorem groupContent_inv {k : GroupingKind} {h h' : HSt} {g : Sl} (e : H.groupContent k h = .ok g h') :
    ∃ r, Split k.openingStr k.closingStr 0 h.content.cs g.cs r ∧ h' = past h r := by
  unfold H.groupContent at e
  cases ha : Lex.groupContent k h.content.cs with
  | ok b r => rw [ha] at e; cases e; exact ⟨r, groupContent_ok.1 ha, rfl⟩
  | err => rw [ha] at e; cases e
  | panic => rw [ha] at e; cases e

theorem optionalArgument_inv {h h' : HSt} {g : Option Sl} (e : H.optionalArgument h = .ok g h') :
    (g = none ∧ ∃ r, NoOptional h.content.cs r ∧ h' = past h r) ∨ ∃ x r, g = some x ∧ Bracketed h.content.cs x.cs r ∧ h' = past h r := by
  unfold H.optionalArgument at e
  cases ha : Lex.optionalArgument h.content.cs with
  | ok b r =>
    rw [ha] at e
    cases e
    cases b with
    | none => exact .inl ⟨rfl, r, noOptional_iff.1 ha, rfl⟩
    | some b => exact .inr ⟨_, r, rfl, bracketed_iff.1 ha, rfl⟩
  | err => rw [ha] at e; cases e
  | panic => rw [ha] at e; cases e

/-! ### Lengths -/

theorem dimension_inv {s r : Str} {d : Dim} (h : dimension s = .ok d r) : Length s d r := by
  unfold dimension at h
  obtain ⟨n, s1, h1, h⟩ := M.bind_eq_ok h
  obtain ⟨u, s2, h2, h⟩ := M.bind_eq_ok h
  cases h
  rw [dimensionUnit_eq] at h2
  have hu : ∃ w t, Spaces w ∧ s1 = w ++ unitName u ++ t ∧ ∃ b, oneOptionalSpace t = .ok b r := by
    obtain ⟨w, hw, e⟩ := trimStart_spec s1
    split at h2
    · rename_i a b t ht
      split at h2
      · rename_i u' hu'
        split at h2
        · rename_i r' hr'
          cases h2
          refine ⟨w, t, hw, ?_, _, hr'⟩
          rw [unitOf_some hu', e, ht]; simp
        · cases h2
        · cases h2
      · cases h2
    · cases h2
  obtain ⟨w, t, hw, rfl, ht⟩ := hu
  obtain ⟨neg, ip, fp, hd, rfl⟩ := dimText_of h1 hw
  obtain ⟨h3, h4⟩ := optSpace_iff.1 ht
  exact .mk hd h3 h4

theorem glueTail_inv {kw s r : Str} {d : Option Dim} (hk : ∀ c u, kw = c :: u → isWs c = false) (hk0 : kw ≠ []) (h : glueTail kw s = .ok d r) :
    Stretch kw s d r := by
  unfold glueTail at h
  rw [M.get_bind] at h
  obtain ⟨w, hw, e⟩ := trimStart_spec s
  cases hp : stripPrefix kw (trimStart s) with
  | some t =>
    rw [hp] at h
    rw [stripPrefix_some] at hp
    dsimp only at h
    rw [M.set_bind] at h
    obtain ⟨x, r', h1, h⟩ := bind_inv h
    cases h
    rw [e, hp, ← List.append_assoc]
    exact .some hw (dimension_inv h1)
  | none =>
    rw [hp] at h
    cases h
    refine .none ?_
    rintro w' u hw' rfl
    rw [stripPrefix_none] at hp
    refine hp u ?_
    rw [List.append_assoc, trimStart_ws_append hw', trimStart_eq_self]
    intro c v e
    cases kw with
    | nil => exact absurd rfl hk0
    | cons d y => cases e; exact hk _ _ rfl

theorem glue_inv {s r : Str} {x : Dim × Option Dim × Option Dim} (h : glue s = .ok x r) : Glue s x r := by
  unfold glue at h
  obtain ⟨d, s1, h1, h⟩ := bind_inv h
  obtain ⟨p, s2, h2, h⟩ := bind_inv h
  obtain ⟨m, s3, h3, h⟩ := bind_inv h
  cases h
  exact .mk (dimension_inv h1) (glueTail_inv (by intro c u e; cases e; decide) (by decide) h2)
    (glueTail_inv (by intro c u e; cases e; decide) (by decide) h3)

theorem orBraced_inv {α : Type} {What : Str → α → Str → Prop} {m : L α} (hm : ∀ s a r, m s = .ok a r → What s a r) {s r : Str} {a : α}
    (h : orBraced m s = .ok a r) : MaybeBraced What s a r := by
  unfold orBraced at h
  rw [M.get_bind] at h
  obtain ⟨w, hw, e⟩ := trimStart_spec s
  split at h
  · obtain ⟨g, r1, h1, h⟩ := bind_inv h
    obtain ⟨⟨b, left⟩, r2, h2, h⟩ := bind_inv h
    unfold onInner at h2
    cases hg : m g with
    | ok c l =>
      rw [hg] at h2
      cases h2
      dsimp only at h
      split at h
      · cases h
      · rename_i hl
        cases h
        refine .braced (braceArgument_iff.1 h1) (hm _ _ _ hg) (trimStart_nil_iff.1 (by simpa using hl))
    | err => rw [hg] at h2; cases h2
    | panic => rw [hg] at h2; cases h2
  · rename_i hs
    refine .bare ?_ (hm _ _ _ h)
    rintro w' u hw' rfl
    apply hs
    rw [trimStart_ws_append hw', trimStart_eq_self (by intro c r e; cases e; decide)]
    simp [startsWith]

/-! ### Delimiters and colours -/

theorem delimiter_inv {s r : Str} {d : Char} {ty : DelimType} (h : delimiter s = .ok (d, ty) r) : Delim s d ty r := by
  unfold delimiter at h
  obtain ⟨t, r', h1, h⟩ := bind_inv h
  obtain ⟨x, hx, hn⟩ := token_inv h1
  cases t with
  | cs n =>
    cases x with
    | chr => cases hx
    | cs m =>
      cases hx
      simp only [tokenToDelim] at h
      cases hd : controlSequenceDelimiterMap n with
      | none => rw [hd] at h; cases h
      | some q => rw [hd] at h; cases h; exact .cs hn hd
  | chr c rest =>
    cases x with
    | cs => cases hx
    | chr m =>
      cases hx
      simp only [tokenToDelim] at h
      cases hd : charDelimiterMap c with
      | none => rw [hd] at h; cases h
      | some q => rw [hd] at h; cases h; exact .chr hn hd

theorem leftDelim_inv {h h' : HSt} {d : Option Char} (e : leftDelim h = .ok d h') : ∃ r, DelimText h.content.cs d r ∧ h' = past h r := by
  by_cases hr : ∃ u, h.content.cs = '.' :: u
  · obtain ⟨rest, hr⟩ := hr
    unfold leftDelim at e
    rw [M.get_bind] at e
    simp only [hr] at e
    cases e
    exact ⟨rest, by rw [hr]; exact .dot, rfl⟩
  · have key : ∀ (s : Str) (A : Str → H (Option Char)) (B : H (Option Char)), (¬ ∃ u, s = '.' :: u) →
        (match s with | '.' :: rest => A rest | _ => B) = B := by
      intro s A B hs
      split
      · rename_i u
        exact absurd ⟨u, rfl⟩ hs
      · rfl
    have e0 : leftDelim h = (do let (c, _) ← lex delimiter; return some c : H (Option Char)) h :=
      congrFun (key h.content.cs (fun rest => do setContent { h.content with cs := rest }; return none)
        (do let (c, _) ← lex delimiter; return some c) hr) h
    rw [e0] at e
    obtain ⟨⟨c, ty⟩, h1, e1, e⟩ := bind_inv e
    cases e
    obtain ⟨r, e2, rfl⟩ := lex_inv e1
    refine ⟨r, ?_, rfl⟩
    have hne : h.content.cs.head? ≠ some '.' := by
      intro hh
      cases hc : h.content.cs with
      | nil => rw [hc] at hh; cases hh
      | cons x u => rw [hc] at hh; cases hh; exact hr ⟨u, hc⟩
    cases delimiter_inv e2 with
    | chr h1 h2 => exact .chr hne h1 h2
    | cs h1 h2 => exact .cs hne h1 h2

theorem braced_text {s g r : Str} (h : Braced s g r) : ∃ w, Spaces w ∧ s = w ++ ('{' :: g ++ '}' :: r) := by
  obtain ⟨w, t, hw, rfl, h⟩ := h
  exact ⟨w, hw, by rw [h.eq]; simp⟩

theorem dvips_no_plus : ∀ p ∈ dvipsnames, '+' ∉ p.1 := by decide +kernel

theorem u8Hex_two {s : Str} {n : Nat} (h : u8Hex s = some n) : s.length = 2 := by
  unfold u8Hex at h
  split at h
  · rfl
  · cases h

/-- A plus sign occurs in a colour only in the hexadecimal notation. -/
theorem color_plus {g : Str} {v : Nat × Nat × Nat} (h : color g = .some v) (hp : '+' ∈ g) : ∃ x, g = '#' :: x ∧ x.length = 6 := by
  unfold color at h
  cases hs : stripPrefix c!"#" g with
  | some hex =>
    rw [hs] at h
    rw [stripPrefix_some] at hs
    subst hs
    refine ⟨hex, rfl, ?_⟩
    dsimp only at h
    split at h
    · split at h
      · cases h
      · rename_i rs rest h1
        obtain ⟨rfl, -⟩ := splitBytes_spec h1
        split at h
        · cases h
        · rename_i r hr
          split at h
          · cases h
          · rename_i gs bs h2
            obtain ⟨rfl, -⟩ := splitBytes_spec h2
            split at h
            · cases h
            · rename_i g hg
              split at h
              · cases h
              · rename_i b hb
                have := u8Hex_two hr
                have := u8Hex_two hg
                have := u8Hex_two hb
                simp
                omega
    · cases h
  | none =>
    exfalso
    rw [hs] at h
    dsimp only at h
    split at h
    · rename_i c hc
      exact dvips_no_plus _ ((lookup_iff_mem dvips_nodup).1 hc) hp
    · split at h
      · rename_i hc
        obtain ⟨n, h1, h2⟩ := primitiveColor_iff.1 hc
        have hl := css_letters _ h2
        clear h2 hs h hc
        rename_i hx _ _
        clear hx
        induction h1 with
        | nil => cases hp
        | @cons c d s n h1 h2 ih =>
          rcases List.mem_cons.1 hp with rfl | hp
          · have := hl d (by simp)
            rcases h1 with rfl | ⟨h, _⟩ | ⟨h, _⟩
            · revert this; decide
            · revert h; decide
            · revert h; decide
          · exact ih hp fun c hc => hl c (List.mem_cons_of_mem _ hc)
      · cases h

theorem colorOf_inv {h h' : HSt} {s g r t : Str} {c : Nat × Nat × Nat} (hr : Regular t) (hs : s <:+: t) (hb : Braced s g r) (e : colorOf g h = .ok c h') :
    ColourArg s c r ∧ h' = h := by
  unfold colorOf at e
  cases hc : color g with
  | some v =>
    rw [hc] at e
    cases e
    have hp : '+' ∉ g := by
      intro hp
      obtain ⟨x, rfl, hx⟩ := color_plus hc hp
      obtain ⟨w, -, rfl⟩ := braced_text hb
      refine hr.colour x (List.IsInfix.trans ⟨w, r, by simp⟩ hs) hx ?_
      simpa using hp
    exact ⟨⟨g, hb, hp, (C21_colour_partial g c hp).1 hc⟩, rfl⟩
  | none => rw [hc] at e; cases e
  | panic => rw [hc] at e; cases e

end PL.Formula
