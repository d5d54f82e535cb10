import Verif.Lemmas.Formula.Needs
import Verif.Lemmas.Formula.Fractions
set_option autoImplicit false
/-!
# Readers of arguments, for every kind
-/
namespace PL.Formula
open PL PL.Lex PL.H Spec PL.Props

variable {cf : Cfg} {s r : Str} {k : ErrorKind}

theorem _root_.PL.M.assoc {σ α β γ : Type} (m : M σ α) (f : α → M σ β) (g : β → M σ γ) : (m >>= f) >>= g = m >>= fun a => f a >>= g := by
  funext s
  simp only [M.run_bind]
  cases m s <;> rfl

/-! ### Arguments -/

theorem any_tok {x : Word} {t : Str} (h : TokArg s x t) : ∃ w, ReadArg s w t := by
  obtain ⟨tk, h1, -⟩ := tokArg_argument h
  exact ⟨_, Macros.argument_ok h1⟩

theorem any_group {g : Str} (h : Braced s g r) : ReadArg s ('{' :: g ++ ['}']) r := by
  obtain ⟨w, t, hw, rfl, h⟩ := h
  exact .group hw h

theorem reader_any : Reader cf H.argument .any where
  ok h r := by
    rintro ⟨⟩
    rename_i w hw
    obtain ⟨a, e, -⟩ := Macros.argument_of hw
    exact ⟨_, past h r, by unfold H.argument; rw [e]; rfl, .past⟩
  err h k := by
    rintro ⟨⟩
    exact errs_argument ‹_›
  total _ h _ := by
    rcases argument_total h.content.cs with ⟨g, r, hg⟩ | ⟨x, t, ht⟩ | ⟨k, hk⟩
    · exact .inl ⟨r, .any (any_group hg)⟩
    · obtain ⟨w, hw⟩ := any_tok ht
      exact .inl ⟨t, .any hw⟩
    · exact .inr ⟨k, .any hk⟩

theorem reader_optional : Reader cf H.optionalArgument .optional where
  ok h r := by
    rintro ⟨⟩
    rename_i g hg
    obtain ⟨x, e, -⟩ := maybeOptional_of hg
    exact ⟨_, _, e, .past⟩
  err h k := by rintro ⟨⟩
  total _ h _ := by
    obtain ⟨g, r, h⟩ := optional_total h.content.cs
    exact .inl ⟨r, .optional h⟩

theorem reader_braces : Reader cf H.braceArgument .braces where
  ok h r := by
    rintro ⟨⟩
    exact ⟨_, _, braceArgument_of ‹_›, .past⟩
  err h k := by
    rintro ⟨⟩
    rename_i hk
    obtain ⟨r, e⟩ := noBraces_err hk
    exact ⟨_, by unfold H.braceArgument; rw [e]⟩
  total _ h _ := by
    rcases braces_total h.content.cs with ⟨g, r, hg⟩ | ⟨k, hk⟩
    · exact .inl ⟨r, .braces hg⟩
    · exact .inr ⟨k, .braces hk⟩

theorem reader_between (K : GroupingKind) : Reader cf (H.groupContent K) (.between K) where
  ok h r := by
    rintro ⟨⟩
    exact ⟨_, _, groupContent_of ‹_›, .past⟩
  err h k := by
    rintro ⟨⟩
    exact errs_group ‹_›
  total _ h _ := by
    by_cases hs : ∃ g r, Split K.openingStr K.closingStr 0 h.content.cs g r
    · obtain ⟨g, r, hs⟩ := hs
      exact .inl ⟨r, .between hs⟩
    · exact .inr ⟨_, .between hs⟩

/-! ### Text -/

theorem text_total (s : Str) : (∃ r, Takes .text s r) ∨ ∃ k, Lacks .text s k := by
  rcases argument_total s with ⟨g, r, hg⟩ | ⟨x, t, ht⟩ | ⟨k, hk⟩
  · exact .inl ⟨r, .text (.braced hg)⟩
  · cases x with
    | chr c => exact .inl ⟨t, .text (.rest ht)⟩
    | cs n => exact .inr ⟨_, .text (.command ht)⟩
  · exact .inr ⟨k, .text (.nothing hk)⟩

theorem reader_text (f : Option Font) : Reader cf (textArgument f) .text where
  ok h r := by
    rintro ⟨⟩
    rename_i g hg
    unfold textArgument
    generalize hs : h.content.cs = s at hg
    cases hg with
    | braced hb =>
      refine ⟨⟨⟩, ?_⟩
      rw [M.assoc, M.bind_ok (argument_group (by rw [hs]; exact hb))]
      cases f <;> exact ⟨_, rfl, rfl, rfl, rfl, rfl⟩
    | rest ht =>
      obtain ⟨tk, e, hx⟩ := argument_token (h := h) (by rw [hs]; exact ht)
      refine ⟨⟨⟩, ?_⟩
      rw [M.assoc, M.bind_ok e]
      cases tk with
      | cs => cases hx
      | chr d ctx => cases f <;> exact ⟨_, rfl, rfl, rfl, rfl, rfl⟩
  err h k := by
    rintro ⟨⟩
    exact errs_text ‹_›
  total _ h _ := text_total _

/-- The argument of `\operatorname`. -/
def nameArg : H PUnit := do
  match ← H.argument with
  | .token (.cs _) => M.fail .controlSequenceAsArgument
  | .token (.chr _ ctx) => ev (.content (.function ctx.cs))
  | .group g => ev (.content (.function g.cs))

theorem reader_name : Reader cf nameArg .text where
  ok h r := by
    rintro ⟨⟩
    rename_i g hg
    unfold nameArg
    generalize hs : h.content.cs = s at hg
    cases hg with
    | braced hb =>
      refine ⟨⟨⟩, ?_⟩
      rw [M.bind_ok (argument_group (by rw [hs]; exact hb))]
      exact ⟨_, rfl, rfl, rfl, rfl, rfl⟩
    | rest ht =>
      obtain ⟨tk, e, hx⟩ := argument_token (h := h) (by rw [hs]; exact ht)
      refine ⟨⟨⟩, ?_⟩
      rw [M.bind_ok e]
      cases tk with
      | cs => cases hx
      | chr d ctx => exact ⟨_, rfl, rfl, rfl, rfl, rfl⟩
  err h k := by
    rintro ⟨⟩
    rename_i hk
    unfold nameArg
    generalize hs : h.content.cs = s at hk
    cases hk with
    | nothing hk => exact (errs_argument (by rw [hs]; exact hk)).bind
    | command ht =>
      obtain ⟨tk, e, hx⟩ := argument_token (h := h) (by rw [hs]; exact ht)
      refine .after e ?_
      cases tk with
      | chr => cases hx
      | cs n => exact .fail
  total _ h _ := text_total _

/-! ### Colours -/

theorem colorOf_ok {g : Str} {h : HSt} (hg : ColourText g) : ∃ c, colorOf g h = .ok c h := by
  obtain ⟨c, e⟩ := color_ok hg
  exact ⟨c, by unfold colorOf; rw [e]; rfl⟩

theorem colorOf_err {g : Str} {h : HSt} (hg : NotColour g) : Errs (colorOf g) h .unknownColor := by
  unfold colorOf
  rw [color_no hg]
  exact .fail

theorem colorOf_total {g : Str} {h : HSt} (hp : ∀ p, colorOf g h ≠ .panic p) : ColourText g ∨ NotColour g := by
  refine color_total fun e => hp .sliceBoundary ?_
  unfold colorOf
  rw [e]
  rfl

theorem reader_colour : Reader cf (groupArg .argument >>= fun g => colorOf g.cs) .colour where
  ok h r := by
    intro ht
    cases ht with | colour hb hc =>
    obtain ⟨c, e⟩ := colorOf_ok (h := past h r) hc
    exact ⟨c, past h r, by rw [M.bind_ok (groupArg_of hb)]; exact e, .past⟩
  err h k := by
    intro hk
    cases hk with
    | noColour hk => exact (errs_groupArg hk).bind
    | colour hb hc => exact .after (groupArg_of hb) (colorOf_err hc)
  total _ h hp := by
    rcases group_total .argument h.content.cs with ⟨g, r, hg⟩ | ⟨k, hk⟩
    · have hp1 := np_after (groupArg_of hg) hp
      rcases colorOf_total hp1 with hc | hc
      · exact .inl ⟨r, .colour hg hc⟩
      · exact .inr ⟨_, .colour hg hc⟩
    · exact .inr ⟨k, .noColour hk⟩

theorem reader_colours : Reader cf (do
    let f ← groupArg .argument
    let b ← groupArg .argument
    let fc ← colorOf f.cs
    let bc ← colorOf b.cs
    return (fc, bc)) .colours where
  ok h r := by
    intro ht
    cases ht with | @colours _ g t g' _ hb hb' hc hc' =>
    obtain ⟨c, e⟩ := colorOf_ok (h := past (past h t) r) hc
    obtain ⟨c', e'⟩ := colorOf_ok (h := past (past h t) r) hc'
    refine ⟨(c, c'), past h r, ?_, .past⟩
    rw [M.bind_ok (groupArg_of hb), M.bind_ok (groupArg_of (h := past h t) hb')]
    dsimp only [Sl.part]
    rw [M.bind_ok e, M.bind_ok e']
    rfl
  err h k := by
    intro hk
    cases hk with
    | noColours hk => exact (errs_groupArg hk).bind
    | noSecond hb hk => exact .after (groupArg_of hb) (errs_groupArg (h := past h _) hk).bind
    | firstColour hb hb' hc => exact .after (groupArg_of hb) (.after (groupArg_of (h := past h _) hb') (colorOf_err hc).bind)
    | @secondColour _ g t g' r hb hb' hc hc' =>
      obtain ⟨c, e⟩ := colorOf_ok (h := past (past h t) r) hc
      exact .after (groupArg_of hb) (.after (groupArg_of (h := past h _) hb') (.after e (colorOf_err hc').bind))
  total _ h hp := by
    rcases group_total .argument h.content.cs with ⟨g, t, hb⟩ | ⟨k, hk⟩
    · have hp1 := np_after (groupArg_of hb) hp
      rcases group_total .argument t with ⟨g', r, hb'⟩ | ⟨k, hk⟩
      · have hp2 := np_after (groupArg_of (h := past h t) hb') hp1
        rcases colorOf_total (np_bind hp2) with hc | hc
        · obtain ⟨c, e⟩ := colorOf_ok (h := past (past h t) r) hc
          have hp3 := np_after e hp2
          rcases colorOf_total (np_bind hp3) with hc' | hc'
          · exact .inl ⟨r, .colours hb hb' hc hc'⟩
          · exact .inr ⟨_, .secondColour hb hb' hc hc'⟩
        · exact .inr ⟨_, .firstColour hb hb' hc⟩
      · exact .inr ⟨k, .noSecond hb hk⟩
    · exact .inr ⟨k, .noColours hk⟩

/-! ### Delimiters -/

theorem reader_delim : Reader cf (H.lex delimiter) .delim where
  ok h r := by
    rintro ⟨⟩
    exact ⟨_, _, lex_of (delim_of ‹_›), .past⟩
  err h k := by
    rintro ⟨⟩
    exact .lex (noDelim_err ‹_›)
  total _ h _ := by
    rcases delim_total h.content.cs with ⟨d, ty, r, hd⟩ | ⟨k, hk⟩
    · exact .inl ⟨r, .delim hd⟩
    · exact .inr ⟨k, .delim hk⟩

theorem reader_leftDelim : Reader cf leftDelim .delimOrDot where
  ok h r := by
    rintro ⟨⟩
    exact ⟨_, _, leftDelim_of ‹_›, .past⟩
  err h k := by
    rintro ⟨⟩
    exact errs_leftDelim ‹_› ‹_›
  total _ h _ := by
    by_cases hd : h.content.cs.head? = some '.'
    · cases hs : h.content.cs with
      | nil => rw [hs] at hd; cases hd
      | cons c t => rw [hs] at hd; cases hd; exact .inl ⟨t, .delimOrDot .dot⟩
    · rcases delim_total h.content.cs with ⟨d, ty, r, h⟩ | ⟨k, hk⟩
      · cases h with
        | chr h1 h2 => exact .inl ⟨r, .delimOrDot (.chr hd h1 h2)⟩
        | cs h1 h2 => exact .inl ⟨r, .delimOrDot (.cs hd h1 h2)⟩
      · exact .inr ⟨k, .delimOrDot hd hk⟩

/-! ### Lengths -/

theorem lengthHere_total (hp : ∀ p, dimensionOrBraced s ≠ .panic p) : (∃ d r, MaybeBraced Length s d r) ∨ ∃ k, NotBraced Length NoLength s k :=
  braced_total (fun _ => length_total) hp

theorem lengthHere_err (h : NotBraced Length NoLength s k) : ∃ r, dimensionOrBraced s = .err k r :=
  notBraced_err (fun _ _ _ => length_dimension) (fun _ => noLength_err) h

theorem lengthHere_ok {d : Dim} (h : MaybeBraced Length s d r) : dimensionOrBraced s = .ok d r := by
  unfold dimensionOrBraced
  exact maybeBraced_of (fun _ _ _ hl => length_dimension hl) h

theorem glueHere_total (hp : ∀ p, glueOrBraced s ≠ .panic p) : (∃ d r, MaybeBraced Glue s d r) ∨ ∃ k, NotBraced Glue NoGlue s k :=
  braced_total (fun _ => glue_total) hp

theorem glueHere_err (h : NotBraced Glue NoGlue s k) : ∃ r, glueOrBraced s = .err k r :=
  notBraced_err (fun _ _ _ => glue_of) (fun _ => noGlue_err) h

theorem glueHere_ok {d : Dim × Option Dim × Option Dim} (h : MaybeBraced Glue s d r) : glueOrBraced s = .ok d r := by
  unfold glueOrBraced
  exact maybeBraced_of (fun _ _ _ hl => glue_of hl) h

theorem reader_length : Reader cf (H.lex dimensionOrBraced) (.length false) where
  ok h r := by
    rintro ⟨⟩
    exact ⟨_, _, lex_of (lengthHere_ok ‹_›), .past⟩
  err h k := by
    rintro (_ | _)
    exact .lex (lengthHere_err ‹_›)
  total _ h hp := by
    rcases lengthHere_total (np_lex hp) with ⟨d, r, h⟩ | ⟨k, h⟩
    · exact .inl ⟨r, .length h (by simp)⟩
    · exact .inr ⟨k, .length h⟩

theorem reader_glue : Reader cf (H.lex glueOrBraced) (.glue false) where
  ok h r := by
    rintro ⟨⟩
    exact ⟨_, _, lex_of (glueHere_ok ‹_›), .past⟩
  err h k := by
    rintro (_ | _)
    exact .lex (glueHere_err ‹_›)
  total _ h hp := by
    rcases glueHere_total (np_lex hp) with ⟨d, r, h⟩ | ⟨k, h⟩
    · exact .inl ⟨r, .glue h (by simp)⟩
    · exact .inr ⟨k, .glue h⟩

/-- The argument of `\mkern`. -/
def mkernArg : H PUnit := do
  let d ← H.lex dimensionOrBraced
  if d.unit = .mu then ev (.space (some d) none none) else M.fail .mathUnit

theorem reader_mkern : Reader cf mkernArg (.length true) where
  ok h r := by
    intro ht
    cases ht with | length h2 h1 =>
    refine ⟨⟨⟩, ?_⟩
    unfold mkernArg
    rw [M.bind_ok (lex_of (lengthHere_ok h2)), if_pos (h1 rfl)]
    exact ⟨_, rfl, rfl, rfl, rfl, rfl⟩
  err h k := by
    unfold mkernArg
    intro hk
    cases hk with
    | length hk => exact (Errs.lex (lengthHere_err hk)).bind
    | lengthUnit h1 h2 =>
      refine .after (lex_of (lengthHere_ok h1)) ?_
      rw [if_neg h2]
      exact .fail
  total _ h hp := by
    unfold mkernArg at hp
    rcases lengthHere_total (np_lex (np_bind hp)) with ⟨d, r, h⟩ | ⟨k, h⟩
    · by_cases hd : d.unit = .mu
      · exact .inl ⟨r, .length h fun _ => hd⟩
      · exact .inr ⟨_, .lengthUnit h hd⟩
    · exact .inr ⟨k, .length h⟩

theorem mathUnits_iff (d : Dim) (p m : Option Dim) : (d.unit = .mu && p.all (·.unit = .mu) && m.all (·.unit = .mu)) = true ↔ MathUnits (d, p, m) := by
  unfold MathUnits
  cases p <;> cases m <;> simp [and_assoc]

/-- The argument of `\mskip`. -/
def mskipArg : H PUnit := do
  let (d, p, m) ← H.lex glueOrBraced
  if d.unit = .mu && p.all (·.unit = .mu) && m.all (·.unit = .mu) then ev (.space (some d) none none)
  else M.fail .mathUnit

theorem reader_mskip : Reader cf mskipArg (.glue true) where
  ok h r := by
    intro ht
    cases ht with | @glue _ _ d _ h2 h1 =>
    obtain ⟨d, p, m⟩ := d
    refine ⟨⟨⟩, ?_⟩
    unfold mskipArg
    rw [M.bind_ok (lex_of (glueHere_ok h2))]
    dsimp only
    rw [if_pos ((mathUnits_iff _ _ _).2 (h1 rfl))]
    exact ⟨_, rfl, rfl, rfl, rfl, rfl⟩
  err h k := by
    unfold mskipArg
    intro hk
    cases hk with
    | glue hk => exact (Errs.lex (glueHere_err hk)).bind
    | @glueUnit _ d _ h1 h2 =>
      obtain ⟨d, p, m⟩ := d
      refine .after (lex_of (glueHere_ok h1)) ?_
      dsimp only
      rw [if_neg (fun e => h2 ((mathUnits_iff _ _ _).1 e))]
      exact .fail
  total _ h hp := by
    unfold mskipArg at hp
    rcases glueHere_total (np_lex (np_bind hp)) with ⟨d, r, h⟩ | ⟨k, h⟩
    · by_cases hd : MathUnits d
      · exact .inl ⟨r, .glue h fun _ => hd⟩
      · exact .inr ⟨_, .glueUnit h hd⟩
    · exact .inr ⟨k, .glue h⟩

theorem reader_lengthGroup : Reader cf (groupArg .dimensionArgument >>= fun g => onStr dimension g.cs) .lengthGroup where
  ok h r := by
    intro ht
    cases ht with | lengthGroup hb hl =>
    exact ⟨_, past h r, by rw [M.bind_ok (groupArg_of hb)]; exact onStr_of (length_dimension hl), .past⟩
  err h k := by
    intro hk
    cases hk with
    | noLengthGroup hk => exact (errs_groupArg hk).bind
    | lengthGroup hb hl => exact .after (groupArg_of hb) (.onStr (noLength_err hl))
  total _ h hp := by
    rcases group_total .dimensionArgument h.content.cs with ⟨g, r, hg⟩ | ⟨k, hk⟩
    · have hp1 := np_after (groupArg_of hg) hp
      rcases length_total (np_onStr hp1) with ⟨d, u, hl⟩ | hl
      · exact .inl ⟨r, .lengthGroup hg hl⟩
      · exact .inr ⟨_, .lengthGroup hg hl⟩
    · exact .inr ⟨k, .noLengthGroup hk⟩

theorem reader_glueGroup : Reader cf (groupArg .dimensionArgument >>= fun g => onStr glue g.cs) .glueGroup where
  ok h r := by
    intro ht
    cases ht with | glueGroup hb hl =>
    exact ⟨_, past h r, by rw [M.bind_ok (groupArg_of hb)]; exact onStr_of (glue_of hl), .past⟩
  err h k := by
    intro hk
    cases hk with
    | noGlueGroup hk => exact (errs_groupArg hk).bind
    | glueGroup hb hl => exact .after (groupArg_of hb) (.onStr (noGlue_err hl))
  total _ h hp := by
    rcases group_total .dimensionArgument h.content.cs with ⟨g, r, hg⟩ | ⟨k, hk⟩
    · have hp1 := np_after (groupArg_of hg) hp
      rcases glue_total (np_onStr hp1) with ⟨d, u, hl⟩ | hl
      · exact .inl ⟨r, .glueGroup hg hl⟩
      · exact .inr ⟨_, .glueGroup hg hl⟩
    · exact .inr ⟨k, .noGlueGroup hk⟩

/-! ### `\genfrac` -/

theorem reader_genDelim : Reader cf genfracDelim .genDelim where
  ok h r := by
    rintro ⟨⟩
    exact ⟨_, _, genDelim_of ‹_›, .past⟩
  err h k := by
    rintro ⟨⟩
    exact errs_genDelim ‹_›
  total _ h _ := by
    rcases argument_total h.content.cs with ⟨g, r, hg⟩ | ⟨x, t, ht⟩ | ⟨k, hk⟩
    · by_cases h0 : g = []
      · subst h0; exact .inl ⟨r, .genDelim (.none hg)⟩
      · exact .inr ⟨_, .genDelim (.group hg h0)⟩
    · cases x with
      | chr c =>
        cases hd : charDelimiterMap c with
        | none => exact .inr ⟨_, .genDelim (.chr ht hd)⟩
        | some d => exact .inl ⟨t, .genDelim (.chr ht hd)⟩
      | cs n =>
        cases hd : controlSequenceDelimiterMap n with
        | none => exact .inr ⟨_, .genDelim (.cs ht hd)⟩
        | some d => exact .inl ⟨t, .genDelim (.cs ht hd)⟩
    · exact .inr ⟨k, .genDelim (.nothing hk)⟩

theorem reader_genBar : Reader cf genfracBar .genBar where
  ok h r := by
    rintro ⟨⟩
    exact ⟨_, _, genBar_of ‹_›, .past⟩
  err h k := by
    rintro ⟨⟩
    exact errs_genBar ‹_›
  total _ h hp := by
    rcases group_total .dimensionArgument h.content.cs with ⟨g, r, hg⟩ | ⟨k, hk⟩
    · by_cases h0 : g = []
      · subst h0; exact .inl ⟨r, .genBar (.none hg)⟩
      · have hp1 : ∀ p, dimension g ≠ .panic p := by
          intro p e
          unfold genfracBar at hp
          refine np_after (argument_group hg) hp p ?_
          dsimp only [Sl.part]
          rw [if_neg (by simpa using h0), M.run_bind]
          unfold H.onStr
          rw [M.run_bind, e]
        rcases length_total hp1 with ⟨d, u, hl⟩ | hl
        · by_cases hu : u = []
          · subst hu; exact .inl ⟨r, .genBar (.some hg h0 hl)⟩
          · exact .inr ⟨_, .genBar (.more hg hl hu)⟩
        · exact .inr ⟨_, .genBar (.length hg h0 hl)⟩
    · exact .inr ⟨k, .genBar (.group hk)⟩

theorem style_digit {c : Char} (h : c ∈ ['0', '1', '2', '3']) : ∃ (i : Nat) (st : Style), c = Char.ofNat (48 + i) ∧
    [Style.display, .text, .script, .scriptScript][i]? = some st := by
  simp only [List.mem_cons, List.not_mem_nil, or_false] at h
  rcases h with rfl | rfl | rfl | rfl
  · exact ⟨0, _, rfl, rfl⟩
  · exact ⟨1, _, rfl, rfl⟩
  · exact ⟨2, _, rfl, rfl⟩
  · exact ⟨3, _, rfl, rfl⟩

theorem reader_genStyle : Reader cf genfracStyle .genStyle where
  ok h r := by
    rintro ⟨⟩
    exact ⟨_, _, genStyle_of ‹_›, .past⟩
  err h k := by
    rintro ⟨⟩
    exact errs_genStyle ‹_›
  total _ h _ := by
    rcases argument_total h.content.cs with ⟨g, r, hg⟩ | ⟨x, t, ht⟩ | ⟨k, hk⟩
    · by_cases h0 : g ∈ [[], ['0'], ['1'], ['2'], ['3']]
      · simp only [List.mem_cons, List.not_mem_nil, or_false] at h0
        rcases h0 with rfl | h0
        · exact .inl ⟨r, .genStyle (.none hg)⟩
        · obtain ⟨c, rfl, hc⟩ : ∃ c, g = [c] ∧ c ∈ ['0', '1', '2', '3'] := by
            rcases h0 with rfl | rfl | rfl | rfl <;> exact ⟨_, rfl, by simp⟩
          obtain ⟨i, st, rfl, hi⟩ := style_digit hc
          exact .inl ⟨r, .genStyle (.some (.inr hg) hi)⟩
      · exact .inr ⟨_, .genStyle (.group hg h0)⟩
    · cases x with
      | chr c =>
        by_cases hc : c ∈ ['0', '1', '2', '3']
        · obtain ⟨i, st, rfl, hi⟩ := style_digit hc
          exact .inl ⟨t, .genStyle (.some (.inl ht) hi)⟩
        · exact .inr ⟨_, .genStyle (.chr ht hc)⟩
      | cs n => exact .inr ⟨_, .genStyle (.cs ht)⟩
    · exact .inr ⟨k, .genStyle (.nothing hk)⟩

/-! ### `\char` -/

/-- The argument of `\char`. -/
def codeArg (cf : Cfg) : H PUnit := do
  let n ← H.lex (unsignedInteger cf)
  if n > 255 then M.fail .invalidCharNumber else ev (ordinary (Char.ofNat n))

theorem reader_code : Reader cf (codeArg cf) .code where
  ok h r := by
    intro ht
    cases ht with | code h1 h2 =>
    refine ⟨⟨⟩, ?_⟩
    unfold codeArg
    rw [M.bind_ok (lex_of (const_ok h1 (by omega))), if_neg (by omega)]
    exact ⟨_, rfl, rfl, rfl, rfl, rfl⟩
  err h k := by
    unfold codeArg
    intro hk
    cases hk with
    | noCode hk => exact (Errs.lex (noConst_err hk)).bind
    | code h1 h2 h3 =>
      refine .after (lex_of (const_ok h1 h3)) ?_
      rw [if_pos h2]
      exact .fail
  total ho h hp := by
    unfold codeArg at hp
    rcases const_total ho (np_lex (np_bind hp)) with ⟨n, r, h, hn⟩ | ⟨k, h⟩
    · by_cases hd : n ≤ 255
      · exact .inl ⟨r, .code h hd⟩
      · exact .inr ⟨_, .code h (by omega) hn⟩
    · exact .inr ⟨k, .noCode h⟩

end PL.Formula
