import Verif.Lemmas.Formula.Operands
set_option autoImplicit false
/-! # The rules for fractions, stacked symbols and environments -/
namespace PL.Formula
open PL PL.Lex PL.H Spec PL.Props

variable {cf : Cfg} {D : Macros.Ctx} {a : Bool} {name s : Str}

attribute [local simp] nodes_append_events over_none none_over Node.events Nodes.events block_events group_events opening

/-! ### Fractions -/

theorem runs_two {k : Nat} {h : HSt} {n m : Nodes} {t u : Str} {pl pl' : Place} (ho : Operand cf D k s n t pl) (ho' : Operand cf D k t m u pl') (hs : h.content.cs = s) :
    Runs cf D (do let num ← H.argument; handleArgument (handleToken cf k) num; let den ← H.argument; handleArgument (handleToken cf k) den) h
      (n.events ++ m.events) u (pl.over pl') :=
  Runs.arg ho hs fun _ _ H => Runs.seq (H _ rfl) fun _ A => Runs.arg ho' A.cs fun _ _ H => H _ rfl

theorem runs_fraction {k : Nat} {h : HSt} {l r : Option Char} {bar : Option Dim} {style : Option Style} {n m : Nodes} {t u : Str} {pl pl' : Place}
    (ho : Operand cf D k s n t pl) (ho' : Operand cf D k t m u pl') (hs : h.content.cs = s) :
    Runs cf D (fractionLike (handleToken cf k) l r bar style) h (fractionNode l r bar style n m).events u (pl.over pl') := by
  have main : ∀ h : HSt, h.content.cs = s → ∀ {fin : H PUnit} {es : List Event}, (∀ h' : HSt, h'.content.cs = u → Runs cf D fin h' es u {}) →
      Runs cf D (do
        ev (.visual (.fraction bar))
        let num ← H.argument
        handleArgument (handleToken cf k) num
        let den ← H.argument
        handleArgument (handleToken cf k) den
        fin) h (.visual (.fraction bar) :: (n.events ++ m.events) ++ es) u (pl.over pl') := by
    intro h hs fin es hf
    exact Runs.congr (Runs.seq (Runs.ev hs) fun _ A => Runs.arg ho A.cs fun _ _ H => Runs.seq (H _ rfl) fun _ A => Runs.arg ho' A.cs fun _ _ H =>
      Runs.seq (H _ rfl) fun _ A => hf _ A.cs) (by simp) rfl (by simp)
  have fe : ∀ h' : HSt, h'.content.cs = u → Runs cf D (ev .end_) h' [.end_] u {} := fun h' e => Runs.ev e
  have fp : ∀ h' : HSt, h'.content.cs = u → Runs cf D (Pure.pure ⟨⟩) h' [] u {} := fun h' e => Runs.pure e
  unfold fractionLike
  rcases l with _ | l <;> rcases r with _ | r <;> rcases style with _ | st
  · exact Runs.congr (main h hs fp) (by simp [fractionNode]) rfl rfl
  · exact Runs.congr (Runs.seq (Runs.ev hs) fun _ A => Runs.seq (Runs.ev A.cs) fun _ A => main _ A.cs fe) (by simp [fractionNode]) rfl (by simp)
  · exact Runs.congr (Runs.seq (Runs.ev hs) fun _ A => main _ A.cs fe) (by simp [fractionNode]) rfl (by simp)
  · exact Runs.congr (Runs.seq (Runs.ev hs) fun _ A => Runs.seq (Runs.ev A.cs) fun _ A => main _ A.cs fe) (by simp [fractionNode]) rfl (by simp)
  · exact Runs.congr (Runs.seq (Runs.ev hs) fun _ A => main _ A.cs fe) (by simp [fractionNode]) rfl (by simp)
  · exact Runs.congr (Runs.seq (Runs.ev hs) fun _ A => Runs.seq (Runs.ev A.cs) fun _ A => main _ A.cs fe) (by simp [fractionNode]) rfl (by simp)
  · exact Runs.congr (Runs.seq (Runs.ev hs) fun _ A => main _ A.cs fe) (by simp [fractionNode]) rfl (by simp)
  · exact Runs.congr (Runs.seq (Runs.ev hs) fun _ A => Runs.seq (Runs.ev A.cs) fun _ A => main _ A.cs fe) (by simp [fractionNode]) rfl (by simp)

theorem sound_frac {l r : Option Char} {bar : Option Dim} {style : Option Style} {n m : Nodes} {t u : Str} {pl pl' : Place}
    (hp : primOf name = .frac l r bar style) (ho : Sound cf D (.operand s n t pl)) (ho' : Sound cf D (.operand t m u pl')) :
    Sound cf D (.means a (.cs name) s (.one (fractionNode l r bar style n m)) u (pl.over pl')) := by
  have e1 := ho.1.1
  have e2 := ho'.1.1
  refine sound_cs hp (by omega) fun k h hk hs ha => ?_
  rw [one_events]
  exact runs_fraction (ho.2 k (by omega)) (ho'.2 k (by omega)) hs

theorem genDelim_length {l : Option Char} {r : Str} (h : GenDelim s l r) : r.length < s.length := by
  cases h with
  | none h => exact braced_length h
  | chr h _ => exact nextTok_length h.1
  | cs h _ => exact nextTok_length h.1

theorem genDelim_of {h : HSt} {l : Option Char} {r : Str} (hd : GenDelim h.content.cs l r) : genfracDelim h = .ok l (past h r) := by
  unfold genfracDelim
  generalize hs : h.content.cs = s at hd
  cases hd with
  | none hb =>
    rw [M.bind_ok (argument_group (by rw [hs]; exact hb))]
    rfl
  | chr ht hm =>
    obtain ⟨tk, e, hx⟩ := argument_token (h := h) (by rw [hs]; exact ht)
    rw [M.bind_ok e]
    cases tk with
    | cs => cases hx
    | chr d ctx =>
      obtain ⟨rfl, -⟩ := hx
      simp only [hm]
      rfl
  | cs ht hm =>
    obtain ⟨tk, e, hx⟩ := argument_token (h := h) (by rw [hs]; exact ht)
    rw [M.bind_ok e]
    cases tk with
    | chr => cases hx
    | cs d =>
      obtain rfl : d = _ := hx
      simp only [hm]
      rfl

theorem genBar_length {l : Option Dim} {r : Str} (h : GenBar s l r) : r.length < s.length := by
  cases h with
  | none h => exact braced_length h
  | some h _ _ => exact braced_length h

theorem genBar_of {h : HSt} {l : Option Dim} {r : Str} (hd : GenBar h.content.cs l r) : genfracBar h = .ok l (past h r) := by
  unfold genfracBar
  generalize hs : h.content.cs = s at hd
  cases hd with
  | none hb =>
    rw [M.bind_ok (argument_group (by rw [hs]; exact hb))]
    rfl
  | @some g d _ hb hg hl =>
    rw [M.bind_ok (argument_group (by rw [hs]; exact hb))]
    dsimp only
    rw [if_neg (by simpa [Sl.part] using hg)]
    have : (do let d ← dimension; let l ← M.get; return (d, l) : L (Dim × Str)) g = .ok (d, []) [] := by
      rw [M.bind_ok (length_dimension hl), M.get_bind]
      rfl
    rw [show (h.content.part g 1 r).cs = g from rfl, M.bind_ok (onStr_of (g := g) this)]
    rfl

theorem genStyle_length {l : Option Style} {r : Str} (h : GenStyle s l r) : r.length < s.length := by
  cases h with
  | none h => exact braced_length h
  | some h _ =>
    rcases h with h | h
    · exact nextTok_length h.1
    · exact braced_length h

theorem styleOf_digit {i : Nat} {st : Style} (h : [Style.display, .text, .script, .scriptScript][i]? = some st) : styleOf (Char.ofNat (48 + i)) = some st := by
  match i, h with
  | 0, h => cases h; rfl
  | 1, h => cases h; rfl
  | 2, h => cases h; rfl
  | 3, h => cases h; rfl
  | n + 4, h => simp at h

theorem genStyle_of {h : HSt} {l : Option Style} {r : Str} (hd : GenStyle h.content.cs l r) : genfracStyle h = .ok l (past h r) := by
  unfold genfracStyle
  generalize hs : h.content.cs = s at hd
  cases hd with
  | none hb =>
    rw [M.bind_ok (argument_group (by rw [hs]; exact hb))]
    rfl
  | @some _ i st hh hi =>
    have hi := styleOf_digit hi
    rcases hh with ht | hb
    · obtain ⟨tk, e, hx⟩ := argument_token (h := h) (by rw [hs]; exact ht)
      rw [M.bind_ok e]
      cases tk with
      | cs => cases hx
      | chr d ctx =>
        obtain ⟨rfl, -⟩ := hx
        dsimp only
        rw [hi]
        rfl
    · rw [M.bind_ok (argument_group (by rw [hs]; exact hb))]
      simp only [Sl.part, hi]
      rfl

theorem sound_genfrac {l r : Option Char} {bar : Option Dim} {style : Option Style} {s1 s2 s3 s4 : Str} {n m : Nodes} {t u : Str} {pl pl' : Place}
    (hp : primOf name = .genfrac) (h1 : GenDelim s l s1) (h2 : GenDelim s1 r s2) (h3 : GenBar s2 bar s3) (h4 : GenStyle s3 style s4)
    (ho : Sound cf D (.operand s4 n t pl)) (ho' : Sound cf D (.operand t m u pl')) :
    Sound cf D (.means a (.cs name) s (.one (fractionNode l r bar style n m)) u (pl.over pl')) := by
  have e1 := ho.1.1
  have e2 := ho'.1.1
  have e3 := genDelim_length h1
  have e4 := genDelim_length h2
  have e5 := genBar_length h3
  have e6 := genStyle_length h4
  refine sound_cs hp (by omega) fun k h hk hs ha => ?_
  rw [one_events]
  refine Runs.after (genDelim_of (by rw [hs]; exact h1)) ?_
  refine Runs.after (genDelim_of h2) ?_
  refine Runs.after (genBar_of h3) ?_
  refine Runs.after (genStyle_of h4) ?_
  exact runs_fraction (ho.2 k (by omega)) (ho'.2 k (by omega)) rfl

/-! ### Stacked symbols -/

theorem runs_swap {k : Nat} {h : HSt} {over : H HArg} {arg : HArg} {t0 : Str} {es : List Event} {m : Nodes} {t u : Str} {pl pl' : Place}
    (he : over h = .ok arg (past h t0)) (hr : Runs cf D (handleArgument (handleToken cf k) arg) (past h t0) es t pl)
    (ho : Operand cf D k t m u pl') : Runs cf D (scriptSwap (handleToken cf k) over) h (m.events ++ es) u (pl.over pl') := by
  obtain ⟨h1, e1, A1⟩ := hr
  obtain ⟨is, hi, ui⟩ := A1.buf
  have hb : h1.buf.take h.buf.length = h.buf := by rw [hi]; exact List.take_left' rfl
  have hd : h1.buf.drop h.buf.length = is := by rw [hi]; exact List.drop_left' rfl
  obtain ⟨h2, e2, A2⟩ := Operand.runs (h := { h1 with buf := h.buf }) ho A1.cs
  obtain ⟨js, hj, uj⟩ := A2.buf
  refine ⟨{ h2 with buf := h2.buf ++ is }, ?_, ⟨A2.cs, ?_, ?_, ?_, A2.align.trans A1.align, A2.macros.trans A1.macros, js ++ is,
    by simp [hj], uj.append ui⟩⟩
  · unfold scriptSwap
    rw [M.get_bind, M.bind_ok he, M.bind_ok e1, M.get_bind, M.modify_bind, hb, hd]
    obtain ⟨arg', s0, e3, e4⟩ := operand_ok e2
    rw [M.bind_ok e3, M.bind_ok e4]
    rfl
  · have := A1.mods
    have := A2.mods
    simp_all [past, Place.over, Bool.or_assoc]
  · have e1 := A1.pos
    have e2 := A2.pos
    show h2.pos = _
    rw [e2]
    simp only [Place.over]
    cases pl'.pos with
    | some p => rfl
    | none => exact e1
  · have := A1.skip
    have := A2.skip
    simp_all [past, Place.over, Bool.or_assoc]

theorem sound_overset {ty : ScriptType} {n m : Nodes} {t u : Str} {pl pl' : Place} (hp : primOf name = .overset ty) (ho : Sound cf D (.operand s n t pl))
    (ho' : Sound cf D (.operand t m u pl')) : Sound cf D (.means a (.cs name) s (.one (.script ty .aboveBelow (m.append n))) u (pl.over pl')) := by
  have e1 := ho.1.1
  have e2 := ho'.1.1
  refine sound_cs hp (by omega) fun k h hk hs ha => ?_
  refine Runs.congr (Runs.seq (fs := m.events ++ n.events) (q := pl.over pl') (Runs.ev hs) fun h' A => ?_) (by simp) rfl (by simp)
  obtain ⟨arg, t', e, H⟩ := ho.2 k (by omega) h' A.cs
  exact runs_swap e (H _ rfl) (ho'.2 k (by omega))

theorem delimited_length {d o t : Str} (h : Delimited d s o t) : t.length ≤ s.length := by
  induction h with
  | found => simp
  | comment _ _ _ ih => simp; omega
  | escaped _ _ ih => simp; omega
  | braces _ h _ ih => have := split_length h; simp; omega
  | char _ _ _ _ _ ih => simp; omega

theorem delimited_lt {d o t : Str} (h : Delimited d s o t) (hd : d ≠ [] := by decide) : t.length < s.length := by
  induction h with
  | found => have := List.length_pos_iff.2 hd; simp; omega
  | comment _ _ _ ih => simp; omega
  | escaped _ _ ih => simp; omega
  | braces _ h _ ih => have := split_length h; simp; omega
  | char _ _ _ _ _ ih => simp; omega

theorem split_text {o c s g r : Str} {d : Nat} (h : Split o c d s g r) : s = g ++ (c ++ r) := by
  induction h with
  | done => rfl
  | opener _ _ ih => simp [ih]
  | closer _ _ ih => simp [ih]
  | comment _ _ _ _ ih => simp [ih]
  | escaped _ _ _ ih => simp [ih]
  | char _ _ _ _ _ ih => simp [ih]

theorem delimited_text {d o t : Str} (h : Delimited d s o t) : s = o ++ (d ++ t) := by
  induction h with
  | found => rfl
  | comment _ _ _ ih => simp [ih]
  | escaped _ _ ih => simp [ih]
  | braces _ h _ ih =>
    have := split_text h
    simp [this, ih]
  | char _ _ _ _ _ ih => simp [ih]

theorem delimited_content {d o t : Str} (h : Delimited d s o t) : o.length ≤ s.length := by
  rw [delimited_text h]; simp

theorem runs_buildrel {k : Nat} {h : HSt} {o t : Str} {x : Arg} {v : Str} {es : List Event} {m : Nodes} {t' u : Str} {pl pl' : Place} (hs : h.content.cs = s)
    (hd : Delimited c!"\\over" s o t) (hx : Lex.argument o = .ok x v)
    (hr : ∀ h' : HSt, h'.content.cs = t → Runs cf D (handleArgument (handleToken cf k) (.ofArg (h.content.part o (blen c!"\\over") t) v x)) h' es t' pl)
    (ho : Operand cf D k t' m u pl') :
    Runs cf D (execPrim cf (handleToken cf k) .buildrel) h (.script .sup .aboveBelow :: (m.events ++ es)) u (pl.over pl') := by
  have e : H.contentWithSuffix c!"\\over" h = .ok (h.content.part o (blen c!"\\over") t) (past h t) := by
    unfold H.contentWithSuffix
    rw [hs, PL.Macros.contentWithSuffix_ok.2 hd]
    rfl
  refine Runs.after e ?_
  refine Runs.congr (Runs.seq (fs := m.events ++ es) (q := pl.over pl') (Runs.ev rfl) fun h' A => ?_) (by simp) rfl (by simp)
  have e2 : argumentOf (h.content.part o (blen c!"\\over") t) h' = .ok (.ofArg (h.content.part o (blen c!"\\over") t) v x) (past h' h'.content.cs) := by
    unfold argumentOf
    rw [show (h.content.part o (blen c!"\\over") t).cs = o from rfl, hx]
    rfl
  exact runs_swap e2 (hr _ A.cs) ho

theorem sound_buildrel {o t g v : Str} {ns m : Nodes} {u : Str} {pl : Place} (hp : primOf name = .buildrel) (hd : Delimited c!"\\over" s o t)
    (hb : Braced o g v) (hf : Sound cf D (.formula g ns)) (ho : Sound cf D (.operand t m u pl)) :
    Sound cf D (.means a (.cs name) s (.one (.script .sup .aboveBelow (m.append (.one (block none [] ns))))) u pl) := by
  have e1 := ho.1.1
  have e2 := delimited_length hd
  refine sound_cs hp (by omega) fun k h hk hs ha => ?_
  refine Runs.congr (runs_buildrel (pl := {}) hs hd (argument_group_iff.2 hb) (fun h' hs' => Runs.push (unfolds_block hf rfl) hs') (ho.2 k (by omega)))
    (by simp) rfl (by simp)

/-- Only a digit looks at the text that it comes from. -/
theorem handleToken_ctx {n : Nat} {x : Word} {ht ht' : HTok} {v t : Str} (hx : ht.is x v) (hx' : ht'.is x t) (hd : ∀ c, x = .chr c → isDigit c = false)
    {h : HSt} (ha : h.harg = true) : handleToken cf n ht h = handleToken cf n ht' h := by
  cases x with
  | cs m =>
    cases ht with
    | chr => cases hx
    | cs a =>
      cases ht' with
      | chr => cases hx'
      | cs b =>
        obtain rfl : a = m := hx
        obtain rfl : b = a := hx'
        rfl
  | chr c =>
    cases ht with
    | cs => cases hx
    | chr a ctx =>
      cases ht' with
      | cs => cases hx'
      | chr b ctx' =>
        obtain ⟨rfl, -⟩ := hx
        obtain ⟨rfl, -⟩ := hx'
        cases n with
        | zero => rfl
        | succ n =>
          have hd := hd b rfl
          show handleChar b ctx h = handleChar b ctx' h
          unfold handleChar
          rw [M.get_bind, M.get_bind]
          simp only [ha, hd]
          simp

theorem sound_buildrelToken {o t v t' : Str} {x : Word} {ns m : Nodes} {u : Str} {pl pl' : Place} (hp : primOf name = .buildrel)
    (hd : Delimited c!"\\over" s o t) (hb : TokArg o x v) (hc : ∀ c, x = .chr c → isDigit c = false) (hm : Sound cf D (.means true x t ns t' pl))
    (ho : Sound cf D (.operand t' m u pl')) :
    Sound cf D (.means a (.cs name) s (.one (.script .sup .aboveBelow (m.append ns))) u (pl.over pl')) := by
  have e1 := ho.1.1
  have e0 := (hm.1 rfl).1
  have e2 := delimited_lt hd
  refine sound_cs hp (by omega) fun k h hk hs ha => ?_
  obtain ⟨tk, h1, h2, h3⟩ := tokArg_argument hb
  have hx := ofTok_is (sl := h.content.part o (blen c!"\\over") t) h2 h3
  refine Runs.congr (runs_buildrel (es := ns.events) hs hd h1 (fun h' hs' => ?_) (ho.2 k (by omega))) (by simp) rfl rfl
  obtain ⟨ht', hx'⟩ : ∃ ht' : HTok, ht'.is x t := by
    cases x with
    | cs n => exact ⟨.cs n, rfl⟩
    | chr c => exact ⟨.chr c { h.content with cs := c :: t }, rfl, rfl⟩
  obtain ⟨h1, e, A⟩ := hm.2 k { h' with harg := true } ht' (by omega) hx' hs' rfl
  rw [← handleToken_ctx hx hx' hc rfl] at e
  exact ⟨h1, e, ⟨A.cs, A.mods, A.pos, A.skip, A.align, A.macros, A.buf⟩⟩

theorem sound_buildrelDigit {o t v : Str} {c : Char} {m : Nodes} {u : Str} {pl : Place} (hp : primOf name = .buildrel)
    (hd : Delimited c!"\\over" s o t) (hb : TokArg o (.chr c) v) (hc : isDigit c = true) (ho : Sound cf D (.operand v m u pl)) :
    Sound cf D (.means a (.cs name) s (.one (.script .sup .aboveBelow (m.append (.one (.content (.number [c])))))) u pl) := by
  have e1 := ho.1.1
  have e2 := nextTok_length hb.1
  have e3 := delimited_content hd
  refine sound_cs hp (by omega) fun k h hk hs ha => ?_
  obtain ⟨tk, h1, h2, h3⟩ := tokArg_argument hb
  have hx := ofTok_is (sl := h.content.part o (blen c!"\\over") t) h2 h3
  refine Runs.congr (runs_buildrel (es := [.content (.number [c])]) (pl := {}) hs hd h1 (fun h' hs' => ?_) (ho.2 k (by omega))) (by simp) rfl (by simp)
  cases k with
  | zero => omega
  | succ k =>
    have hw : handleArgument (handleToken cf (k + 1)) (.ofArg (h.content.part o (blen c!"\\over") t) v (.token tk)) h' =
        handleToken cf (k + 1) (.ofTok (h.content.part o (blen c!"\\over") t) tk) { h' with harg := true } := rfl
    generalize HTok.ofTok (h.content.part o (blen c!"\\over") t) tk = ht at hx hw
    cases ht with
    | cs => cases hx
    | chr d ctx =>
      obtain ⟨rfl, hctx⟩ := hx
      obtain ⟨src, stop, cs⟩ := ctx
      cases hctx
      unfold Runs
      rw [hw, C15_argument cf k d v src stop _ hc rfl]
      exact ⟨_, rfl, ⟨rfl, by simp, rfl, by simp, rfl, rfl, _, rfl, .ev _⟩⟩

/-! ### Environments -/

theorem sound_substack {g : Str} {rows : Rows} {r : Str} (hp : primOf name = .substack) (hb : Braced s g r) (h : Sound cf D (.rows 0 g rows)) :
    Sound cf D (.means a (.cs name) s (.one (.table (.subArray .center) none rows)) r {}) := by
  refine sound_cs hp (Nat.le_of_lt (braced_length hb)) fun k hh hk hs ha => ?_
  refine Runs.after (braceArgument_of (by rw [hs]; exact hb)) ?_
  exact Runs.congr (Runs.push (unfolds_group _ (h _ rfl)) rfl) (by simp) rfl rfl

theorem inStyle_events (st : Style) (rows : Rows) : (rows.inStyle st).events = .stateChange (.style st) :: rows.events := by
  have : ∀ cs : Cells, (cs.inStyle st).events = .stateChange (.style st) :: cs.events := by
    intro cs
    cases cs <;> simp [Cells.inStyle, Cells.events]
  cases rows <;> simp [Rows.inStyle, Rows.events, this]

theorem losing_events (b : Nodes) (ls : List Line) (rows : Rows) : (rows.losing b ls).events = b.events ++ .flow (.startLines ls) :: rows.events := by
  cases rows <;> simp [Rows.losing, Rows.events, Cells.events]

theorem table_events (sh : EnvShape) (ls : List Line) (rows : Rows) : (linedTable sh ls rows).events =
    .begin_ sh.group :: ((sh.style.toList.map fun st => .stateChange (.style st)) ++ ((if ls = [] then [] else [.flow (.startLines ls)]) ++ (rows.events ++ [.end_]))) := by
  unfold linedTable
  cases sh.style with
  | none =>
    by_cases h : ls = []
    · simp [h]
    · simp only [if_neg h]
      split <;> simp [losing_events]
  | some st =>
    by_cases h : ls = []
    · simp [h, inStyle_events]
    · simp [if_neg h, losing_events, Nodes.one]

theorem unfolds_evs (es : List Event) : Unfolds cf D (es.map .ev) es := by
  induction es with
  | nil => exact .nil
  | cons e es ih => exact .cons e ih

theorem unfolds_shape {sh : EnvShape} {ls : List Line} {x : Sl} {X : Str} {rows : Rows} (hx : x.cs = X)
    (h : Sound cf D (.rows sh.alignments X rows)) : Unfolds cf D (shapeOf sh ls x) (tableNode sh ls rows).events := by
  have hr := h x (by rw [hx])
  have inner : Unfolds cf D (.ev (.begin_ sh.group) :: ((sh.style.toList.map fun st => Instr.ev (.stateChange (.style st))) ++
      ((if ls = [] then [] else [.ev (.flow (.startLines ls))]) ++ ([.sub x (some ⟨0, sh.alignments⟩)] ++ [.ev .end_]))))
      (linedTable sh ls rows).events := by
    rw [table_events]
    refine .cons _ (.append ?_ (.append ?_ (hr.append (.ev _))))
    · cases sh.style with
      | none => exact .nil
      | some st => exact .ev _
    · split
      · exact .nil
      · exact .ev _
  have e1 : shapeOf sh ls x = (match sh.around with | some (l, r) => [.ev (.begin_ (.leftRight (some l) (some r)))] | none => []) ++
      ((.ev (.begin_ sh.group) :: ((sh.style.toList.map fun st => Instr.ev (.stateChange (.style st))) ++
      ((if ls = [] then [] else [.ev (.flow (.startLines ls))]) ++ ([.sub x (some ⟨0, sh.alignments⟩)] ++ [.ev .end_])))) ++
      (if sh.around.isSome then [.ev .end_] else [])) := by
    unfold shapeOf
    cases sh.style <;> cases sh.around <;> simp
  rw [e1]
  unfold tableNode
  generalize linedTable sh ls rows = T at inner ⊢
  cases sh.around with
  | none => simpa using inner
  | some lr =>
    obtain ⟨l, r⟩ := lr
    have := unfolds_group (.begin_ (.leftRight (some l) (some r))) inner
    simpa using this

theorem wordSeq_length {α : Type} {ws : List (Str × α)} {s r : Str} {vs : List α} (h : WordSeq ws s vs r) : r.length ≤ s.length := by
  induction h with
  | nil => exact Nat.le_refl _
  | cons _ _ _ ih => simp; omega

theorem selects_length {s r : Str} {sh : EnvShape} (h : Selects name s sh r) : r.length ≤ s.length := by
  cases h with
  | plain => exact Nat.le_refl _
  | default _ h => exact noOptional_length h
  | aligned _ h _ => exact Nat.le_of_lt (bracketed_length h)
  | array _ h _ _ _ => exact Nat.le_of_lt (braced_length h)
  | pairs _ h _ _ => exact Nat.le_of_lt (braced_length h)
  | subarray h _ => exact Nat.le_of_lt (braced_length h)

theorem sound_environment {r0 : Str} {sh : EnvShape} {r1 : Str} {ls : List Line} {r2 X r : Str} {rows : Rows} (hb : Braced s name r0)
    (hs : Selects name r0 sh r1) (hl : WordSeq lineWords r1 ls r2)
    (hx : Split (c!"\\begin{" ++ name ++ c!"}") (c!"\\end{" ++ name ++ c!"}") 0 r2 X r)
    (h : Sound cf D (.rows sh.alignments X rows)) : Sound cf D (.means a (.cs c!"begin") s (.one (tableNode sh ls rows)) r {}) := by
  have e1 := braced_length hb
  have e2 := selects_length hs
  have e3 := wordSeq_length hl
  have e4 := split_length hx
  refine ⟨fun _ => ⟨by omega, one_ne _⟩, fun n hh ht hn hw hs' ha => ?_⟩
  cases ht with
  | chr => cases hw
  | cs m =>
    obtain rfl : m = c!"begin" := hw
    cases n with
    | zero => omega
    | succ k =>
      obtain ⟨x, hX, e⟩ := C49_begin cf k hh name r0 sh r1 ls r2 X r (by rw [hs']; exact hb) hs hl hx
      rw [one_events]
      exact ⟨_, e, ⟨rfl, by simp, rfl, by simp, rfl, rfl, _, rfl, unfolds_shape hX h⟩⟩

end PL.Formula
