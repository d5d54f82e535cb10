import Verif.Lemmas.Formula.Absent
import Verif.Props.Defs
set_option autoImplicit false
/-! # Mistakes make the parser fail -/
namespace PL.Formula
open PL PL.Lex PL.H Spec PL.Props

variable {cf : Cfg} {D : Macros.Ctx} {T : Option Nat} {a : Bool} {name s : Str} {k : ErrorKind}

/-! ### Characters -/

theorem bad_closing : Bad cf D T (.token a (.chr '}') s) (.unbalancedGroup none) := bad_chr fun _ _ _ _ _ => ⟨_, rfl⟩
theorem bad_mathShift : Bad cf D T (.token a (.chr '$') s) .mathShift := bad_chr fun _ _ _ _ _ => ⟨_, rfl⟩
theorem bad_hashSign : Bad cf D T (.token a (.chr '#') s) .hashSign := bad_chr fun _ _ _ _ _ => ⟨_, rfl⟩

theorem bad_unclosed (hu : Unclosed ['{'] ['}'] s) : Bad cf D T (.token a (.chr '{') s) (.unbalancedGroup (some .normal)) :=
  bad_chr fun _ _ hs _ _ => (errs_group (K := .normal) (by rw [hs]; exact hu)).bind

theorem bad_noOperand {c : Char} (hc : c = '^' ∨ c = '_') : Bad cf D T (.token true (.chr c) s) .scriptAsArgument := by
  refine bad_chr fun h ctx hs ha hf => ?_
  unfold handleChar
  refine .after (m := M.get) (a := h) (h1 := h) rfl ?_
  rcases hc with rfl | rfl
  · simp only [ha]; exact ⟨_, rfl⟩
  · simp only [ha]; exact ⟨_, rfl⟩

theorem bad_alignment (hx : a = true ∨ T = none ∨ T = some 0) : Bad cf D T (.token a (.chr '&') s) .alignment := by
  refine bad_chr fun h ctx hs ha hf => ?_
  unfold handleChar
  refine .after (m := M.get) (a := h) (h1 := h) rfl ?_
  have hr := hf.2
  unfold room at hr
  show Errs (match h.align with | some a => if a.count < a.max && !h.harg then _ else M.fail .alignment | none => M.fail .alignment) h _
  cases hA : h.align with
  | none => exact .fail
  | some b =>
    rw [hA] at hr
    dsimp only
    rw [if_neg]
    · exact .fail
    · rcases hx with rfl | rfl | rfl
      · simp [ha]
      · cases hr
      · simp at hr
        simp; omega

/-! ### Commands without arguments -/

theorem bad_fail {p : Prim} (hp : primOf name = p) (H : ∀ rec h, Errs (execPrim cf rec p) h k) : Bad cf D T (.token a (.cs name) s) k :=
  bad_cs hp fun _ h _ _ _ _ => H _ h

theorem bad_unknown (hp : primOf name = .unknown) : Bad cf D T (.token a (.cs name) s) .unknownPrimitive := bad_fail hp fun _ _ => .fail
theorem bad_unbalanced (hp : primOf name = .unbalanced) : Bad cf D T (.token a (.cs name) s) (.unbalancedGroup none) := bad_fail hp fun _ _ => .fail

theorem bad_relax (hp : primOf name = .relax) : Bad cf D T (.token true (.cs name) s) .relax := by
  refine bad_cs hp fun n h _ _ ha _ => ?_
  refine .after (m := M.get) (a := h) (h1 := h) rfl ?_
  rw [if_pos ha]
  exact .fail

theorem bad_newLine (hp : primOf name = .newline) (hx : a = true ∨ T = none) : Bad cf D T (.token a (.cs name) s) .newLine := by
  refine bad_cs hp fun n h _ _ ha hf => ?_
  refine .after (m := M.get) (a := h) (h1 := h) rfl ?_
  have hr := hf.2
  unfold room at hr
  cases hA : h.align with
  | none => exact .fail
  | some b =>
    rw [hA] at hr
    dsimp only
    rcases hx with rfl | rfl
    · rw [if_pos ha]; exact .fail
    · cases hr

theorem bad_newLineLength {m : Nat} {g r : Str} (hp : primOf name = .newline) (hT : T = some m) (hb : Bracketed s g r) (hl : NoLength g) :
    Bad cf D T (.token false (.cs name) s) .dimensionUnit := by
  refine bad_cs hp fun n h _ hs ha hf => ?_
  refine .after (m := M.get) (a := h) (h1 := h) rfl ?_
  have hr := hf.2
  unfold room at hr
  subst hT
  cases hA : h.align with
  | none => rw [hA] at hr; cases hr
  | some b =>
    dsimp only
    rw [if_neg (by simp [ha])]
    refine .after (m := M.set _) (a := ⟨⟩) rfl ?_
    refine Errs.bind (.after (optionalArgument_some (by show Bracketed h.content.cs _ _; rw [hs]; exact hb)) ?_)
    exact (Errs.onStr (g := g) (noLength_err hl)).bind

theorem bad_text (hp : wantsText (primOf name) = true) (hk : NoText s k) : Bad cf D T (.token a (.cs name) s) k := by
  refine bad_cs rfl fun n h _ hs _ _ => ?_
  generalize primOf name = p at hp
  cases p <;> try cases hp
  · refine .after (m := H.allowMods) (a := ⟨⟩) rfl ?_
    cases hk with
    | nothing hk => exact (errs_argument (by show NoArgument h.content.cs _; rw [hs]; exact hk)).bind
    | command ht =>
      obtain ⟨tk, e, hx⟩ := argument_token (h := { h with allowMods := true }) (by show TokArg h.content.cs _ _; rw [hs]; exact ht)
      refine .after e ?_
      cases tk with
      | chr => cases hx
      | cs => exact .fail
  · exact errs_text (by rw [hs]; exact hk)

theorem bad_char (hp : primOf name = .char) (hn : NoNumber s) : Bad cf D T (.token a (.cs name) s) .number :=
  bad_cs hp fun _ h _ hs _ _ => (Errs.lex (by rw [hs]; exact noNumber_err hn)).bind

theorem bad_charCode {m : Nat} {r : Str} (hp : primOf name = .char) (hi : IntConst s m r) (h1 : 255 < m) (h2 : m < 2 ^ 64) :
    Bad cf D T (.token a (.cs name) s) .invalidCharNumber := by
  refine bad_cs hp fun n h _ hs _ _ => ?_
  refine .after (lex_of (r := r) (by rw [hs]; exact (C51_integer cf s r m).2 ⟨m, hi, .inl h2, (Nat.mod_eq_of_lt h2).symm⟩)) ?_
  rw [if_pos h1]
  exact .fail

theorem bad_begingroup (hp : primOf name = .begingroup) (hu : Unclosed c!"\\begin" c!"\\end" s) :
    Bad cf D T (.token a (.cs name) s) (.unbalancedGroup (some .beginEnd)) :=
  bad_cs hp fun _ _ _ hs _ _ => (errs_group (K := .beginEnd) (by rw [hs]; exact hu)).bind

/-! ### Delimiters -/

theorem bad_sized {size : DelimSize} (hp : primOf name = .sized size) (hk : NoDelim s k) : Bad cf D T (.token a (.cs name) s) k :=
  bad_cs hp fun _ _ _ hs _ _ => (Errs.lex (by rw [hs]; exact noDelim_err hk)).bind

theorem bad_middle (hp : primOf name = .middle) (hk : NoDelim s k) : Bad cf D T (.token a (.cs name) s) k :=
  bad_cs hp fun _ _ _ hs _ _ => (Errs.lex (by rw [hs]; exact noDelim_err hk)).bind

theorem bad_left (hp : primOf name = .left) (hd : s.head? ≠ some '.') (hk : NoDelim s k) : Bad cf D T (.token a (.cs name) s) k :=
  bad_cs hp fun _ _ _ hs _ _ => (errs_leftDelim (by rw [hs]; exact hd) (by rw [hs]; exact hk)).bind

theorem bad_leftUnclosed {l : Option Char} {t : Str} (hp : primOf name = .left) (hd : DelimText s l t) (hu : Unclosed c!"\\left" c!"\\right" t) :
    Bad cf D T (.token a (.cs name) s) (.unbalancedGroup (some .leftRight)) :=
  bad_cs hp fun _ _ _ hs _ _ => .after (leftDelim_of (by rw [hs]; exact hd)) (errs_group (K := .leftRight) (h := past _ t) hu).bind

theorem bad_right {l : Option Char} {t g u : Str} (hp : primOf name = .left) (hd : DelimText s l t) (hx : Split c!"\\left" c!"\\right" 0 t g u)
    (h1 : u.head? ≠ some '.') (h2 : NoDelim u k) : Bad cf D T (.token a (.cs name) s) k :=
  bad_cs hp fun _ h _ hs _ _ => .after (leftDelim_of (by rw [hs]; exact hd))
    (.after (groupContent_of (k := .leftRight) hx) (errs_leftDelim (h := past (past h t) u) h1 h2).bind)

/-! ### Spaces -/

theorem bad_kern (hp : primOf name = .kern ∨ primOf name = .mkern) (hk : NoLengthHere s k) : Bad cf D T (.token a (.cs name) s) k := by
  rcases hp with hp | hp <;>
    exact bad_cs hp fun _ _ _ hs _ _ => (Errs.lex (by rw [hs]; exact orBraced_err (fun _ h => noLength_err h) hk)).bind

theorem bad_kernMore {d : Dim} {g u r : Str} (hp : primOf name = .kern ∨ primOf name = .mkern) (hb : Braced s g r) (hl : Length g d u) (hu : ¬ Spaces u) :
    Bad cf D T (.token a (.cs name) s) .dimensionArgument := by
  rcases hp with hp | hp <;>
    exact bad_cs hp fun _ _ _ hs _ _ => (Errs.lex (by rw [hs]; exact orBraced_more hb (length_dimension hl) hu)).bind

theorem bad_hskipMore {x : Dim × Option Dim × Option Dim} {g u r : Str} (hp : primOf name = .hskip ∨ primOf name = .mskip) (hb : Braced s g r) (hl : Glue g x u)
    (hu : ¬ Spaces u) : Bad cf D T (.token a (.cs name) s) .dimensionArgument := by
  rcases hp with hp | hp <;>
    exact bad_cs hp fun _ _ _ hs _ _ => (Errs.lex (by rw [hs]; exact orBraced_more hb (glue_of hl) hu)).bind

theorem bad_mkern {d : Dim} {r : Str} (hp : primOf name = .mkern) (hd : MaybeBraced Length s d r) (hu : d.unit ≠ .mu) :
    Bad cf D T (.token a (.cs name) s) .mathUnit := by
  refine bad_cs hp fun _ _ _ hs _ _ => .after (lex_of (by rw [hs]; exact dimensionOrBraced_of hd)) ?_
  rw [if_neg hu]
  exact .fail

theorem bad_hskip (hp : primOf name = .hskip ∨ primOf name = .mskip) (hk : NoLengthHere s k) : Bad cf D T (.token a (.cs name) s) k := by
  rcases hp with hp | hp <;>
    exact bad_cs hp fun _ _ _ hs _ _ => (Errs.lex (by rw [hs]; exact orBraced_err (fun _ h => noLength_glue h) hk)).bind

theorem bad_mskip {d : Dim} {p m : Option Dim} {r : Str} (hp : primOf name = .mskip) (hd : MaybeBraced Glue s (d, p, m) r)
    (hu : d.unit ≠ .mu ∨ (∃ x, p = some x ∧ x.unit ≠ .mu) ∨ (∃ x, m = some x ∧ x.unit ≠ .mu)) : Bad cf D T (.token a (.cs name) s) .mathUnit := by
  refine bad_cs hp fun _ _ _ hs _ _ => .after (lex_of (by rw [hs]; exact glueOrBraced_of hd)) ?_
  dsimp only
  rw [if_neg]
  · exact .fail
  · rcases hu with h | ⟨x, rfl, h⟩ | ⟨x, rfl, h⟩ <;> simp [h]

theorem bad_hspace (hp : primOf name = .hspace) (hk : NoLengthArg s k) : Bad cf D T (.token a (.cs name) s) k :=
  bad_cs hp fun _ _ _ hs _ _ => errs_lengthArg (fun _ h => noLength_glue h) (by rw [hs]; exact hk)

theorem bad_width (hp : primOf name = .space3) (hk : NoLengthArg s k) : Bad cf D T (.token a (.cs name) s) k :=
  bad_cs hp fun _ _ _ hs _ _ => errs_lengthArg (fun _ h => noLength_err h) (by rw [hs]; exact hk)

theorem bad_height {g u t : Str} {w : Dim} (hp : primOf name = .space3) (b1 : Braced s g t) (l1 : Length g w u) (hk : NoLengthArg t k) :
    Bad cf D T (.token a (.cs name) s) k :=
  bad_cs hp fun _ _ _ hs _ _ => .after (groupArg_of (by rw [hs]; exact b1)) (.after (onStr_of (g := g) (length_dimension l1))
    (errs_lengthArg (fun _ h => noLength_err h) hk))

theorem bad_depth {g u t g' u' t' : Str} {w h : Dim} (hp : primOf name = .space3) (b1 : Braced s g t) (l1 : Length g w u) (b2 : Braced t g' t')
    (l2 : Length g' h u') (hk : NoLengthArg t' k) : Bad cf D T (.token a (.cs name) s) k :=
  bad_cs hp fun _ _ _ hs _ _ => .after (groupArg_of (by rw [hs]; exact b1)) (.after (onStr_of (g := g) (length_dimension l1))
    (.after (groupArg_of b2) (.after (onStr_of (g := g') (length_dimension l2)) (errs_lengthArg (fun _ h => noLength_err h) hk))))

/-! ### Commands with formulas as arguments -/

theorem errs_fraction {n : Nat} {h : HSt} {l r : Option Char} {bar : Option Dim} {style : Option Style}
    (H : ∀ h' : HSt, h'.content = h.content → h'.macros = h.macros → h'.align = h.align →
      Errs (H.argument >>= fun num => handleArgument (handleToken cf n) num >>= fun _ => H.argument >>= fun den => handleArgument (handleToken cf n) den >>= fun _ =>
        if l.isSome || r.isSome || style.isSome then ev .end_ else pure ⟨⟩) h' k) : Errs (fractionLike (handleToken cf n) l r bar style) h k := by
  unfold fractionLike
  dsimp only
  cases hoc : l.isSome || r.isSome <;> cases style <;> rw [hoc] at H <;>
    simp only [Bool.false_eq_true, if_false, if_true, Bool.not_false, Bool.not_true, Bool.true_or, Bool.false_or, Option.isSome_some, Option.isSome_none] at H ⊢
  · exact Errs.ev (H _ rfl rfl rfl)
  · exact Errs.ev (Errs.ev (Errs.ev (H _ rfl rfl rfl)))
  · exact Errs.ev (Errs.ev (H _ rfl rfl rfl))
  · exact Errs.ev (Errs.ev (Errs.ev (H _ rfl rfl rfl)))

theorem fit_same {h h' : HSt} (h1 : h'.macros = h.macros) (h2 : h'.align = h.align) (hf : Fit D T h) : Fit D T h' := ⟨h1.trans hf.1, by rw [h2]; exact hf.2⟩

theorem bad_first (hp : wantsOperand (primOf name) = true) (ho : Bad cf D T (.operand s) k) : Bad cf D T (.token a (.cs name) s) k := by
  refine bad_cs rfl fun n h hn hs _ hf => ?_
  have o := ho n hn
  generalize primOf name = p at hp
  cases p <;> try cases hp
  case pmod => exact Errs.arg o hs hf fun arg t H => Errs.push (Errs.bind (H _ rfl hf))
  case accent c st above =>
    show Errs (do
      if above then setPos .aboveBelow
      accent (handleToken cf n) c st) h k
    cases above with
    | false => exact Errs.arg o hs hf fun arg t H => Errs.ev (Errs.bind (H _ rfl hf))
    | true => exact .after (m := setPos .aboveBelow) (a := ⟨⟩) rfl (Errs.arg o hs hf fun arg t H => Errs.ev (Errs.bind (H _ rfl hf)))
  case under c above =>
    show Errs (do
      if above then setPos .aboveBelow
      underscript (handleToken cf n) c) h k
    cases above with
    | false => exact Errs.arg o hs hf fun arg t H => Errs.ev (Errs.bind (H _ rfl hf))
    | true => exact .after (m := setPos .aboveBelow) (a := ⟨⟩) rfl (Errs.arg o hs hf fun arg t H => Errs.ev (Errs.bind (H _ rfl hf)))
  case frac l r bar style =>
    exact errs_fraction fun h' e1 e2 e3 => Errs.operand o (by rw [e1]; exact hs) (fit_same e2 e3 hf)
  case overset ty =>
    refine Errs.ev ?_
    unfold scriptSwap
    refine .after (m := M.get) rfl ?_
    exact Errs.operand o hs hf
  case not_ => exact Errs.ev (Errs.arg o hs hf fun arg t H => H _ rfl hf)

theorem bad_second {t : Str} {n : Nodes} {pl : Place} (hp : wantsTwo (primOf name) = true) (h1 : Sound cf D (.operand s n t pl)) (ho : Bad cf D T (.operand t) k) :
    Bad cf D T (.token a (.cs name) s) k := by
  refine bad_cs rfl fun m h hn hs _ hf => ?_
  have o := ho m (by have := h1.1.1; omega)
  have o1 := h1.2 m hn
  generalize primOf name = p at hp
  cases p <;> try cases hp
  case frac l r bar style =>
    exact errs_fraction fun h' e1 e2 e3 => Errs.good o1 (by rw [e1]; exact hs) (fit_same e2 e3 hf) fun h' e hf => Errs.operand o e hf
  case overset ty =>
    refine Errs.ev ?_
    unfold scriptSwap
    refine .after (m := M.get) rfl ?_
    refine Errs.good o1 hs hf fun h' e hf => ?_
    refine .after (m := M.get) rfl ?_
    refine .after (m := M.modify _) (a := ⟨⟩) rfl ?_
    exact Errs.operand o e hf

theorem bad_withoutOptional {t : Str} (hp : wantsOptional (primOf name) = true) (hb : NoOptional s t) (ho : Bad cf D T (.operand t) k) :
    Bad cf D T (.token a (.cs name) s) k := by
  refine bad_cs rfl fun n h hn hs _ hf => ?_
  have o := ho n (by have := noOptional_length hb; omega)
  generalize primOf name = p at hp
  cases p <;> try cases hp
  case xarrow c =>
    refine .after (optionalArgument_none (by rw [hs]; exact hb)) ?_
    exact Errs.arg o rfl hf fun arg t e => Errs.push (e _ rfl hf)
  case sqrt =>
    refine .after (optionalArgument_none (by rw [hs]; exact hb)) ?_
    exact Errs.ev (Errs.arg o rfl hf fun arg t H => H _ rfl hf)

theorem bad_afterOptional {b t : Str} (hp : wantsOptional (primOf name) = true) (hb : Bracketed s b t) (ho : Bad cf D T (.operand t) k) :
    Bad cf D T (.token a (.cs name) s) k := by
  refine bad_cs rfl fun n h hn hs _ hf => ?_
  have o := ho n (by have := bracketed_length hb; omega)
  generalize primOf name = p at hp
  cases p <;> try cases hp
  case xarrow c =>
    refine .after (optionalArgument_some (by rw [hs]; exact hb)) ?_
    refine Errs.arg o rfl hf fun arg t H => Errs.push ?_
    exact .after (m := handleArgument _ (.group _)) (a := ⟨⟩) rfl (H _ rfl hf)
  case sqrt =>
    refine .after (optionalArgument_some (by rw [hs]; exact hb)) ?_
    exact Errs.ev (Errs.arg o rfl hf fun arg t H => Errs.bind (H _ rfl hf))

theorem errs_atom {n : Nat} {cls : AtomClass} {h : HSt}
    (H : ∀ h' : HSt, h'.content = h.content → h'.macros = h.macros → h'.align = h.align → Errs (atomGroup (handleToken cf n) cls) h' k) :
    Errs (execPrim cf (handleToken cf n) (.atom cls)) h k := by
  show Errs (do if cls = .op then allowMods; setPos .movable
                atomGroup (handleToken cf n) cls) h k
  by_cases hc : cls = .op
  · rw [if_pos hc]
    exact .after (m := allowMods) (a := ⟨⟩) rfl (.after (m := setPos .movable) (a := ⟨⟩) rfl (H _ rfl rfl rfl))
  · rw [if_neg hc]
    exact H _ rfl rfl rfl

theorem bad_class {cls : AtomClass} (hp : primOf name = .atom cls) (hk : NoArgument s k) : Bad cf D T (.token a (.cs name) s) k :=
  bad_cs hp fun _ _ _ hs _ _ => errs_atom fun h' e _ _ => (errs_argument (by rw [e, hs]; exact hk)).bind

theorem bad_classToken {cls : AtomClass} {x t : Str} (hp : primOf name = .atom cls) (ht : TokArg s (.cs x) t) (ho : Bad cf D T (.token true (.cs x) t) k) :
    Bad cf D T (.token a (.cs name) s) k := by
  have hl := nextTok_length ht.1
  refine bad_cs hp fun n h hn hs _ hf => errs_atom fun h' e e2 e3 => ?_
  obtain ⟨tk, e4, hx⟩ := argument_token (h := h') (by rw [e, hs]; exact ht)
  unfold atomGroup
  refine .after e4 ?_
  cases tk with
  | chr => cases hx
  | cs m =>
    dsimp only [singleChar]
    cases cls <;>
    refine Errs.ev (f := fun _ => do
      handleArgument (handleToken cf n) (.token (.cs m))
      ev .end_) (Errs.bind ?_) <;>
    exact .after (m := setHarg) (a := ⟨⟩) rfl (ho n _ _ (by omega) hx rfl rfl (fit_same e2 e3 hf))

theorem bad_font {f : Option Font} (hp : primOf name = .fontGroup f) (hk : NoArgument s k) : Bad cf D T (.token a (.cs name) s) k :=
  bad_cs hp fun _ _ _ hs _ _ => (errs_argument (by rw [hs]; exact hk)).bind

theorem bad_fontToken {f : Option Font} {x : Word} {t : Str} (hp : primOf name = .fontGroup f) (ht : TokArg s x t) (ho : Bad cf D T (.token a x t) k) :
    Bad cf D T (.token a (.cs name) s) k := by
  have hl := nextTok_length ht.1
  refine bad_cs hp fun n h hn hs ha hf => ?_
  obtain ⟨tk, e, hx⟩ := argument_token (h := h) (by rw [hs]; exact ht)
  refine .after e (Errs.push (Errs.bind ?_))
  exact ho n _ _ (by omega) hx rfl ha hf

/-! ### Colours -/

theorem Errs.colour {f : Nat × Nat × Nat → H PUnit} {e : ErrorKind} {h : HSt} {c : Nat × Nat × Nat} {t : Str}
    (hc : ColourArg h.content.cs c t) (b : Errs (f c) (past h t) k) : Errs (do let g ← groupArg e; let c ← colorOf g.cs; f c) h k := by
  obtain ⟨g, hb, h1, h2⟩ := hc
  exact .after (groupArg_of hb) (.after (colorOf_of h1 h2) b)

theorem bad_colour (hp : wantsColour (primOf name) = true) (hk : NoColour s k) : Bad cf D T (.token a (.cs name) s) k := by
  refine bad_cs rfl fun n h hn hs _ hf => ?_
  generalize primOf name = p at hp
  cases p <;> try cases hp
  · exact errs_colour (by rw [hs]; exact hk) fun sl h' h1 h2 => .after (m := setSkip) (a := ⟨⟩) rfl (errs_colorOf h1 h2).bind
  · exact errs_colour (by rw [hs]; exact hk) fun sl h' h1 h2 => (errs_colorOf h1 h2).bind
  · exact errs_colour (by rw [hs]; exact hk) fun sl h' h1 h2 => (errs_colorOf h1 h2).bind

theorem bad_textcolor {c : Nat × Nat × Nat} {t : Str} (hp : primOf name = .textcolor) (hc : ColourArg s c t) (ho : Bad cf D T (.operand t) k) :
    Bad cf D T (.token a (.cs name) s) k :=
  bad_cs hp fun n h hn hs _ hf => Errs.colour (by rw [hs]; exact hc)
    (Errs.arg (ho n (by have := colourArg_length hc; omega)) rfl hf fun arg t H => Errs.push (Errs.bind (H _ rfl hf)))

theorem bad_colorbox {c : Nat × Nat × Nat} {t : Str} (hp : primOf name = .colorbox) (hc : ColourArg s c t) (hk : NoText t k) :
    Bad cf D T (.token a (.cs name) s) k :=
  bad_cs hp fun _ _ _ hs _ _ => Errs.colour (by rw [hs]; exact hc) (Errs.push (errs_text hk).bind)

theorem bad_frame (hp : primOf name = .fcolorbox) (hk : NoGroup .argument s k) : Bad cf D T (.token a (.cs name) s) k :=
  bad_cs hp fun _ _ _ hs _ _ => (errs_groupArg (by rw [hs]; exact hk)).bind

theorem bad_frameColour {g t g' u : Str} (hp : primOf name = .fcolorbox) (b1 : Braced s g t) (b2 : Braced t g' u) (h1 : ∀ c ∈ g, c.toNat < 128 ∧ c ≠ '+')
    (h2 : ∀ c, ¬ Colour g c) : Bad cf D T (.token a (.cs name) s) .unknownColor :=
  bad_cs hp fun _ _ _ hs _ _ => .after (groupArg_of (by rw [hs]; exact b1)) (.after (groupArg_of b2) (errs_colorOf (g := g) h1 h2).bind)

theorem bad_background {c : Nat × Nat × Nat} {t : Str} (hp : primOf name = .fcolorbox) (hc : ColourArg s c t) (hk : NoColour t k) :
    Bad cf D T (.token a (.cs name) s) k := by
  obtain ⟨g, hb, h1, h2⟩ := hc
  exact bad_cs hp fun _ _ _ hs _ _ => .after (groupArg_of (by rw [hs]; exact hb))
    (errs_colour hk fun sl h' h3 h4 => .after (colorOf_of (g := g) h1 h2) (errs_colorOf h3 h4).bind)

theorem bad_framed {c d : Nat × Nat × Nat} {t u : Str} (hp : primOf name = .fcolorbox) (hc : ColourArg s c t) (hd : ColourArg t d u) (hk : NoText u k) :
    Bad cf D T (.token a (.cs name) s) k := by
  obtain ⟨g, hb, h1, h2⟩ := hc
  obtain ⟨g', hb', h1', h2'⟩ := hd
  exact bad_cs hp fun _ _ _ hs _ _ => .after (groupArg_of (by rw [hs]; exact hb)) (.after (groupArg_of hb') (.after (colorOf_of (g := g) h1 h2)
    (.after (colorOf_of (g := g') h1' h2') (Errs.push (errs_text hk).bind))))

/-! ### Fractions with all parts given, side scripts -/

theorem bad_genfrac (hp : primOf name = .genfrac) (H : ∀ n h, s.length + 1 ≤ n → h.content.cs = s → Fit D T h → Errs (do
      let l ← genfracDelim
      let r ← genfracDelim
      let bar ← genfracBar
      let style ← genfracStyle
      fractionLike (handleToken cf n) l r bar style) h k) : Bad cf D T (.token a (.cs name) s) k :=
  bad_cs hp fun n h hn hs _ hf => H n h hn hs hf

theorem bad_genfracLeft (hp : primOf name = .genfrac) (hk : NoGenDelim s k) : Bad cf D T (.token a (.cs name) s) k :=
  bad_genfrac hp fun _ _ _ hs _ => (errs_genDelim (by rw [hs]; exact hk)).bind
theorem bad_genfracRight {l : Option Char} {s1 : Str} (hp : primOf name = .genfrac) (h1 : GenDelim s l s1) (hk : NoGenDelim s1 k) :
    Bad cf D T (.token a (.cs name) s) k :=
  bad_genfrac hp fun _ _ _ hs _ => .after (genDelim_of (by rw [hs]; exact h1)) (errs_genDelim hk).bind
theorem bad_genfracBar {l r : Option Char} {s1 s2 : Str} (hp : primOf name = .genfrac) (h1 : GenDelim s l s1) (h2 : GenDelim s1 r s2) (hk : NoGenBar s2 k) :
    Bad cf D T (.token a (.cs name) s) k :=
  bad_genfrac hp fun _ _ _ hs _ => .after (genDelim_of (by rw [hs]; exact h1)) (.after (genDelim_of h2) (errs_genBar hk).bind)
theorem bad_genfracStyle {l r : Option Char} {bar : Option Dim} {s1 s2 s3 : Str} (hp : primOf name = .genfrac) (h1 : GenDelim s l s1) (h2 : GenDelim s1 r s2)
    (h3 : GenBar s2 bar s3) (hk : NoGenStyle s3 k) : Bad cf D T (.token a (.cs name) s) k :=
  bad_genfrac hp fun _ _ _ hs _ => .after (genDelim_of (by rw [hs]; exact h1)) (.after (genDelim_of h2) (.after (genBar_of h3) (errs_genStyle hk).bind))
theorem bad_genfracFirst {l r : Option Char} {bar : Option Dim} {style : Option Style} {s1 s2 s3 s4 : Str} (hp : primOf name = .genfrac) (h1 : GenDelim s l s1)
    (h2 : GenDelim s1 r s2) (h3 : GenBar s2 bar s3) (h4 : GenStyle s3 style s4) (ho : Bad cf D T (.operand s4) k) : Bad cf D T (.token a (.cs name) s) k :=
  bad_genfrac hp fun n _ hn hs hf => .after (genDelim_of (by rw [hs]; exact h1)) (.after (genDelim_of h2) (.after (genBar_of h3) (.after (genStyle_of h4)
    (errs_fraction fun h' e1 e2 e3 => Errs.operand
      (ho n (by have := genDelim_length h1; have := genDelim_length h2; have := genBar_length h3; have := genStyle_length h4; omega))
      (by rw [e1]; rfl) (fit_same e2 e3 hf)))))
theorem bad_genfracSecond {l r : Option Char} {bar : Option Dim} {style : Option Style} {s1 s2 s3 s4 t : Str} {n : Nodes} {pl : Place} (hp : primOf name = .genfrac)
    (h1 : GenDelim s l s1) (h2 : GenDelim s1 r s2) (h3 : GenBar s2 bar s3) (h4 : GenStyle s3 style s4) (h5 : Sound cf D (.operand s4 n t pl))
    (ho : Bad cf D T (.operand t) k) : Bad cf D T (.token a (.cs name) s) k := by
  have e1 := genDelim_length h1; have e2 := genDelim_length h2; have e3 := genBar_length h3; have e4 := genStyle_length h4; have e5 := h5.1.1
  exact bad_genfrac hp fun n _ hn hs hf => .after (genDelim_of (by rw [hs]; exact h1)) (.after (genDelim_of h2) (.after (genBar_of h3) (.after (genStyle_of h4)
    (errs_fraction fun h' e1 e2 e3 => Errs.good (h5.2 n (by omega)) (by rw [e1]; rfl) (fit_same e2 e3 hf) fun h' e hf => Errs.operand (ho n (by omega)) e hf))))

theorem readArg_length {s w r : Str} (h : ReadArg s w r) : r.length ≤ s.length := by
  cases h with
  | group _ h => have := split_length h; simp; omega
  | char => simp; omega
  | cs _ h _ _ => rw [h.eq.1]; simp; omega

theorem readArg_argument {h : HSt} {w t : Str} (hr : ReadArg h.content.cs w t) : ∃ x, H.argument h = .ok x (past h t) := by
  obtain ⟨x, hx, -⟩ := PL.Macros.argument_of hr
  unfold H.argument
  rw [hx]
  exact ⟨_, rfl⟩

theorem bad_sideset (hp : primOf name = .sideset) (hk : NoArgument s k) : Bad cf D T (.token a (.cs name) s) k :=
  bad_cs hp fun _ _ _ hs _ _ => (errs_argument (by rw [hs]; exact hk)).bind
theorem bad_sidesetSecond {w t : Str} (hp : primOf name = .sideset) (h1 : ReadArg s w t) (hk : NoArgument t k) : Bad cf D T (.token a (.cs name) s) k := by
  refine bad_cs hp fun _ h _ hs _ _ => ?_
  obtain ⟨x, e⟩ := readArg_argument (h := h) (by rw [hs]; exact h1)
  exact .after e (errs_argument (h := past h t) hk).bind
theorem bad_sidesetBase {w t w' u : Str} (hp : primOf name = .sideset) (h1 : ReadArg s w t) (h2 : ReadArg t w' u) (ho : Bad cf D T (.operand u) k) :
    Bad cf D T (.token a (.cs name) s) k := by
  have e1 := readArg_length h1
  have e2 := readArg_length h2
  refine bad_cs hp fun n h hn hs _ hf => ?_
  obtain ⟨x, e⟩ := readArg_argument (h := h) (by rw [hs]; exact h1)
  obtain ⟨x', e'⟩ := readArg_argument (h := past h t) h2
  exact .after e (.after e' (Errs.arg (ho n (by omega)) rfl hf fun arg t H => H _ rfl hf))

/-! ### Environments -/

theorem bad_environmentName (hk : NoGroup .argument s k) : Bad cf D T (.token a (.cs c!"begin") s) k :=
  bad_cs primOf_begin fun _ _ _ hs _ _ => (errs_groupArg (by rw [hs]; exact hk)).bind

theorem bad_environment {r : Str} (hb : Braced s name r) (hn : name ∉ environmentNames) : Bad cf D T (.token a (.cs c!"begin") s) .environment := by
  refine bad_cs primOf_begin fun n h _ hs _ _ => ?_
  have : Errs (execPrim cf (handleToken cf n) (primOf c!"begin")) h .environment := ⟨_, C49_unknown cf n h name r (by rw [hs]; exact hb) hn⟩
  rwa [primOf_begin] at this

theorem bad_environmentArgs {r : Str} (hb : Braced s name r) (hk : NoEnvArgs name r k) : Bad cf D T (.token a (.cs c!"begin") s) k := by
  refine bad_cs primOf_begin fun n h _ hs _ _ => ?_
  obtain ⟨m, e, hm⟩ := errs_envArgs (cf := cf) (h := past h r) hk
  show Errs (beginEnv cf) h k
  unfold beginEnv
  refine .after (groupArg_of (by rw [hs]; exact hb)) ?_
  rw [show (h.content.part name 1 r).cs = name from rfl, e]
  exact hm.bind

theorem bad_environmentUnclosed {r0 r1 r2 : Str} {sh : EnvShape} {ls : List Line} {K : GroupingKind} (hb : Braced s name r0) (hsel : Selects name r0 sh r1)
    (hl : WordSeq [(c!"\\hline", .solid), (c!"\\hdashline", .dashed)] r1 ls r2) (hu : Unclosed (c!"\\begin{" ++ name ++ c!"}") (c!"\\end{" ++ name ++ c!"}") r2)
    (hK : K.closingStr = c!"\\end{" ++ name ++ c!"}") : Bad cf D T (.token a (.cs c!"begin") s) (.unbalancedGroup (some K)) := by
  refine bad_cs primOf_begin fun n h _ hs _ _ => ?_
  obtain ⟨m, env, e1, e2, -, h3, h4⟩ := select_of cf (s := past h r0) hsel
  obtain rfl : K = env.kind := closing_injective (hK.trans h4.symm)
  show Errs (beginEnv cf) h _
  unfold beginEnv
  refine .after (groupArg_of (by rw [hs]; exact hb)) ?_
  rw [show (h.content.part name 1 r0).cs = name from rfl, e1]
  refine .after e2 ?_
  have hl' : horizontalLines r1 = (ls, r2) := horizontalLines_of.2 hl
  have tail : ∀ h' : HSt, h'.content.cs = r1 → ∀ f : List Line → Sl → H PUnit,
      Errs (lexPure horizontalLines >>= fun lines => groupContent env.kind >>= fun content => f lines content) h' (.unbalancedGroup (some env.kind)) := by
    intro h' e f
    refine .after (a := ls) (h1 := past h' r2) (by
      have := lex_of (m := (fun s => .ok (horizontalLines s).1 (horizontalLines s).2 : L (List Line))) (h := h') (r := r2) (a := ls) (by rw [e, hl'])
      exact this) ?_
    exact (errs_group (h := past h' r2) (by rw [h3, h4]; exact hu)).bind
  cases env.wrap with
  | none => exact tail _ rfl _
  | some w => exact Errs.ev (tail _ rfl _)

/-! ### Definitions -/

theorem bad_alreadyDefined {r : Str} (hn : Names s name r) (hm : D.get name ≠ none) : Bad cf D T (.token a (.cs c!"newcommand") s) .macroAlreadyDefined := by
  refine bad_cs (primOf_family .new) fun n h _ hs _ hf => ?_
  obtain ⟨h', e, -⟩ := C19_new_existing cf n h name r (by rw [hs]; exact hn) (by rw [hf.1]; exact hm)
  have : Errs (execPrim cf (handleToken cf n) (primOf Family.new.word)) h .macroAlreadyDefined := ⟨h', e⟩
  rwa [primOf_family .new] at this

theorem bad_notDefined {r : Str} (hn : Names s name r) (hm : D.get name = none) : Bad cf D T (.token a (.cs c!"renewcommand") s) .macroNotDefined := by
  refine bad_cs (primOf_family .renew) fun n h _ hs _ hf => ?_
  obtain ⟨h', e, -⟩ := C19_renew_missing cf n h name r (by rw [hs]; exact hn) (by rw [hf.1]; exact hm)
  have : Errs (execPrim cf (handleToken cf n) (primOf Family.renew.word)) h .macroNotDefined := ⟨h', e⟩
  rwa [primOf_family .renew] at this

/-! ### Arguments -/

theorem bad_noArgument (hk : NoArgument s k) : Bad cf D T (.operand s) k := fun _ _ _ hs _ => .inl (errs_argument (by rw [hs]; exact hk))

theorem bad_argument {x : Word} {t : Str} (ht : TokArg s x t) (ho : Bad cf D T (.token true x t) k) : Bad cf D T (.operand s) k := by
  have hl := nextTok_length ht.1
  intro n hn h hs hf
  obtain ⟨tk, e, hx⟩ := argument_token (h := h) (by rw [hs]; exact ht)
  refine .inr ⟨_, _, e, fun h2 e2 hf2 => ?_⟩
  exact .after (m := setHarg) (a := ⟨⟩) rfl (ho n _ _ (by omega) hx e2 rfl hf2)

/-! ### Elements -/

theorem bad_backslash {b : Str} (hb : Blank b) : Bad cf D T (.element (b ++ ['\\'])) .emptyControlSequence := by
  intro c A B sp hc _
  have ht : token c.cs = .err .emptyControlSequence [] := by rw [token_eq hc]; exact backslash_token hb
  refine ⟨fun h0 => ?_, ?_⟩
  · rw [← token_trim, h0] at ht
    cases ht
  · unfold parse
    rw [parseLoop]
    unfold startSt
    simp only [ht]
    exact ⟨_, rfl⟩

/-- An element that cannot be handled. -/
theorem bad_element {s t : Str} {x : Word} (hx : NextTok s x t) (hf : Unbound D x)
    (ha : ∀ (c : Sl) (A : Option AlignCount) (ht : HTok), room A = T → ht.is x t → Errs (atom cf ht) (start D c A t) k) : Bad cf D T (.element s) k := by
  intro c A B sp hc hA
  obtain ⟨tk, ht, hsay⟩ := nextTok_iff.1 hx
  have ht' : token c.cs = .ok tk t := by rw [token_eq hc]; exact ht
  refine ⟨fun h0 => ?_, ?_⟩
  · rw [← token_trim, h0] at ht'
    cases ht'
  · obtain ⟨h', hat⟩ := ha c A _ hA (ofTok_is (sl := c) ht hsay)
    refine ⟨h', ?_⟩
    unfold parse
    rw [parseLoop]
    unfold startSt
    simp only [ht']
    unfold start at hat
    cases tk with
    | chr d ctx => simp only [liftH, hat]
    | cs name =>
      have hn : Macros.tryExpand cf D name t = none := by
        unfold Macros.tryExpand
        rw [hf name (by cases x with
          | cs m => cases hsay; rfl
          | chr => cases hsay)]
        rfl
      simp only [hn, liftH, hat]

theorem bad_here {x : Word} {t : Str} (hx : NextTok s x t) (hf : Unbound D x) (ho : Bad cf D T (.token false x t) k) : Bad cf D T (.element s) k := by
  refine bad_element hx hf fun c A ht hA hi => ?_
  unfold atom
  refine .after (m := M.get) rfl ?_
  exact (ho _ _ ht (by show t.length + 2 ≤ t.length + 3; omega) hi rfl rfl ⟨rfl, hA⟩).bind

theorem errs_atomOf {c : Sl} {A : Option AlignCount} {t : Str} {ht : HTok} {h1 : HSt}
    (e : handleToken cf (t.length + 3) ht (start D c A t) = .ok ⟨⟩ h1) (e' : Errs (scripts (handleToken cf (h1.content.cs.length + 3))) h1 k) :
    Errs (atom cf ht) (start D c A t) k := by
  unfold atom
  refine .after (m := M.get) rfl ?_
  have : tokenFuel (start D c A t).content = t.length + 3 := rfl
  dsimp only
  rw [this]
  exact .after e (.after (m := M.get) rfl e')

theorem errs_open {rec : HTok → H PUnit} {h h1 : HSt} {c : Char} {v : Str} (hat : AtScript h h1 c v) (e : Errs (do
      let arg ← H.argument
      handleArgument rec arg
      let s ← M.get
      let second := s.buf.length
      let next := s.content.cs.head?
      if (next = some '_' && !decide (c = '_')) || (next = some '^' && decide (c = '_')) then
        M.set { s with content := { s.content with cs := s.content.cs.tail } }
        let arg ← H.argument
        handleArgument rec arg
        match (← M.get).content.cs.head? with
        | some '_' => M.fail .doubleSubscript
        | some '^' => M.fail .doubleSuperscript
        | _ => pure ⟨⟩
      else if next = some '_' || next = some '^' then
        M.fail (if decide (c = '_') then .doubleSubscript else .doubleSuperscript)
      let s ← M.get
      let stop := s.buf.length
      let sub := if decide (c = '_') then h1.buf.length else second
      let sup := if decide (c = '_') then second else h1.buf.length
      let ty : ScriptType := if second = stop then (if decide (c = '_') then .sub else .sup) else .subSup
      return some ⟨.script ty s.pos, sub, sup⟩ : H (Option Desc)) (past h1 v) k) : Errs (scripts rec) h k := by
  obtain ⟨h', e⟩ := e
  exact ⟨h', by rw [scripts_open hat]; exact e⟩

/-- A script after an element. -/
theorem bad_scripts {x : Word} {t r w v : Str} {n : Nodes} {pl : Place} {vs : List Bool} {c : Char} (hx : NextTok s x t) (hf : Unbound D x)
    (hm : Sound cf D (.means false x t n r pl)) (hk : pl.skip = false) (hl : Limits pl.mods r vs (w ++ c :: v)) (hw : Spaces w) (hc : c = '^' ∨ c = '_')
    (ho : ∀ (h h1 : HSt) (n : Nat), AtScript h h1 c v → Fit D T h1 → v.length + 2 ≤ n → Errs (scripts (handleToken cf n)) h k) : Bad cf D T (.element s) k := by
  refine bad_element hx hf fun cc A ht hA hi => ?_
  obtain ⟨h1, e1, A1⟩ := hm.2 (t.length + 3) (start D cc A t) ht (by omega) hi rfl rfl
  refine errs_atomOf e1 ?_
  have hmods : h1.allowMods = pl.mods := by rw [A1.mods]; rfl
  have hskip : h1.skip = false := by rw [A1.skip, hk]; rfl
  have hat := atScript_of (h := h1) hskip (by rw [hmods, A1.cs]; exact hl) hw hc
  have hlen := limits_length hl
  simp at hlen
  exact ho _ _ _ hat ⟨A1.macros, by show room h1.align = T; rw [A1.align]; exact hA⟩ (by rw [A1.cs]; omega)

theorem bad_script {x : Word} {t r w v : Str} {n : Nodes} {pl : Place} {vs : List Bool} {c : Char} (hx : NextTok s x t) (hf : Unbound D x)
    (hm : Sound cf D (.means false x t n r pl)) (hk : pl.skip = false) (hl : Limits pl.mods r vs (w ++ c :: v)) (hw : Spaces w) (hc : c = '^' ∨ c = '_')
    (ho : Bad cf D T (.operand v) k) : Bad cf D T (.element s) k := by
  refine bad_scripts hx hf hm hk hl hw hc fun h h1 m hat hf hm => ?_
  refine errs_open hat ?_
  exact Errs.operand (ho m (by omega)) (h := past h1 v) rfl hf

theorem other_of {c c' : Char} (h : c = '^' ∧ c' = '_' ∨ c = '_' ∧ c' = '^') : c' = other c := by
  rcases h with ⟨rfl, rfl⟩ | ⟨rfl, rfl⟩ <;> rfl

theorem bad_scriptTwo {x : Word} {t r w v v' : Str} {n : Nodes} {m : Nodes} {pl pl' : Place} {vs : List Bool} {c c' : Char} (hx : NextTok s x t) (hf : Unbound D x)
    (hm : Sound cf D (.means false x t n r pl)) (hk : pl.skip = false) (hl : Limits pl.mods r vs (w ++ c :: v)) (hw : Spaces w) (hc : c = '^' ∧ c' = '_' ∨ c = '_' ∧ c' = '^')
    (h1 : Sound cf D (.operand v m (c' :: v') pl')) (ho : Bad cf D T (.operand v') k) : Bad cf D T (.element s) k := by
  have hc1 : c = '^' ∨ c = '_' := by rcases hc with h | h <;> simp [h.1]
  refine bad_scripts hx hf hm hk hl hw hc1 fun h h1' k' hat hf hk => ?_
  refine errs_open hat ?_
  have hlen := h1.1.1
  simp at hlen
  refine Errs.good (h1.2 k' (by omega)) (h := past h1' v) rfl hf fun h2 e hf2 => ?_
  refine .after (m := M.get) rfl ?_
  dsimp only
  rw [if_pos]
  · refine .after (m := M.set _) (a := ⟨⟩) rfl ?_
    exact Errs.operand (ho k' (by omega)) (by show h2.content.cs.tail = v'; rw [e]; rfl) hf2
  · rw [e]
    rcases hc with ⟨rfl, rfl⟩ | ⟨rfl, rfl⟩ <;> rfl

theorem double_eq (c : Char) : doubleScript c = double c := rfl

theorem bad_double {x : Word} {t r w v v' : Str} {n : Nodes} {m : Nodes} {pl pl' : Place} {vs : List Bool} {c : Char} (hx : NextTok s x t) (hf : Unbound D x)
    (hm : Sound cf D (.means false x t n r pl)) (hk : pl.skip = false) (hl : Limits pl.mods r vs (w ++ c :: v)) (hw : Spaces w) (hc : c = '^' ∨ c = '_')
    (h1 : Sound cf D (.operand v m (c :: v') pl')) : Bad cf D T (.element s) (doubleScript c) := by
  refine bad_scripts hx hf hm hk hl hw hc fun h h1' k' hat hf hk => ?_
  obtain ⟨h2, e2, A2⟩ := Operand.runs (h := past h1' v) (h1.2 k' (by omega)) rfl
  exact ⟨_, scripts_same hat e2 A2.cs⟩

theorem bad_triple {x : Word} {t r w v v' v'' : Str} {n : Nodes} {m m' : Nodes} {pl pl' pl'' : Place} {vs : List Bool} {c c' e : Char} (hx : NextTok s x t)
    (hf : Unbound D x) (hm : Sound cf D (.means false x t n r pl)) (hk : pl.skip = false) (hl : Limits pl.mods r vs (w ++ c :: v)) (hw : Spaces w)
    (hc : c = '^' ∧ c' = '_' ∨ c = '_' ∧ c' = '^') (h1 : Sound cf D (.operand v m (c' :: v') pl')) (h2 : Sound cf D (.operand v' m' (e :: v'') pl''))
    (he : e = '^' ∨ e = '_') : Bad cf D T (.element s) (doubleScript e) := by
  have hc1 : c = '^' ∨ c = '_' := by rcases hc with h | h <;> simp [h.1]
  refine bad_scripts hx hf hm hk hl hw hc1 fun h h1' k' hat hf hk => ?_
  have hlen := h1.1.1
  simp at hlen
  obtain ⟨g2, e2, A2⟩ := Operand.runs (h := past h1' v) (h1.2 k' (by omega)) rfl
  obtain ⟨g3, e3, A3⟩ := Operand.runs (h := past g2 v') (h2.2 k' (by omega)) rfl
  exact ⟨_, scripts_third hat e2 (by rw [A2.cs, other_of hc]) e3 A3.cs he⟩

/-! ### All of them -/

theorem wrong_bad {Δ : Known} (hS : Stores cf D Δ) {p : Spot} (h : Wrong Δ T p k) : Bad cf D T p k := by
  induction h with
  | mathShift => exact bad_mathShift
  | hashSign => exact bad_hashSign
  | closing => exact bad_closing
  | unclosed h0 => exact bad_unclosed h0
  | noOperand h0 => exact bad_noOperand h0
  | alignment h0 => exact bad_alignment h0
  | unknown h0 => exact bad_unknown h0
  | unbalanced h0 => exact bad_unbalanced h0
  | relax h0 => exact bad_relax h0
  | newLine h0 h1 => exact bad_newLine h0 h1
  | newLineLength h0 h1 h2 h3 => exact bad_newLineLength h0 h1 h2 h3
  | text h0 h1 => exact bad_text h0 h1
  | char h0 h1 => exact bad_char h0 h1
  | charCode h0 h1 h2 h3 => exact bad_charCode h0 h1 h2 h3
  | begingroup h0 h1 => exact bad_begingroup h0 h1
  | sized h0 h1 => exact bad_sized h0 h1
  | middle h0 h1 => exact bad_middle h0 h1
  | left h0 h1 h2 => exact bad_left h0 h1 h2
  | leftUnclosed h0 h1 h2 => exact bad_leftUnclosed h0 h1 h2
  | right h0 h1 h2 h3 h4 => exact bad_right h0 h1 h2 h3 h4
  | kern h0 h1 => exact bad_kern h0 h1
  | mkern h0 h1 h2 => exact bad_mkern h0 h1 h2
  | kernMore h0 h1 h2 h3 => exact bad_kernMore h0 h1 h2 h3
  | hskipMore h0 h1 h2 h3 => exact bad_hskipMore h0 h1 h2 h3
  | hskip h0 h1 => exact bad_hskip h0 h1
  | mskip h0 h1 h2 => exact bad_mskip h0 h1 h2
  | hspace h0 h1 => exact bad_hspace h0 h1
  | width h0 h1 => exact bad_width h0 h1
  | height h0 h1 h2 h3 => exact bad_height h0 h1 h2 h3
  | depth h0 h1 h2 h3 h4 h5 => exact bad_depth h0 h1 h2 h3 h4 h5
  | first h0 _ i1 => exact bad_first h0 i1
  | second h0 h1 _ i2 => exact bad_second h0 (sound hS h1) i2
  | withoutOptional h0 h1 _ i2 => exact bad_withoutOptional h0 h1 i2
  | afterOptional h0 h1 _ i2 => exact bad_afterOptional h0 h1 i2
  | class_ h0 h1 => exact bad_class h0 h1
  | classToken h0 h1 _ _ i3 => exact bad_classToken h0 h1 i3
  | font h0 h1 => exact bad_font h0 h1
  | fontToken h0 h1 _ _ i3 => exact bad_fontToken h0 h1 i3
  | colour h0 h1 => exact bad_colour h0 h1
  | textcolor h0 h1 _ i2 => exact bad_textcolor h0 h1 i2
  | colorbox h0 h1 h2 => exact bad_colorbox h0 h1 h2
  | frame h0 h1 => exact bad_frame h0 h1
  | frameColour h0 h1 h2 h3 h4 => exact bad_frameColour h0 h1 h2 h3 h4
  | background h0 h1 h2 => exact bad_background h0 h1 h2
  | framed h0 h1 h2 h3 => exact bad_framed h0 h1 h2 h3
  | genfracLeft h0 h1 => exact bad_genfracLeft h0 h1
  | genfracRight h0 h1 h2 => exact bad_genfracRight h0 h1 h2
  | genfracBar h0 h1 h2 h3 => exact bad_genfracBar h0 h1 h2 h3
  | genfracStyle h0 h1 h2 h3 h4 => exact bad_genfracStyle h0 h1 h2 h3 h4
  | genfracFirst h0 h1 h2 h3 h4 _ i5 => exact bad_genfracFirst h0 h1 h2 h3 h4 i5
  | genfracSecond h0 h1 h2 h3 h4 h5 _ i6 => exact bad_genfracSecond h0 h1 h2 h3 h4 (sound hS h5) i6
  | sideset h0 h1 => exact bad_sideset h0 h1
  | sidesetSecond h0 h1 h2 => exact bad_sidesetSecond h0 h1 h2
  | sidesetBase h0 h1 h2 _ i3 => exact bad_sidesetBase h0 h1 h2 i3
  | environmentName h0 => exact bad_environmentName h0
  | environment h0 h1 => exact bad_environment h0 h1
  | environmentArgs h0 h1 => exact bad_environmentArgs h0 h1
  | environmentUnclosed h0 h1 h2 h3 h4 => exact bad_environmentUnclosed h0 h1 h2 h3 h4
  | alreadyDefined h0 h1 => exact bad_alreadyDefined h0 (fun h => by rw [(hS _).1.2 h] at h1; cases h1)
  | notDefined h0 h1 => exact bad_notDefined h0 ((hS _).1.1 h1)
  | noArgument h0 => exact bad_noArgument h0
  | argument h0 _ _ i2 => exact bad_argument h0 i2
  | backslash h0 => exact bad_backslash h0
  | here h0 h1 _ i2 => exact bad_here h0 (hS.unbound h1) i2
  | script h0 h1 h2 hk h3 h4 h5 _ i6 => exact bad_script h0 (hS.unbound h1) (sound hS h2) hk h3 h4 h5 i6
  | scriptTwo h0 h1 h2 hk h3 h4 h5 h6 _ i7 => exact bad_scriptTwo h0 (hS.unbound h1) (sound hS h2) hk h3 h4 h5 (sound hS h6) i7
  | double h0 h1 h2 hk h3 h4 h5 h6 => exact bad_double h0 (hS.unbound h1) (sound hS h2) hk h3 h4 h5 (sound hS h6)
  | triple h0 h1 h2 hk h3 h4 h5 h6 h7 h8 => exact bad_triple h0 (hS.unbound h1) (sound hS h2) hk h3 h4 h5 (sound hS h6) (sound hS h7) h8

/-- What the parser does at a text that it cannot read. -/
theorem parse_error {inp : Str} {its : List Item} {s1 : State} {c : Sl} {A : Option AlignCount} {B : List Instr} {sp : Spans} {h' : HSt}
    (h : Exec cf (State.init inp) its s1) (hn : NoErr its ∨ ¬ Defines inp) (hp : Pending cf s1 ⟨.sub c A :: B, [], D, sp⟩) (hne : trimStart c.cs ≠ [])
    (he : parse cf (startSt ⟨.sub c A :: B, [], D, sp⟩ c A) = .err k ⟨h', sp⟩) : ∃ ctx s', step cf s1 = .item (.err k ctx) s' := by
  obtain ⟨c0, e1, e2, e3⟩ := hp.expands rfl rfl
  have hcalls := (h.base.onText e1 e3).calls
  have key : step cf s1 = step cf ⟨.sub c A :: B, [], D, sp⟩ := by
    rcases hp.parse with rfl | ⟨c1, c2, A1, B1, M1, sp1, sp2, rfl, e4, hne1, hp'⟩
    · rfl
    · cases e4
      rw [step_sub_ne hne1, hp', ← step_sub_ne hne]
  have hpanic : ∀ p, step cf s1 = .panic p → p ≠ .assertion := by
    intro p h1
    rcases hn with hn | hn
    · rintro rfl
      rcases h.panic h1 with ⟨h2, -⟩ | ⟨h2, -⟩ | ⟨h2, -⟩ | ⟨-, -, e, ctx, h2⟩
      · cases h2
      · cases h2
      · cases h2
      · obtain ⟨_, h3⟩ := hn _ h2; cases h3
    · exact h.base.panic hn h1
  rw [key] at hpanic ⊢
  rw [step_sub_ne hne, he] at hpanic ⊢
  dsimp only at hpanic ⊢
  cases hr : Spans.reach cf sp (h'.content.ptr cf) with
  | some y =>
    obtain ⟨i, sp'⟩ := y
    obtain ⟨t, hk⟩ := errorContext_ok (sp := sp) hcalls hr
    rw [hk]
    exact ⟨_, _, rfl⟩
  | none =>
    rw [errorContext_none hr] at hpanic
    exact absurd rfl (hpanic _ rfl)

/-- The text before the mistake is read, or the limit stops the parser before. -/
theorem upto {Δ Δ' : Known} {s t : Str} {ns : Nodes} (h : Upto Δ s ns Δ' t) : ∀ (D : Macros.Ctx) (c : Sl) (A : Option AlignCount) (B : List Instr) (sp : Spans),
    Stores cf D Δ → trimStart c.cs = trimStart s →
    (∃ D' c' sp', Stores cf D' Δ' ∧ trimStart c'.cs = trimStart t ∧ Walk cf ⟨.sub c A :: B, [], D, sp⟩ (ns.events.map .ok) ⟨.sub c' A :: B, [], D', sp'⟩) ∨
    ∃ es s', es <+: ns.events ∧ Walk cf ⟨.sub c A :: B, [], D, sp⟩ (es.map .ok) s' ∧ Stop cf s' := by
  induction h with
  | elements h =>
    intro D c A B sp hS hc
    rcases sound hS h c A B sp hc with ⟨_, h1, c1, sp1, hc1, rfl⟩ | ⟨-, h1⟩
    · exact .inl ⟨D, c1, sp1, hS, hc1, h1⟩
    · exact .inr h1
  | @define Δ s ns t Δ' u ms Δ'' v h hd _ ih =>
    intro D c A B sp hS hc
    rw [nodes_append_events]
    rcases sound hS h c A B sp hc with ⟨_, h1, c1, sp1, hc1, rfl⟩ | ⟨-, es, s1, h1, h2, h3⟩
    · obtain ⟨D', c2, hS', hc2, h2⟩ := sound_define hS hd A B sp1 hc1
      have h2 := h1.trans h2.walk
      rw [List.append_nil] at h2
      rcases ih D' c2 A B sp1 hS' hc2 with ⟨D3, c3, sp3, h3, h4, h5⟩ | ⟨es, s3, h3, h4, h5⟩
      · exact .inl ⟨D3, c3, sp3, h3, h4, by rw [List.map_append]; exact h2.trans h5⟩
      · exact .inr ⟨_, s3, (List.prefix_append_right_inj ns.events).2 h3, by rw [List.map_append]; exact h2.trans h4, h5⟩
    · exact .inr ⟨es, s1, h1.trans (List.prefix_append _ _), h2, h3⟩

theorem mistake (cf : Cfg) {inp t : Str} {ns : Nodes} {Δ : Known} {k : ErrorKind} (h : Upto Known.none inp ns Δ t) (hw : Wrong Δ none (.element t) k) :
    (∃ ctx s, Exec cf (State.init inp) (ns.events.map .ok ++ [.err k ctx]) s) ∨
    ∃ es ctx s, es <+: ns.events ∧ Exec cf (State.init inp) (es.map .ok ++ [.err .macroRecursionLimit ctx]) s := by
  rcases upto (cf := cf) h [] ⟨0, blen inp, inp⟩ none [] (.init inp) stores_none rfl with ⟨D', c', sp', hS, hc, h1⟩ | ⟨es, s2, h1, h2, h3⟩
  · obtain ⟨s1, h3, h4⟩ := h1.exec
    obtain ⟨hne, h', he⟩ := wrong_bad hS hw c' none [] sp' hc rfl
    obtain ⟨ctx, s', h6⟩ := parse_error h3 (.inl (noErr_ok _)) h4 hne he
    exact .inl ⟨ctx, s', h3.item h6⟩
  · obtain ⟨s1, h4, h5⟩ := h2.exec
    obtain ⟨ctx, s', h6⟩ := stop_error h4 (noErr_ok es) h5 h3
    exact .inr ⟨es, ctx, s', h1, h4.item h6⟩

end PL.Formula
