import Verif.Lemmas.Formula.Sound
import Verif.Props.Integers
set_option autoImplicit false
/-! # The rules for commands -/
namespace PL.Formula
open PL PL.Lex PL.H Spec PL.Props

variable {cf : Cfg} {D : Macros.Ctx} {a : Bool} {name s : Str}

attribute [local simp] over_none none_over Node.events Nodes.events

theorem over_one (p q : Place) (h : q = {}) : p = p.over q := by rw [h, none_over]

/-! ### Symbols -/

theorem sound_operator {c : Content} {pl : Place} (h : operator (primOf name) = some (c, pl)) :
    Sound cf D (.means a (.cs name) s (.one (.content c)) s pl) := by
  refine sound_cs rfl (Nat.le_refl _) fun k hh hk hs ha => ?_
  generalize primOf name = p at h
  cases p <;> cases h
  · exact ⟨_, rfl, ⟨hs, by simp, rfl, by simp, rfl, rfl, _, rfl, .ev _⟩⟩
  · exact ⟨_, rfl, ⟨hs, by simp, rfl, by simp, rfl, rfl, _, rfl, .ev _⟩⟩
  · exact ⟨_, rfl, ⟨hs, by simp, rfl, by simp, rfl, rfl, _, rfl, .ev _⟩⟩

theorem textArg_length {g r : Str} (h : TextArg s g r) : r.length < s.length := by
  cases h with
  | braced h => exact braced_length h
  | rest h => exact nextTok_length h.1

theorem textArg_argument {h : HSt} {g r : Str} (ht : TextArg h.content.cs g r) : ∃ arg, H.argument h = .ok arg (past h r) ∧
    ((∃ sl : Sl, arg = .group sl ∧ sl.cs = g) ∨ ∃ (c : Char) (ctx : Sl), arg = .token (.chr c ctx) ∧ ctx.cs = g) := by
  generalize hs : h.content.cs = s at ht
  cases ht with
  | braced hb => exact ⟨_, argument_group (by rw [hs]; exact hb), .inl ⟨_, rfl, rfl⟩⟩
  | rest hb =>
    obtain ⟨tk, e, hx⟩ := argument_token (h := h) (by rw [hs]; exact hb)
    cases tk with
    | cs => cases hx
    | chr d ctx =>
      obtain ⟨rfl, hx⟩ := hx
      exact ⟨_, e, .inr ⟨_, _, rfl, hx⟩⟩

theorem sound_operatorname {g r : Str} (hp : primOf name = .operatorname) (hb : TextArg s g r) :
    Sound cf D (.means a (.cs name) s (.one (.content (.function g))) r ⟨none, true, false⟩) := by
  refine sound_cs hp (Nat.le_of_lt (textArg_length hb)) fun k h hk hs ha => ?_
  refine Runs.congr (Runs.seq (fs := [.content (.function g)]) (q := {}) (Runs.allowMods hs) fun h' A => ?_) (by simp) rfl (by simp)
  obtain ⟨arg, e, hx⟩ := textArg_argument (h := h') (by rw [A.cs]; exact hb)
  refine Runs.after e ?_
  rcases hx with ⟨sl, rfl, rfl⟩ | ⟨c, ctx, rfl, rfl⟩
  · exact Runs.ev rfl
  · exact Runs.ev rfl

theorem sound_dotsLow {w : Str} {c : Char} (hp : primOf name = .dots) (hw : Spaces w) (hc : c = '.' ∨ c = ',') :
    Sound cf D (.means a (.cs name) (w ++ c :: s) (.one (.content (.ordinary '…' false))) (w ++ c :: s) {}) := by
  refine sound_cs hp (Nat.le_refl _) fun k h hk hs ha => ?_
  have : execPrim cf (handleToken cf k) .dots h = H.ev (ordinary '…') h := by
    simp only [execPrim]
    rw [M.get_bind, hs, trimStart_ws_append hw, trimStart_eq_self (by rintro d r e; cases e; rcases hc with rfl | rfl <;> decide)]
    dsimp only
    rw [if_pos (by simpa using hc)]
  unfold Runs
  rw [this]
  exact Runs.ev hs

theorem sound_dots (hp : primOf name = .dots) (h : ∀ w c u, Spaces w → s = w ++ c :: u → c ≠ '.' ∧ c ≠ ',') :
    Sound cf D (.means a (.cs name) s (.one (.content (.ordinary '⋯' false))) s {}) := by
  refine sound_cs hp (Nat.le_refl _) fun k hh hk hs ha => ?_
  have : execPrim cf (handleToken cf k) .dots hh = H.ev (ordinary '⋯') hh := by
    simp only [execPrim]
    rw [M.get_bind, hs]
    obtain ⟨w, hw, e⟩ := trimStart_spec s
    cases ht : trimStart s with
    | nil => rfl
    | cons c u =>
      dsimp only
      rw [if_neg (by simpa using h w c u hw (by rw [e, ht]))]
  unfold Runs
  rw [this]
  exact Runs.ev hs

theorem intConst_length {m : Nat} {r : Str} (h : IntConst s m r) : r.length ≤ s.length := by
  have hd : ∀ {P : Char → Prop} {s ds r : Str}, Digits P s ds r → r.length ≤ s.length := by
    intro P s ds r h
    obtain ⟨u, rfl, -, -, ho, -⟩ := h
    have := optSpace_length ho
    simp
    omega
  cases h with
  | dec _ h => exact hd h
  | oct h => have := hd h; simp; omega
  | hex h => have := hd h; simp; omega
  | char => simp; omega
  | escaped => simp; omega

theorem sound_char {m : Nat} {r : Str} (hp : primOf name = .char) (hi : IntConst s m r) (hm : m ≤ 255) :
    Sound cf D (.means a (.cs name) s (.one (.content (.ordinary (Char.ofNat m) false))) r {}) := by
  refine sound_cs hp (intConst_length hi) fun k h hk hs ha => ?_
  have hl : H.lex (unsignedInteger cf) h = .ok m (past h r) := by
    refine lex_of ?_
    rw [hs]
    exact (C51_integer cf s r m).2 ⟨m, hi, .inl (by omega), (Nat.mod_eq_of_lt (by omega)).symm⟩
  refine Runs.after hl ?_
  rw [if_neg (by omega)]
  exact Runs.ev rfl

theorem sound_relax (hp : primOf name = .relax) : Sound cf D (.means false (.cs name) s .nil s {}) := by
  refine sound_cs hp (Nat.le_refl _) (fun k h hk hs ha => ?_) (by intro h; cases h)
  have : execPrim cf (handleToken cf k) .relax h = .ok ⟨⟩ h := by
    simp only [execPrim]
    rw [M.get_bind, if_neg (by simp [ha])]
    rfl
  exact ⟨h, this, ⟨hs, by simp, rfl, by simp, rfl, rfl, [], by simp, .nil⟩⟩

/-! ### Groups -/

theorem sound_begingroup {g r : Str} {ns : Nodes} (hp : primOf name = .begingroup) (hb : Split c!"\\begin" c!"\\end" 0 s g r)
    (h : Sound cf D (.formula g ns)) : Sound cf D (.means a (.cs name) s (.one (block none [] ns)) r {}) := by
  refine sound_cs hp (split_length hb) fun k hh hk hs ha => ?_
  refine Runs.after (groupContent_of (h := hh) (k := .beginEnd) (by rw [hs]; exact hb)) ?_
  rw [one_events]
  exact Runs.push (unfolds_block h rfl) rfl

/-! ### Delimiters -/

theorem sound_sized {size : DelimSize} {d : Char} {ty : DelimType} {r : Str} (hp : primOf name = .sized size) (hd : Delim s d ty r) :
    Sound cf D (.means a (.cs name) s (.one (.content (.delimiter d (some size) ty))) r {}) := by
  refine sound_cs hp (Nat.le_of_lt (delim_length hd)) fun k h hk hs ha => ?_
  exact Runs.after (lex_of (by rw [hs]; exact delim_of hd)) (Runs.ev rfl)

theorem sound_middle {d : Char} {ty : DelimType} {r : Str} (hp : primOf name = .middle) (hd : Delim s d ty r) :
    Sound cf D (.means a (.cs name) s (.one (.content (.delimiter d (some .big) .fence))) r {}) := by
  refine sound_cs hp (Nat.le_of_lt (delim_length hd)) fun k h hk hs ha => ?_
  exact Runs.after (lex_of (by rw [hs]; exact delim_of hd)) (Runs.ev rfl)

theorem sound_left {l r : Option Char} {t g u v : Str} {ns : Nodes} (hp : primOf name = .left) (h1 : DelimText s l t)
    (h2 : Split c!"\\left" c!"\\right" 0 t g u) (h3 : DelimText u r v) (h : Sound cf D (.formula g ns)) :
    Sound cf D (.means a (.cs name) s (.one (block (some (l, r)) [] ns)) v {}) := by
  have e1 := delimText_length h1
  have e2 := split_length h2
  have e3 := delimText_length h3
  refine sound_cs hp (by omega) fun k hh hk hs ha => ?_
  refine Runs.after (leftDelim_of (by rw [hs]; exact h1)) ?_
  refine Runs.after (groupContent_of (k := .leftRight) h2) ?_
  refine Runs.after (leftDelim_of h3) ?_
  rw [one_events, block_events]
  exact Runs.push (unfolds_group _ (h _ none rfl)) rfl

/-! ### Spaces -/

theorem dimensionOrBraced_of {s r : Str} {d : Dim} (h : MaybeBraced Length s d r) : dimensionOrBraced s = .ok d r := by
  unfold dimensionOrBraced
  exact maybeBraced_of (fun _ _ _ hl => length_dimension hl) h

theorem glueOrBraced_of {s r : Str} {d : Dim × Option Dim × Option Dim} (h : MaybeBraced Glue s d r) : glueOrBraced s = .ok d r := by
  unfold glueOrBraced
  exact maybeBraced_of (fun _ _ _ hl => glue_of hl) h

theorem sound_space {w h : Option Dim} (hp : primOf name = .space w h) : Sound cf D (.means a (.cs name) s (.one (.space w h none)) s {}) :=
  sound_cs hp (Nat.le_refl _) fun _ _ _ hs _ => Runs.ev hs

theorem sound_kern {d : Dim} {r : Str} (hp : primOf name = .kern) (h : MaybeBraced Length s d r) :
    Sound cf D (.means a (.cs name) s (.one (.space (some d) none none)) r {}) := by
  refine sound_cs hp (maybeBraced_le (fun _ _ _ => length_le) h) fun k hh hk hs ha => ?_
  exact Runs.after (lex_of (by rw [hs]; exact dimensionOrBraced_of h)) (Runs.ev rfl)

theorem sound_mkern {d : Dim} {r : Str} (hp : primOf name = .mkern) (h : MaybeBraced Length s d r) (hu : d.unit = .mu) :
    Sound cf D (.means a (.cs name) s (.one (.space (some d) none none)) r {}) := by
  refine sound_cs hp (maybeBraced_le (fun _ _ _ => length_le) h) fun k hh hk hs ha => ?_
  refine Runs.after (lex_of (by rw [hs]; exact dimensionOrBraced_of h)) ?_
  rw [if_pos hu]
  exact Runs.ev rfl

theorem sound_hskip {d : Dim} {p m : Option Dim} {r : Str} (hp : primOf name = .hskip) (h : MaybeBraced Glue s (d, p, m) r) :
    Sound cf D (.means a (.cs name) s (.one (.space (some d) none none)) r {}) := by
  refine sound_cs hp (maybeBraced_le (fun _ _ _ => glue_le) h) fun k hh hk hs ha => ?_
  exact Runs.after (lex_of (by rw [hs]; exact glueOrBraced_of h)) (Runs.ev rfl)

theorem sound_mskip {d : Dim} {p m : Option Dim} {r : Str} (hp : primOf name = .mskip) (h : MaybeBraced Glue s (d, p, m) r) (h1 : d.unit = .mu)
    (h2 : ∀ x, p = some x → x.unit = .mu) (h3 : ∀ x, m = some x → x.unit = .mu) :
    Sound cf D (.means a (.cs name) s (.one (.space (some d) none none)) r {}) := by
  refine sound_cs hp (maybeBraced_le (fun _ _ _ => glue_le) h) fun k hh hk hs ha => ?_
  refine Runs.after (lex_of (by rw [hs]; exact glueOrBraced_of h)) ?_
  dsimp only
  rw [if_pos]
  · exact Runs.ev rfl
  · cases p <;> cases m <;> simp_all

theorem sound_hspace {g u : Str} {d : Dim} {p m : Option Dim} {r : Str} (hp : primOf name = .hspace) (hb : Braced s g r) (h : Glue g (d, p, m) u) :
    Sound cf D (.means a (.cs name) s (.one (.space (some d) none none)) r {}) := by
  refine sound_cs hp (Nat.le_of_lt (braced_length hb)) fun k hh hk hs ha => ?_
  refine Runs.after (groupArg_of (by rw [hs]; exact hb)) ?_
  exact Runs.after (onStr_of (g := g) (glue_of h)) (Runs.ev rfl)

theorem sound_space3 {g1 u1 t g2 u2 t' g3 u3 r : Str} {w h d : Dim} (hp : primOf name = .space3) (b1 : Braced s g1 t) (l1 : Length g1 w u1)
    (b2 : Braced t g2 t') (l2 : Length g2 h u2) (b3 : Braced t' g3 r) (l3 : Length g3 d u3) :
    Sound cf D (.means a (.cs name) s (.one (.space (some w) (some h) (some d))) r {}) := by
  have e1 := braced_length b1
  have e2 := braced_length b2
  have e3 := braced_length b3
  refine sound_cs hp (by omega) fun k hh hk hs ha => ?_
  refine Runs.after (groupArg_of (by rw [hs]; exact b1)) ?_
  refine Runs.after (onStr_of (g := g1) (length_dimension l1)) ?_
  refine Runs.after (groupArg_of b2) ?_
  refine Runs.after (onStr_of (g := g2) (length_dimension l2)) ?_
  refine Runs.after (groupArg_of b3) ?_
  exact Runs.after (onStr_of (g := g3) (length_dimension l3)) (Runs.ev rfl)

/-! ### Texts and colours -/

theorem textArgument_none {h : HSt} {g r : Str} (hb : TextArg h.content.cs g r) : Runs cf D (textArgument none) h [.content (.text g)] r {} := by
  refine ⟨past { h with buf := h.buf ++ [.ev (.content (.text g))] } r, ?_,
    ⟨rfl, by simp [past], rfl, by simp [past], rfl, rfl, [.ev (.content (.text g))], rfl, .ev _⟩⟩
  unfold textArgument
  obtain ⟨arg, e, hx⟩ := textArg_argument hb
  rw [M.run_bind, M.run_bind, e]
  rcases hx with ⟨sl, rfl, rfl⟩ | ⟨c, ctx, rfl, rfl⟩ <;> rfl

theorem sound_text {g r : Str} (hp : primOf name = .text none) (hb : TextArg s g r) : Sound cf D (.means a (.cs name) s (.one (.content (.text g))) r {}) :=
  sound_cs hp (Nat.le_of_lt (textArg_length hb)) fun _ _ _ hs _ => textArgument_none (by rw [hs]; exact hb)

theorem sound_textFont {f : Font} {g r : Str} (hp : primOf name = .text (some f)) (hb : TextArg s g r) :
    Sound cf D (.means a (.cs name) s (.one (.group none [.font (some f)] (.one (.content (.text g))))) r {}) := by
  refine sound_cs hp (Nat.le_of_lt (textArg_length hb)) fun k h hk hs ha => ?_
  refine ⟨past { h with buf := h.buf ++ [.ev (.begin_ .normal), .ev (.stateChange (.font (some f))), .ev (.content (.text g)), .ev .end_] } r, ?_,
    ⟨rfl, by simp [past], rfl, by simp [past], rfl, rfl, _, rfl, .cons _ (.cons _ (.cons _ (.ev _)))⟩⟩
  simp only [execPrim]
  unfold textArgument
  obtain ⟨arg, e, hx⟩ := textArg_argument (h := h) (by rw [hs]; exact hb)
  rw [M.run_bind, M.run_bind, e]
  rcases hx with ⟨sl, rfl, rfl⟩ | ⟨c, ctx, rfl, rfl⟩ <;> rfl

theorem colourArg_length {c : Nat × Nat × Nat} {r : Str} (h : ColourArg s c r) : r.length < s.length := by
  obtain ⟨g, h, -, -⟩ := h
  exact braced_length h

theorem Runs.colour {f : Nat × Nat × Nat → H PUnit} {e : ErrorKind} {h : HSt} {c : Nat × Nat × Nat} {t : Str} {es : List Event} {r : Str} {p : Place}
    (hc : ColourArg h.content.cs c t) (b : Runs cf D (f c) (past h t) es r p) : Runs cf D (do let g ← groupArg e; let c ← colorOf g.cs; f c) h es r p := by
  obtain ⟨g, hb, h1, h2⟩ := hc
  refine Runs.after (groupArg_of hb) ?_
  exact Runs.after (colorOf_of (g := g) h1 h2) b

theorem sound_textcolor {c : Nat × Nat × Nat} {t r : Str} {n : Nodes} {pl : Place} (hp : primOf name = .textcolor) (hc : ColourArg s c t)
    (ho : Sound cf D (.operand t n r pl)) : Sound cf D (.means a (.cs name) s (.one (block none [.color c .text] n)) r pl) := by
  have e1 := colourArg_length hc
  refine sound_cs hp (by have := ho.1.1; omega) fun k h hk hs ha => ?_
  refine Runs.colour (by rw [hs]; exact hc) ?_
  refine Runs.arg (ho.2 k (by omega)) rfl fun arg t' H => ?_
  exact Runs.congr (Runs.seq (Runs.push (.cons _ (.ev _)) rfl) fun h' A => Runs.seq (H _ A.cs) fun h' A => Runs.ev A.cs)
    (by simp [block_events, opening]) rfl (by simp)

theorem sound_colorbox {c : Nat × Nat × Nat} {t g r : Str} (hp : primOf name = .colorbox) (hc : ColourArg s c t) (hb : TextArg t g r) :
    Sound cf D (.means a (.cs name) s (.one (.group none [.color c .background] (.one (.content (.text g))))) r {}) := by
  have e1 := colourArg_length hc
  have e2 := textArg_length hb
  refine sound_cs hp (by omega) fun k h hk hs ha => ?_
  refine Runs.colour (by rw [hs]; exact hc) ?_
  exact Runs.congr (Runs.seq (Runs.push (.cons _ (.ev _)) rfl) fun h' A => Runs.seq (textArgument_none (by rw [A.cs]; exact hb)) fun h' A => Runs.ev A.cs)
    (by simp) rfl (by simp)

theorem sound_fcolorbox {f b : Nat × Nat × Nat} {t u g r : Str} (hp : primOf name = .fcolorbox) (hf : ColourArg s f t) (hc : ColourArg t b u)
    (hb : TextArg u g r) :
    Sound cf D (.means a (.cs name) s (.one (.group none [.color f .border, .color b .background] (.one (.content (.text g))))) r {}) := by
  have e1 := colourArg_length hf
  have e2 := colourArg_length hc
  have e3 := textArg_length hb
  refine sound_cs hp (by omega) fun k h hk hs ha => ?_
  obtain ⟨g1, b1, p1, c1⟩ := hf
  obtain ⟨g2, b2, p2, c2⟩ := hc
  refine Runs.after (groupArg_of (by rw [hs]; exact b1)) ?_
  refine Runs.after (groupArg_of b2) ?_
  refine Runs.after (colorOf_of (g := g1) p1 c1) ?_
  refine Runs.after (colorOf_of (g := g2) p2 c2) ?_
  exact Runs.congr (Runs.seq (Runs.push (.cons _ (.cons _ (.ev _))) rfl) fun h' A => Runs.seq (textArgument_none (by rw [A.cs]; exact hb)) fun h' A => Runs.ev A.cs)
    (by simp) rfl (by simp)

/-! ### Changes of the state -/

theorem sound_change {sc : StateChange} (hp : changeOf (primOf name) = some sc) :
    Sound cf D (.means a (.cs name) s (.one (.change sc)) s ⟨none, false, true⟩) := by
  refine sound_cs rfl (Nat.le_refl _) fun k hh hk hs ha => ?_
  generalize primOf name = p at hp
  cases p <;> cases hp <;> exact ⟨_, rfl, ⟨hs, by simp, rfl, by simp, rfl, rfl, _, rfl, .ev _⟩⟩

theorem sound_color {c : Nat × Nat × Nat} {r : Str} (hp : primOf name = .color) (hc : ColourArg s c r) :
    Sound cf D (.means a (.cs name) s (.one (.change (.color c .text))) r ⟨none, false, true⟩) := by
  refine sound_cs hp (Nat.le_of_lt (colourArg_length hc)) fun k hh hk hs ha => ?_
  obtain ⟨g, hb, h1, h2⟩ := hc
  refine Runs.after (groupArg_of (by rw [hs]; exact hb)) ?_
  have e : setSkip (past hh r) = .ok ⟨⟩ { past hh r with skip := true } := rfl
  refine ⟨{ past hh r with skip := true, buf := hh.buf ++ [.ev (.stateChange (.color c .text))] }, ?_, ⟨rfl, by simp, rfl, by simp, rfl, rfl, _, rfl, .ev _⟩⟩
  rw [M.bind_ok e, show (hh.content.part g 1 r).cs = g from rfl, M.bind_ok (colorOf_of h1 h2)]
  rfl

end PL.Formula
