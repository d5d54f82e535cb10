import Verif.Lemmas.Formula.Inverse
set_option autoImplicit false
/-!
# Tokens that the parser accepts are covered by the grammar

Converse of the rules for tokens: when the handler of a token succeeds and the texts that it puts aside are formulas, the grammar has a reading for it.
-/
namespace PL.Formula
open PL PL.Lex PL.H Spec PL.Props

variable {cf : Cfg} {n : Nat} {o : Sl}

/-- The grammar reads a text that was put aside: as a formula, or as the lines of an environment. -/
def Derivable (s : Str) : Option AlignCount → Prop
  | none => ∃ ns, Formula s ns
  | some a => ∃ rows, Reads Known.none (.rows a.max s rows)

def Der (is : List Instr) : Prop := ∀ g A, Instr.sub g A ∈ is → Derivable g.cs A

theorem Der.mono {is js : List Instr} (h : Der js) (hs : ∀ i ∈ is, i ∈ js) : Der is := fun g A hi => h g A (hs _ hi)

theorem Der.left {is js : List Instr} (h : Der (is ++ js)) : Der is := h.mono fun _ hi => List.mem_append_left _ hi
theorem Der.right {is js : List Instr} (h : Der (is ++ js)) : Der js := h.mono fun _ hi => List.mem_append_right _ hi

/-- Outside of arguments, the token is neither an alignment nor a line break, and it comes from a regular text. -/
def Fair (a : Bool) (x : Word) (s : Str) : Prop :=
  a = false → x ≠ .chr '&' ∧ (∀ name, x = .cs name → primOf name ≠ .newline) ∧ ∃ t, Regular t ∧ NextTok t x s

/-- The grammar reads a token. -/
def Read (a : Bool) (x : Word) (s : Str) : Prop := ∃ ns r pl, Reads Known.none (.means a x s ns r pl)

/-- A command that occurs in the text, or a character that is not white space. -/
def In (o : Sl) (x : Word) : Prop := (∀ name, x = .cs name → ('\\' :: name) <:+: o.cs) ∧ ∀ c, x = .chr c → isWs c = false

/-- The converse for tokens, with some fuel. -/
def Back (cf : Cfg) (n : Nat) : Prop :=
  ∀ (a : Bool) (x : Word) (s : Str) (ht : HTok) (h h' : HSt) (o : Sl), s.length + 2 ≤ n → ht.is x s → h.content.cs = s → h.harg = a → Pre false o h →
    In o x → Regular o.cs → Fair a x s → handleToken cf n ht h = .ok ⟨⟩ h' → Der h'.buf → Read a x s

theorem fair_true {x : Word} {s : Str} : Fair true x s := fun h => by cases h

theorem means_ok {a : Bool} {x : Word} {s : Str} {ns : Nodes} {r : Str} {pl : Place} {ht : HTok} {h h' : HSt} (hm : Reads Known.none (.means a x s ns r pl))
    (hn : s.length + 2 ≤ n) (hx : ht.is x s) (hs : h.content.cs = s) (ha : h.harg = a) (e : handleToken cf n ht h = .ok ⟨⟩ h') : h'.content.cs = r := by
  obtain ⟨h1, e1, A⟩ := (sound (cf := cf) stores_none hm).2 n h ht hn hx hs ha
  rw [e] at e1
  cases e1
  exact A.cs

theorem free_none (x : Word) : Known.none.Free x := fun _ _ => rfl

theorem nextTok_ws {s t : Str} {c : Char} (h : NextTok s (.chr c) t) : isWs c = false := by
  obtain ⟨tk, h1, h2⟩ := nextTok_iff.1 h
  have := token_facts h1
  cases tk with
  | cs => cases h2
  | chr d ctx => cases h2; exact this.2.choose_spec.2.2.2.2

theorem in_of {x : Word} {s t u : Str} {ht : HTok} {h : HSt} (hx : ht.is x s) (hn : NextTok t x u) (h : TokOK false o h ht) : In o x := by
  refine ⟨?_, ?_⟩
  · rintro name rfl
    cases ht with
    | chr => cases hx
    | cs m => obtain rfl : m = name := hx; exact h.1
  · rintro c rfl
    exact nextTok_ws hn

/-! ### Operands -/

section operand
variable {h h1 h2 h3 : HSt} {arg : HArg}

theorem argument_lt (e : H.argument h = .ok arg h1) : h1.content.cs.length < h.content.cs.length := by
  rcases argument_inv e with ⟨g, r, hb, -, rfl⟩ | ⟨x, ht, t, hb, -, -, rfl⟩
  · exact braced_length hb
  · exact nextTok_length hb.1

/-- Operands only add to what is staged. -/
theorem operand_keeps (hp : Pre false o h) (hn : h.content.cs.length + 1 ≤ n) (e1 : H.argument h = .ok arg h1) (hc : h2.content = h1.content)
    (e2 : handleArgument (handleToken cf n) arg h2 = .ok ⟨⟩ h3) : ∃ d, Ext false o h2 h3 d ∧ h3.content.cs.length ≤ h.content.cs.length := by
  have hl := argument_lt e1
  have ha := argument_spec (cf := cf) hp
  rw [e1] at ha
  obtain ⟨m1, m2, -, -, m5⟩ := ha
  have hp2 : Pre false o h2 := ⟨hp.wf, by rw [hc]; exact m1.sub, fun h => by cases h⟩
  have hb := handleArgument_spec (handleToken_ok cf false o n) hp2 (m2.congr hc) (by simp only [HSt.len]; rw [hc]; omega)
  rw [e2] at hb
  obtain ⟨d, e1, -, -, -, -, e6⟩ := hb
  refine ⟨d, e1, ?_⟩
  simp only [HSt.len] at e6 m5
  rw [hc] at e6
  omega

theorem operand_back (B : Back cf n) (hp : Pre false o h) (hr : Regular o.cs) (hn : h.content.cs.length + 1 ≤ n) (e1 : H.argument h = .ok arg h1)
    (hc : h2.content = h1.content) (e2 : handleArgument (handleToken cf n) arg h2 = .ok ⟨⟩ h3) (hd : Der h3.buf) :
    ∃ ns pl, Reads Known.none (.operand h.content.cs ns h3.content.cs pl) := by
  have hp2 : Pre false o h2 := by
    have ha := argument_spec (cf := cf) hp
    rw [e1] at ha
    exact ⟨hp.wf, by rw [hc]; exact ha.1.sub, fun h => by cases h⟩
  rcases argument_inv e1 with ⟨g, r, hb, rfl, rfl⟩ | ⟨x, ht, t, hb, rfl, hx, rfl⟩
  · cases e2
    obtain ⟨ns, hf⟩ := hd (h.content.part g 1 r) none (by simp)
    have hs : h2.content.cs = r := by rw [hc]; rfl
    rw [← hs] at hb
    exact ⟨_, _, .groupArg hb hf⟩
  · have hi : In o x := by
      have ha := argument_spec (cf := cf) hp
      rw [e1] at ha
      exact in_of hx hb.1 ha.2.1
    have hl := nextTok_length hb.1
    have hs : h2.content.cs = t := by rw [hc]; rfl
    obtain ⟨ns, r, pl, hm⟩ := B true x t ht { h2 with harg := true } h3 o (by omega) hx hs rfl ⟨hp2.wf, hp2.sub, hp2.clean⟩ hi hr fair_true e2 hd
    rw [means_ok hm (by omega) hx (h := { h2 with harg := true }) hs rfl e2]
    exact ⟨ns, pl, .tokenArg hb (free_none x) hm⟩

/-- Reading an operand in one go. -/
theorem operand_next (hp : Pre false o h) (hn : h.content.cs.length + 1 ≤ n) (e1 : H.argument h = .ok arg h1) (hc : h2.content = h1.content)
    (e2 : handleArgument (handleToken cf n) arg h2 = .ok ⟨⟩ h3) : Pre false o h3 := by
  obtain ⟨d, hd, -⟩ := operand_keeps hp hn e1 hc e2
  exact ⟨hp.wf, hd.sub, fun h => by cases h⟩

theorem pre_same {h0 : HSt} (hp : Pre false o h) (hc : h0.content = h.content) : Pre false o h0 := ⟨hp.wf, by rw [hc]; exact hp.sub, hp.clean⟩

theorem pre_past {r : Str} (hp : Pre false o h) (hr : r <:+ h.content.cs) : Pre false o (past h r) :=
  ⟨hp.wf, Sub.suffix hp.sub hr, fun h => by cases h⟩

end operand

/-! ### Characters -/

theorem back_char {a : Bool} {c : Char} {ctx : Sl} {s : Str} {h h' : HSt} (hx : ctx.cs = c :: s) (hs : h.content.cs = s) (ha : h.harg = a) (hf : Fair a (.chr c) s) (hw : isWs c = false)
    (e : handleChar c ctx h = .ok ⟨⟩ h') (hd : Der h'.buf) : Read a (.chr c) s := by
  unfold handleChar at e
  rw [M.get_bind] at e
  split at e
  · cases e
  split at e
  · rename_i h1
    split at e
    · cases e
    · rename_i h2
      obtain rfl : a = false := by rw [← ha]; simpa using h2
      exact ⟨_, _, _, .noBase (by simpa [or_comm] using h1)⟩
  split at e
  · cases e
  split at e
  · cases e
  split at e
  · rename_i hc
    subst hc
    cases a with
    | false => exact absurd rfl (hf rfl).1
    | true =>
      cases hA : h.align with
      | none => rw [hA] at e; cases e
      | some A => rw [hA, ha] at e; simp at e
  split at e
  · rename_i hc
    subst hc
    obtain ⟨g, h1, e1, e⟩ := bind_inv e
    obtain ⟨r, hg, rfl⟩ := groupContent_inv e1
    cases e
    obtain ⟨ns, hf⟩ := hd g none (by simp)
    rw [hs] at hg
    exact ⟨_, _, _, .braces hg hf⟩
  split at e
  · cases e
  split at e
  · rename_i hc
    subst hc
    exact ⟨_, _, _, .single .tie⟩
  split at e
  · rename_i hc
    cases a with
    | false =>
      exact ⟨_, _, _, .number hc (numberLit_of hc)⟩
    | true => exact ⟨_, _, _, .digit hc⟩
  · rename_i h1 h2 h3 h4 h5 h6 h7 h8 h9
    refine ⟨_, _, _, .single (.chr ?_)⟩
    unfold special
    simp_all

/-! ### Commands without formulas -/

section commands
variable {a : Bool} {name s : Str} {h h' : HSt}

theorem textArg_inv {h1 : HSt} {arg : HArg} (e : H.argument h = .ok arg h1) (hn : ∀ m, arg ≠ .token (.cs m)) :
    ∃ g, TextArg h.content.cs g h1.content.cs ∧ h1 = past h h1.content.cs := by
  rcases argument_inv e with ⟨g, r, hb, rfl, rfl⟩ | ⟨x, ht, t, hb, rfl, hx, rfl⟩
  · exact ⟨_, .braced hb, rfl⟩
  · cases ht with
    | cs m => exact absurd rfl (hn m)
    | chr c ctx =>
      cases x with
      | cs => cases hx
      | chr d => exact ⟨_, .rest hb, rfl⟩

theorem back_operatorname (hp : primOf name = .operatorname) (e : execPrim cf (handleToken cf n) .operatorname h = .ok ⟨⟩ h') :
    Read a (.cs name) h.content.cs := by
  unfold execPrim at e
  obtain ⟨_, h0, e0, e⟩ := bind_inv e
  cases e0
  obtain ⟨arg, h1, e1, e⟩ := bind_inv e
  obtain ⟨g, hg, -⟩ := textArg_inv e1 (by rintro m rfl; cases e)
  exact ⟨_, _, _, .operatorname hp hg⟩

theorem back_dots (hp : primOf name = .dots) : Read a (.cs name) s := by
  by_cases hd : ∃ w c u, Spaces w ∧ s = w ++ c :: u ∧ (c = '.' ∨ c = ',')
  · obtain ⟨w, c, u, hw, rfl, hc⟩ := hd
    exact ⟨_, _, _, .dotsLow hp hw hc⟩
  · refine ⟨_, _, _, .dots hp fun w c u hw e => ?_⟩
    exact ⟨fun hc => hd ⟨w, c, u, hw, e, .inl hc⟩, fun hc => hd ⟨w, c, u, hw, e, .inr hc⟩⟩

theorem back_char_ (hov : cf.overflowChecks = true) (hp : primOf name = .char) (e : execPrim cf (handleToken cf n) .char h = .ok ⟨⟩ h') :
    Read a (.cs name) h.content.cs := by
  unfold execPrim at e
  obtain ⟨m, h1, e1, e⟩ := bind_inv e
  obtain ⟨r, e2, rfl⟩ := lex_inv e1
  obtain ⟨m', hi, hl, rfl⟩ := (C51_integer _ _ _ _).1 e2
  rw [hov] at hl
  simp at hl
  rw [Nat.mod_eq_of_lt hl] at e
  split at e
  · cases e
  · exact ⟨_, _, _, .char hp hi (by omega)⟩

theorem back_color (hr : Regular o.cs) (hsub : Pre false o h) (hp : primOf name = .color) (e : execPrim cf (handleToken cf n) .color h = .ok ⟨⟩ h') :
    Read a (.cs name) h.content.cs := by
  unfold execPrim at e
  obtain ⟨g, h1, e1, e⟩ := bind_inv e
  obtain ⟨r, hb, rfl⟩ := groupArg_inv e1
  obtain ⟨_, h2, e2, e⟩ := bind_inv e
  cases e2
  obtain ⟨c, h3, e3, e⟩ := bind_inv e
  exact ⟨_, _, _, .color hp (colorOf_inv hr hsub.sub.infix hb e3).1⟩

theorem back_begingroup (hp : primOf name = .begingroup) (e : execPrim cf (handleToken cf n) .begingroup h = .ok ⟨⟩ h') (hd : Der h'.buf) :
    Read a (.cs name) h.content.cs := by
  unfold execPrim at e
  obtain ⟨g, h1, e1, e⟩ := bind_inv e
  obtain ⟨r, hb, rfl⟩ := groupContent_inv e1
  cases e
  obtain ⟨ns, hf⟩ := hd g none (by simp)
  exact ⟨_, _, _, .begingroup hp hb hf⟩

theorem back_sized {size : DelimSize} (hp : primOf name = .sized size) (e : execPrim cf (handleToken cf n) (.sized size) h = .ok ⟨⟩ h') :
    Read a (.cs name) h.content.cs := by
  unfold execPrim sizedDelim at e
  obtain ⟨⟨d, ty⟩, h1, e1, e⟩ := bind_inv e
  obtain ⟨r, e2, rfl⟩ := lex_inv e1
  exact ⟨_, _, _, .sized hp (delimiter_inv e2)⟩

theorem back_middle (hp : primOf name = .middle) (e : execPrim cf (handleToken cf n) .middle h = .ok ⟨⟩ h') : Read a (.cs name) h.content.cs := by
  unfold execPrim at e
  obtain ⟨⟨d, ty⟩, h1, e1, e⟩ := bind_inv e
  obtain ⟨r, e2, rfl⟩ := lex_inv e1
  exact ⟨_, _, _, .middle hp (delimiter_inv e2)⟩

theorem back_left (hp : primOf name = .left) (e : execPrim cf (handleToken cf n) .left h = .ok ⟨⟩ h') (hd : Der h'.buf) : Read a (.cs name) h.content.cs := by
  unfold execPrim at e
  obtain ⟨l, h1, e1, e⟩ := bind_inv e
  obtain ⟨t, hl, rfl⟩ := leftDelim_inv e1
  obtain ⟨g, h2, e2, e⟩ := bind_inv e
  obtain ⟨u, hg, rfl⟩ := groupContent_inv e2
  obtain ⟨r, h3, e3, e⟩ := bind_inv e
  obtain ⟨v, hv, rfl⟩ := leftDelim_inv e3
  cases e
  obtain ⟨ns, hf⟩ := hd g none (by simp)
  exact ⟨_, _, _, .left hp hl hg hv hf⟩

theorem dimensionOrBraced_inv {s r : Str} {d : Dim} (e : dimensionOrBraced s = .ok d r) : MaybeBraced Length s d r := by
  unfold dimensionOrBraced at e
  exact orBraced_inv (fun _ _ _ => dimension_inv) e

theorem glueOrBraced_inv {s r : Str} {d : Dim × Option Dim × Option Dim} (e : glueOrBraced s = .ok d r) : MaybeBraced Glue s d r := by
  unfold glueOrBraced at e
  exact orBraced_inv (fun _ _ _ => glue_inv) e

theorem back_kern (hp : primOf name = .kern) (e : execPrim cf (handleToken cf n) .kern h = .ok ⟨⟩ h') : Read a (.cs name) h.content.cs := by
  unfold execPrim at e
  obtain ⟨d, h1, e1, e⟩ := bind_inv e
  obtain ⟨r, e2, rfl⟩ := lex_inv e1
  exact ⟨_, _, _, .kern hp (dimensionOrBraced_inv e2)⟩

theorem back_mkern (hp : primOf name = .mkern) (e : execPrim cf (handleToken cf n) .mkern h = .ok ⟨⟩ h') : Read a (.cs name) h.content.cs := by
  unfold execPrim at e
  obtain ⟨d, h1, e1, e⟩ := bind_inv e
  obtain ⟨r, e2, rfl⟩ := lex_inv e1
  split at e
  · rename_i hu; exact ⟨_, _, _, .mkern hp (dimensionOrBraced_inv e2) hu⟩
  · cases e

theorem back_hskip (hp : primOf name = .hskip) (e : execPrim cf (handleToken cf n) .hskip h = .ok ⟨⟩ h') : Read a (.cs name) h.content.cs := by
  unfold execPrim at e
  obtain ⟨⟨d, p, m⟩, h1, e1, e⟩ := bind_inv e
  obtain ⟨r, e2, rfl⟩ := lex_inv e1
  exact ⟨_, _, _, .hskip hp (glueOrBraced_inv e2)⟩

theorem back_mskip (hp : primOf name = .mskip) (e : execPrim cf (handleToken cf n) .mskip h = .ok ⟨⟩ h') : Read a (.cs name) h.content.cs := by
  unfold execPrim at e
  obtain ⟨⟨d, p, m⟩, h1, e1, e⟩ := bind_inv e
  obtain ⟨r, e2, rfl⟩ := lex_inv e1
  dsimp only at e
  split at e
  · rename_i hu
    simp only [Bool.and_eq_true, decide_eq_true_eq] at hu
    refine ⟨_, _, _, .mskip hp (glueOrBraced_inv e2) hu.1.1 ?_ ?_⟩
    · rintro x rfl; simpa using hu.1.2
    · rintro x rfl; simpa using hu.2
  · cases e

theorem back_hspace (hp : primOf name = .hspace) (e : execPrim cf (handleToken cf n) .hspace h = .ok ⟨⟩ h') : Read a (.cs name) h.content.cs := by
  unfold execPrim at e
  obtain ⟨g, h1, e1, e⟩ := bind_inv e
  obtain ⟨r, hb, rfl⟩ := groupArg_inv e1
  obtain ⟨⟨d, p, m⟩, h2, e2, e⟩ := bind_inv e
  obtain ⟨⟨u, e3⟩, -⟩ := onStr_inv e2
  exact ⟨_, _, _, .hspace hp hb (glue_inv e3)⟩

theorem back_space3 (hp : primOf name = .space3) (e : execPrim cf (handleToken cf n) .space3 h = .ok ⟨⟩ h') : Read a (.cs name) h.content.cs := by
  unfold execPrim at e
  obtain ⟨g, h1, e1, e⟩ := bind_inv e
  obtain ⟨r, hb, rfl⟩ := groupArg_inv e1
  obtain ⟨d, h2, e2, e⟩ := bind_inv e
  obtain ⟨⟨u, e3⟩, rfl⟩ := onStr_inv e2
  obtain ⟨g', h1', e1', e⟩ := bind_inv e
  obtain ⟨r', hb', rfl⟩ := groupArg_inv e1'
  obtain ⟨d', h2', e2', e⟩ := bind_inv e
  obtain ⟨⟨u', e3'⟩, rfl⟩ := onStr_inv e2'
  obtain ⟨g'', h1'', e1'', e⟩ := bind_inv e
  obtain ⟨r'', hb'', rfl⟩ := groupArg_inv e1''
  obtain ⟨d'', h2'', e2'', e⟩ := bind_inv e
  obtain ⟨⟨u'', e3''⟩, rfl⟩ := onStr_inv e2''
  exact ⟨_, _, _, .space3 hp hb (dimension_inv e3) hb' (dimension_inv e3') hb'' (dimension_inv e3'')⟩

theorem textArgument_inv {f : Option Font} (e : textArgument f h = .ok ⟨⟩ h') : ∃ g r, TextArg h.content.cs g r := by
  unfold textArgument at e
  obtain ⟨t, h1, e1, e⟩ := bind_inv e
  obtain ⟨arg, h2, e2, e1⟩ := bind_inv e1
  obtain ⟨g, hg, -⟩ := textArg_inv e2 (by rintro m rfl; cases e1)
  exact ⟨_, _, hg⟩

theorem back_text {f : Option Font} (hp : primOf name = .text f) (e : execPrim cf (handleToken cf n) (.text f) h = .ok ⟨⟩ h') : Read a (.cs name) h.content.cs := by
  unfold execPrim at e
  obtain ⟨g, r, hg⟩ := textArgument_inv e
  cases f with
  | none => exact ⟨_, _, _, .text hp hg⟩
  | some f => exact ⟨_, _, _, .textFont hp hg⟩

theorem back_colorbox (hr : Regular o.cs) (hsub : Pre false o h) (hp : primOf name = .colorbox)
    (e : execPrim cf (handleToken cf n) .colorbox h = .ok ⟨⟩ h') : Read a (.cs name) h.content.cs := by
  unfold execPrim at e
  obtain ⟨g, h1, e1, e⟩ := bind_inv e
  obtain ⟨r, hb, rfl⟩ := groupArg_inv e1
  obtain ⟨c, h3, e3, e⟩ := bind_inv e
  obtain ⟨hc, rfl⟩ := colorOf_inv hr hsub.sub.infix hb e3
  obtain ⟨_, h4, e4, e⟩ := bind_inv e
  cases e4
  obtain ⟨_, h5, e5, e⟩ := bind_inv e
  obtain ⟨g, r, hg⟩ := textArgument_inv e5
  exact ⟨_, _, _, .colorbox hp hc hg⟩

theorem back_fcolorbox (hr : Regular o.cs) (hsub : Pre false o h) (hp : primOf name = .fcolorbox)
    (e : execPrim cf (handleToken cf n) .fcolorbox h = .ok ⟨⟩ h') : Read a (.cs name) h.content.cs := by
  unfold execPrim at e
  obtain ⟨g, h1, e1, e⟩ := bind_inv e
  obtain ⟨r, hb, rfl⟩ := groupArg_inv e1
  obtain ⟨g', h1', e1', e⟩ := bind_inv e
  obtain ⟨r', hb', rfl⟩ := groupArg_inv e1'
  obtain ⟨c, h3, e3, e⟩ := bind_inv e
  obtain ⟨hc, rfl⟩ := colorOf_inv hr hsub.sub.infix hb e3
  obtain ⟨c', h3', e3', e⟩ := bind_inv e
  have hsuf : r <:+: o.cs := by
    obtain ⟨w, -, hw⟩ := braced_text hb
    exact (List.IsSuffix.isInfix ⟨w ++ '{' :: g.cs ++ ['}'], by rw [hw]; simp⟩).trans hsub.sub.infix
  obtain ⟨hc', rfl⟩ := colorOf_inv hr hsuf hb' e3'
  obtain ⟨_, h4, e4, e⟩ := bind_inv e
  cases e4
  obtain ⟨_, h5, e5, e⟩ := bind_inv e
  obtain ⟨g, r, hg⟩ := textArgument_inv e5
  exact ⟨_, _, _, .fcolorbox hp hc hc' hg⟩

theorem back_substack (hp : primOf name = .substack) (e : execPrim cf (handleToken cf n) .substack h = .ok ⟨⟩ h') (hd : Der h'.buf) :
    Read a (.cs name) h.content.cs := by
  unfold execPrim at e
  obtain ⟨g, h1, e1, e⟩ := bind_inv e
  obtain ⟨r, hb, rfl⟩ := braceArgument_inv e1
  cases e
  obtain ⟨rows, hf⟩ := hd g (some ⟨0, 0⟩) (by simp)
  exact ⟨_, _, _, .substack hp hb hf⟩

theorem back_begin (hr : Regular o.cs) (hsub : Pre false o h) (hp : primOf name = .begin_)
    (e : execPrim cf (handleToken cf n) .begin_ h = .ok ⟨⟩ h') (hd : Der h'.buf) : Read a (.cs name) h.content.cs := by
  have hname : name ∈ [c!"begin"] := tableNames (by decide +kernel) (by simp) (by simp) (by simp) hp
  simp at hname
  subst hname
  have e' : handleToken cf (n + 1) (.cs c!"begin") h = .ok ⟨⟩ h' := by
    rw [← hp] at e
    exact e
  obtain ⟨nm, r0, sh, r1, ls, r2, X, v, x, hb, hs, hl, hx, rfl, rfl⟩ := C49_only cf n h h' e'
  obtain ⟨w, -, hw⟩ := braced_text hb
  have hi : ('{' :: nm ++ '}' :: r0) <:+: o.cs := (List.IsSuffix.isInfix ⟨w, hw.symm⟩).trans hsub.sub.infix
  rcases hs with hs | hs
  · obtain ⟨rows, hf⟩ := hd x (some ⟨0, sh.alignments⟩) (by
      refine List.mem_append_right _ ?_
      unfold shapeOf
      simp)
    exact ⟨_, _, _, .environment hb hs hl hx hf⟩
  · exact absurd hs (hr.counts _ _ hi)

end commands

/-! ### Commands with formulas as arguments -/

section arguments
variable {a : Bool} {name : Str} {h h' : HSt}

theorem suffix_braced {s g r : Str} (h : Braced s g r) : r <:+ s := by
  obtain ⟨w, -, e⟩ := braced_text h
  exact ⟨w ++ '{' :: g ++ ['}'], by rw [e]; simp⟩

theorem suffix_nextTok {s r : Str} {x : Word} (h : NextTok s x r) : r <:+ s := by
  obtain ⟨t, ht, -⟩ := nextTok_iff.1 h
  have := token_facts ht
  cases t with
  | cs n => obtain ⟨k, w, -, -, -, rfl⟩ := this; exact ⟨k ++ '\\' :: (n ++ w), by simp⟩
  | chr c ctx => obtain ⟨-, k, -, rfl, -⟩ := this; exact ⟨k ++ [c], by simp⟩

theorem suffix_bracketed {s g r : Str} (h : Bracketed s g r) : r <:+ s := by
  obtain ⟨w, t, -, rfl, h⟩ := h
  exact ⟨w ++ '[' :: g ++ [']'], by rw [split_text h]; simp⟩

theorem suffix_optional {h1 : HSt} {g : Option Sl} (e : H.optionalArgument h = .ok g h1) : ∃ r, r <:+ h.content.cs ∧ h1 = past h r := by
  have hg := good_optionalArgument (cf := ⟨true, fun _ => 0⟩) h.content.cs
  unfold H.optionalArgument at e
  cases hr : Lex.optionalArgument h.content.cs with
  | ok b r => rw [hr] at e hg; cases e; exact ⟨r, hg, rfl⟩
  | err => rw [hr] at e; cases e
  | panic => rw [hr] at e; cases e

theorem suffix_argument {h1 : HSt} {arg : HArg} (e : H.argument h = .ok arg h1) : ∃ r, r <:+ h.content.cs ∧ h1 = past h r := by
  rcases argument_inv e with ⟨g, r, hb, -, rfl⟩ | ⟨x, ht, t, hb, -, -, rfl⟩
  · exact ⟨r, suffix_braced hb, rfl⟩
  · exact ⟨t, suffix_nextTok hb.1, rfl⟩

variable (B : Back cf n) (hr : Regular o.cs) (hp : Pre false o h) (hn : h.content.cs.length + 1 ≤ n)
include B hr hp hn

theorem back_pmod (hq : primOf name = .pmod) (e : execPrim cf (handleToken cf n) .pmod h = .ok ⟨⟩ h') (hd : Der h'.buf) : Read a (.cs name) h.content.cs := by
  unfold execPrim at e
  obtain ⟨arg, h1, e1, e⟩ := bind_inv e
  obtain ⟨_, h2, e2, e⟩ := bind_inv e
  cases e2
  obtain ⟨_, h3, e3, e⟩ := bind_inv e
  cases e
  obtain ⟨ns, pl, ho⟩ := operand_back B hp hr hn e1 (by rfl) e3 hd.left
  exact ⟨_, _, _, .pmod hq ho⟩

theorem back_textcolor (hq : primOf name = .textcolor) (e : execPrim cf (handleToken cf n) .textcolor h = .ok ⟨⟩ h') (hd : Der h'.buf) :
    Read a (.cs name) h.content.cs := by
  unfold execPrim at e
  obtain ⟨g, h1, e1, e⟩ := bind_inv e
  obtain ⟨r, hb, rfl⟩ := groupArg_inv e1
  obtain ⟨c, h2, e2, e⟩ := bind_inv e
  obtain ⟨hc, rfl⟩ := colorOf_inv hr hp.sub.infix hb e2
  obtain ⟨arg, h3, e3, e⟩ := bind_inv e
  obtain ⟨_, h4, e4, e⟩ := bind_inv e
  cases e4
  obtain ⟨_, h5, e5, e⟩ := bind_inv e
  cases e
  have := braced_length hb
  obtain ⟨ns, pl, ho⟩ := operand_back B (pre_past hp (suffix_braced hb)) hr (by show r.length + 1 ≤ n; omega) e3 (by rfl) e5 hd.left
  exact ⟨_, _, _, .textcolor hq hc ho⟩

theorem back_accent {c : Char} {st above : Bool} (hq : primOf name = .accent c st above) (e : execPrim cf (handleToken cf n) (.accent c st above) h = .ok ⟨⟩ h')
    (hd : Der h'.buf) : Read a (.cs name) h.content.cs := by
  have key : ∀ h0 : HSt, h0.content = h.content → accent (handleToken cf n) c st h0 = .ok ⟨⟩ h' → Read a (.cs name) h.content.cs := by
    intro h0 hc e
    unfold accent at e
    obtain ⟨arg, h1, e1, e⟩ := bind_inv e
    obtain ⟨_, h2, e2, e⟩ := bind_inv e
    cases e2
    obtain ⟨_, h3, e3, e⟩ := bind_inv e
    cases e
    obtain ⟨ns, pl, ho⟩ := operand_back B (h := h0) ⟨hp.wf, by rw [hc]; exact hp.sub, hp.clean⟩ hr (by rw [hc]; exact hn) e1 (by rfl) e3 hd.left
    rw [hc] at ho
    exact ⟨_, _, _, .accent hq ho⟩
  cases above with
  | true => exact key { h with pos := .aboveBelow } rfl e
  | false => exact key h rfl e

theorem back_under {c : Char} {above : Bool} (hq : primOf name = .under c above) (e : execPrim cf (handleToken cf n) (.under c above) h = .ok ⟨⟩ h')
    (hd : Der h'.buf) : Read a (.cs name) h.content.cs := by
  have key : ∀ h0 : HSt, h0.content = h.content → underscript (handleToken cf n) c h0 = .ok ⟨⟩ h' → Read a (.cs name) h.content.cs := by
    intro h0 hc e
    unfold underscript at e
    obtain ⟨arg, h1, e1, e⟩ := bind_inv e
    obtain ⟨_, h2, e2, e⟩ := bind_inv e
    cases e2
    obtain ⟨_, h3, e3, e⟩ := bind_inv e
    cases e
    obtain ⟨ns, pl, ho⟩ := operand_back B (h := h0) ⟨hp.wf, by rw [hc]; exact hp.sub, hp.clean⟩ hr (by rw [hc]; exact hn) e1 (by rfl) e3 hd.left
    rw [hc] at ho
    exact ⟨_, _, _, .under hq ho⟩
  cases above with
  | true => exact key { h with pos := .aboveBelow } rfl e
  | false => exact key h rfl e

theorem back_not (hq : primOf name = .not_) (e : execPrim cf (handleToken cf n) .not_ h = .ok ⟨⟩ h') (hd : Der h'.buf) : Read a (.cs name) h.content.cs := by
  unfold execPrim at e
  obtain ⟨_, h0, e0, e⟩ := bind_inv e
  cases e0
  obtain ⟨arg, h1, e1, e⟩ := bind_inv e
  obtain ⟨ns, pl, ho⟩ := operand_back B (pre_same hp (by rfl)) hr (by exact hn) e1 rfl e hd
  exact ⟨_, _, _, .negated hq ho⟩

end arguments

section two
variable {a : Bool} {name : Str} {h h' : HSt}

theorem readArg_inv {h1 : HSt} {arg : HArg} (e : H.argument h = .ok arg h1) : ∃ w, ReadArg h.content.cs w h1.content.cs := by
  unfold H.argument at e
  cases ha : Lex.argument h.content.cs with
  | ok b r => rw [ha] at e; cases e; exact ⟨_, Macros.argument_ok ha⟩
  | err => rw [ha] at e; cases e
  | panic => rw [ha] at e; cases e

theorem genDelim_inv {d : Option Char} {h1 : HSt} (e : genfracDelim h = .ok d h1) : ∃ r, GenDelim h.content.cs d r ∧ h1 = past h r := by
  unfold genfracDelim at e
  obtain ⟨arg, h2, e1, e⟩ := bind_inv e
  rcases argument_inv e1 with ⟨g, r, hb, rfl, rfl⟩ | ⟨x, ht, t, hb, rfl, hx, rfl⟩
  · dsimp only at e
    split at e
    · rename_i hg
      obtain rfl : g = [] := by simpa [Sl.part] using hg
      cases e
      exact ⟨r, .none hb, rfl⟩
    · cases e
  · dsimp only at e
    cases ht with
    | cs m =>
      cases x with
      | chr => cases hx
      | cs y =>
        obtain rfl : m = y := hx
        dsimp only at e
        cases hm : controlSequenceDelimiterMap m with
        | none => rw [hm] at e; cases e
        | some q => rw [hm] at e; cases e; exact ⟨t, .cs hb hm, rfl⟩
    | chr c ctx =>
      cases x with
      | cs => cases hx
      | chr y =>
        obtain ⟨rfl, -⟩ := hx
        dsimp only at e
        cases hm : charDelimiterMap c with
        | none => rw [hm] at e; cases e
        | some q => rw [hm] at e; cases e; exact ⟨t, .chr hb hm, rfl⟩

theorem genBar_inv {d : Option Dim} {h1 : HSt} (e : genfracBar h = .ok d h1) : ∃ r, GenBar h.content.cs d r ∧ h1 = past h r := by
  unfold genfracBar at e
  obtain ⟨arg, h2, e1, e⟩ := bind_inv e
  rcases argument_inv e1 with ⟨g, r, hb, rfl, rfl⟩ | ⟨x, ht, t, hb, rfl, hx, rfl⟩
  · dsimp only at e
    split at e
    · rename_i hg
      obtain rfl : g = [] := by simpa [Sl.part] using hg
      cases e
      exact ⟨r, .none hb, rfl⟩
    · rename_i hg
      obtain ⟨⟨d', l⟩, h3, e3, e⟩ := bind_inv e
      obtain ⟨⟨u, e4⟩, rfl⟩ := onStr_inv e3
      obtain ⟨d2, u2, e5, e4⟩ := bind_inv e4
      rw [M.get_bind] at e4
      cases e4
      dsimp only at e
      split at e
      · rename_i hl
        obtain rfl : l = [] := by simpa using hl
        cases e
        exact ⟨r, .some hb (by simpa [Sl.part] using hg) (dimension_inv e5), rfl⟩
      · cases e
  · cases e

theorem styleOf_some {c : Char} {st : Style} (h : styleOf c = some st) :
    ∃ i, c = Char.ofNat (48 + i) ∧ [Style.display, .text, .script, .scriptScript][i]? = some st := by
  unfold styleOf at h
  split at h <;> cases h
  · exact ⟨0, rfl, rfl⟩
  · exact ⟨1, rfl, rfl⟩
  · exact ⟨2, rfl, rfl⟩
  · exact ⟨3, rfl, rfl⟩

theorem genStyle_inv {d : Option Style} {h1 : HSt} (e : genfracStyle h = .ok d h1) : ∃ r, GenStyle h.content.cs d r ∧ h1 = past h r := by
  unfold genfracStyle at e
  obtain ⟨arg, h2, e1, e⟩ := bind_inv e
  rcases argument_inv e1 with ⟨g, r, hb, rfl, rfl⟩ | ⟨x, ht, t, hb, rfl, hx, rfl⟩
  · match g, hb with
    | [], hb => cases e; exact ⟨r, .none hb, rfl⟩
    | [c], hb =>
      simp only [Sl.part] at e
      cases hc : styleOf c with
      | none => rw [hc] at e; cases e
      | some st =>
        rw [hc] at e
        cases e
        obtain ⟨i, rfl, hi⟩ := styleOf_some hc
        exact ⟨r, .some (.inr hb) hi, rfl⟩
    | c :: d :: g, hb => cases e
  · cases ht with
    | cs m => cases e
    | chr c ctx =>
      cases x with
      | cs => cases hx
      | chr y =>
        obtain ⟨rfl, -⟩ := hx
        dsimp only at e
        cases hc : styleOf c with
        | none => rw [hc] at e; cases e
        | some st =>
          rw [hc] at e
          cases e
          obtain ⟨i, rfl, hi⟩ := styleOf_some hc
          exact ⟨t, .some (.inl hb) hi, rfl⟩

variable (B : Back cf n) (hr : Regular o.cs) (hp : Pre false o h) (hn : h.content.cs.length + 1 ≤ n)
include B hr hp hn

theorem back_sideset (hq : primOf name = .sideset) (e : execPrim cf (handleToken cf n) .sideset h = .ok ⟨⟩ h') (hd : Der h'.buf) :
    Read a (.cs name) h.content.cs := by
  unfold execPrim at e
  obtain ⟨a1, h1, e1, e⟩ := bind_inv e
  obtain ⟨a2, h2, e2, e⟩ := bind_inv e
  obtain ⟨arg, h3, e3, e4⟩ := bind_inv e
  clear e
  have l1 := argument_lt e1
  have l2 := argument_lt e2
  obtain ⟨w1, k1⟩ := readArg_inv e1
  obtain ⟨w2, k2⟩ := readArg_inv e2
  obtain ⟨r1, s1, rfl⟩ := suffix_argument e1
  obtain ⟨r2, s2, rfl⟩ := suffix_argument e2
  obtain ⟨ns, pl, ho⟩ := operand_back B (pre_past (pre_past hp s1) s2) hr (by omega) e3 rfl e4 hd
  exact ⟨_, _, _, .sideset hq k1 k2 ho⟩

theorem back_sqrt (hq : primOf name = .sqrt) (e : execPrim cf (handleToken cf n) .sqrt h = .ok ⟨⟩ h') (hd : Der h'.buf) :
    Read a (.cs name) h.content.cs := by
  unfold execPrim at e
  obtain ⟨g, h1, e1, e⟩ := bind_inv e
  obtain ⟨r, hsuf, hpast⟩ := suffix_optional e1
  have hl := hsuf.length_le
  subst hpast
  rcases optionalArgument_inv e1 with ⟨rfl, r', hno, hpast⟩ | ⟨x, r', rfl, hb, hpast⟩
  · have hrr : r = r' := congrArg (fun h : HSt => h.content.cs) hpast
    subst hrr
    obtain ⟨_, h2, e2, e⟩ := bind_inv e
    cases e2
    obtain ⟨arg, h3, e3, e⟩ := bind_inv e
    obtain ⟨ns, pl, ho⟩ := operand_back B (pre_same (pre_past hp hsuf) (by rfl)) hr (by show r.length + 1 ≤ n; omega) e3 rfl e hd
    exact ⟨_, _, _, .sqrt hq hno ho⟩
  · have hrr : r = r' := congrArg (fun h : HSt => h.content.cs) hpast
    subst hrr
    obtain ⟨_, h2, e2, e⟩ := bind_inv e
    cases e2
    obtain ⟨arg, h3, e3, e⟩ := bind_inv e
    obtain ⟨_, h4, e4, e⟩ := bind_inv e
    cases e
    obtain ⟨ns, pl, ho⟩ := operand_back B (pre_same (pre_past hp hsuf) (by rfl)) hr (by show r.length + 1 ≤ n; omega) e3 rfl e4 hd.left
    obtain ⟨is, hf⟩ := hd x none (by simp)
    exact ⟨_, _, _, .root hq hb hf ho⟩

theorem back_xarrow {c : Char} (hq : primOf name = .xarrow c) (e : execPrim cf (handleToken cf n) (.xarrow c) h = .ok ⟨⟩ h') (hd : Der h'.buf) :
    Read a (.cs name) h.content.cs := by
  unfold execPrim at e
  obtain ⟨g, h1, e1, e⟩ := bind_inv e
  obtain ⟨r, hsuf, hpast⟩ := suffix_optional e1
  have hl := hsuf.length_le
  subst hpast
  obtain ⟨arg, h2, e2, e⟩ := bind_inv e
  obtain ⟨_, h3, e3, e⟩ := bind_inv e
  cases e3
  rcases optionalArgument_inv e1 with ⟨rfl, r', hno, hpast⟩ | ⟨x, r', rfl, hb, hpast⟩
  · have hrr : r = r' := congrArg (fun h : HSt => h.content.cs) hpast
    subst hrr
    obtain ⟨ns, pl, ho⟩ := operand_back B (pre_past hp hsuf) hr (by show r.length + 1 ≤ n; omega) e2 (by rfl) e hd
    exact ⟨_, _, _, .xarrow hq hno ho⟩
  · have hrr : r = r' := congrArg (fun h : HSt => h.content.cs) hpast
    subst hrr
    obtain ⟨_, h4, e4, e⟩ := bind_inv e
    cases e4
    obtain ⟨ns, pl, ho⟩ := operand_back B (pre_past hp hsuf) hr (by show r.length + 1 ≤ n; omega) e2 (by rfl) e hd
    obtain ⟨d, hk, -⟩ := operand_keeps (pre_past hp hsuf) (by show r.length + 1 ≤ n; omega) e2 (by rfl) e
    obtain ⟨is, hf⟩ := hd x none (by rw [hk.buf]; simp)
    exact ⟨_, _, _, .xarrowBelow hq hb hf ho⟩

/-- Two operands. -/
theorem two_back {a1 a2 : HArg} {h1 h2 h3 h4 h5 h6 : HSt} (e1 : H.argument h = .ok a1 h1) (hc : h2.content = h1.content)
    (e2 : handleArgument (handleToken cf n) a1 h2 = .ok ⟨⟩ h3) (hc' : h4.content = h3.content) (e3 : H.argument h4 = .ok a2 h5)
    (e4 : handleArgument (handleToken cf n) a2 h5 = .ok ⟨⟩ h6) (hd : Der h3.buf) (hd' : Der h6.buf) :
    ∃ ns t pl ms u pl', Reads Known.none (.operand h.content.cs ns t pl) ∧ Reads Known.none (.operand t ms u pl') := by
  obtain ⟨d, -, hl⟩ := operand_keeps hp hn e1 hc e2
  obtain ⟨ns, pl, ho⟩ := operand_back B hp hr hn e1 hc e2 hd
  obtain ⟨ms, pl', ho'⟩ := operand_back B (pre_same (operand_next hp hn e1 hc e2) hc') hr (by rw [hc']; omega) e3 rfl e4 hd'
  rw [hc'] at ho'
  exact ⟨_, _, _, _, _, _, ho, ho'⟩

omit B hr in
/-- The buffer of the second of two operands. -/
theorem two_keeps {a1 a2 : HArg} {h1 h2 h3 h4 h5 h6 : HSt} (e1 : H.argument h = .ok a1 h1) (hc : h2.content = h1.content)
    (e2 : handleArgument (handleToken cf n) a1 h2 = .ok ⟨⟩ h3) (hc' : h4.content = h3.content) (e3 : H.argument h4 = .ok a2 h5)
    (e4 : handleArgument (handleToken cf n) a2 h5 = .ok ⟨⟩ h6) : ∃ d, h6.buf = h4.buf ++ d := by
  obtain ⟨d, -, hl⟩ := operand_keeps hp hn e1 hc e2
  obtain ⟨d', hk, -⟩ := operand_keeps (pre_same (operand_next hp hn e1 hc e2) hc') (by rw [hc']; omega) e3 rfl e4
  refine ⟨d', ?_⟩
  obtain ⟨r, -, rfl⟩ := suffix_argument e3
  exact hk.buf

theorem fraction_back {l r : Option Char} {bar : Option Dim} {style : Option Style}
    (e : fractionLike (handleToken cf n) l r bar style h = .ok ⟨⟩ h') (hd : Der h'.buf) :
    ∃ ns t pl ms u pl', Reads Known.none (.operand h.content.cs ns t pl) ∧ Reads Known.none (.operand t ms u pl') := by
  have main : ∀ (h0 : HSt) (fin : H PUnit) (f : List Instr), h0.content = h.content → (∀ h1 : HSt, fin h1 = .ok ⟨⟩ { h1 with buf := h1.buf ++ f }) →
      (do
        ev (.visual (.fraction bar))
        let num ← H.argument
        handleArgument (handleToken cf n) num
        let den ← H.argument
        handleArgument (handleToken cf n) den
        fin : H PUnit) h0 = .ok ⟨⟩ h' →
      ∃ ns t pl ms u pl', Reads Known.none (.operand h.content.cs ns t pl) ∧ Reads Known.none (.operand t ms u pl') := by
    intro h0 fin f hc hf e
    obtain ⟨_, h1, e1, e⟩ := bind_inv e
    cases e1
    obtain ⟨a1, h2, e2, e⟩ := bind_inv e
    obtain ⟨_, h3, e3, e⟩ := bind_inv e
    obtain ⟨a2, h4, e4, e⟩ := bind_inv e
    obtain ⟨_, h5, e5, e⟩ := bind_inv e
    rw [hf] at e
    cases e
    have hp0 : Pre false o { h0 with buf := h0.buf ++ [.ev (.visual (.fraction bar))] } := pre_same hp hc
    have hn0 : ({ h0 with buf := h0.buf ++ [.ev (.visual (.fraction bar))] } : HSt).content.cs.length + 1 ≤ n := by dsimp only; rw [hc]; exact hn
    obtain ⟨d, hk⟩ := two_keeps hp0 hn0 e2 rfl e3 rfl e4 e5
    have hd5 : Der h5.buf := Der.left hd
    have := two_back B hr hp0 hn0 e2 rfl e3 rfl e4 e5 (by rw [hk] at hd5; exact hd5.left) hd5
    dsimp only at this
    rw [hc] at this
    exact this
  have fe : ∀ h1 : HSt, ev .end_ h1 = .ok ⟨⟩ { h1 with buf := h1.buf ++ [.ev .end_] } := fun _ => rfl
  have fp : ∀ h1 : HSt, (Pure.pure ⟨⟩ : H PUnit) h1 = .ok ⟨⟩ { h1 with buf := h1.buf ++ [] } := fun h1 => by simp
  unfold fractionLike at e
  rcases l with _ | l <;> rcases r with _ | r <;> rcases style with _ | st
  · exact main h _ _ rfl fp e
  all_goals
    obtain ⟨_, h0, e0, e⟩ := bind_inv e
    cases e0
  · obtain ⟨_, h0, e0, e⟩ := bind_inv e
    cases e0
    exact main _ _ _ (by rfl) fe e
  · exact main _ _ _ (by rfl) fe e
  · obtain ⟨_, h0, e0, e⟩ := bind_inv e
    cases e0
    exact main _ _ _ (by rfl) fe e
  · exact main _ _ _ (by rfl) fe e
  · obtain ⟨_, h0, e0, e⟩ := bind_inv e
    cases e0
    exact main _ _ _ (by rfl) fe e
  · exact main _ _ _ (by rfl) fe e
  · obtain ⟨_, h0, e0, e⟩ := bind_inv e
    cases e0
    exact main _ _ _ (by rfl) fe e

theorem back_frac {l r : Option Char} {bar : Option Dim} {style : Option Style} (hq : primOf name = .frac l r bar style)
    (e : execPrim cf (handleToken cf n) (.frac l r bar style) h = .ok ⟨⟩ h') (hd : Der h'.buf) : Read a (.cs name) h.content.cs := by
  unfold execPrim at e
  obtain ⟨_, _, _, _, _, _, h1, h2⟩ := fraction_back B hr hp hn e hd
  exact ⟨_, _, _, .frac hq h1 h2⟩

end two

section genfrac
variable {a : Bool} {name : Str} {h h' : HSt}

theorem suffix_genDelim {s r : Str} {d : Option Char} (h : GenDelim s d r) : r <:+ s := by
  cases h with
  | none h => exact suffix_braced h
  | chr h _ => exact suffix_nextTok h.1
  | cs h _ => exact suffix_nextTok h.1

theorem suffix_genBar {s r : Str} {d : Option Dim} (h : GenBar s d r) : r <:+ s := by
  cases h with
  | none h => exact suffix_braced h
  | some h _ _ => exact suffix_braced h

theorem suffix_genStyle {s r : Str} {d : Option Style} (h : GenStyle s d r) : r <:+ s := by
  cases h with
  | none h => exact suffix_braced h
  | some h _ =>
    rcases h with h | h
    · exact suffix_nextTok h.1
    · exact suffix_braced h

theorem back_genfrac (B : Back cf n) (hr : Regular o.cs) (hp : Pre false o h) (hn : h.content.cs.length + 1 ≤ n) (hq : primOf name = .genfrac)
    (e : execPrim cf (handleToken cf n) .genfrac h = .ok ⟨⟩ h') (hd : Der h'.buf) : Read a (.cs name) h.content.cs := by
  unfold execPrim at e
  obtain ⟨l, h1, e1, e⟩ := bind_inv e
  obtain ⟨r1, k1, rfl⟩ := genDelim_inv e1
  obtain ⟨r, h2, e2, e⟩ := bind_inv e
  obtain ⟨r2, k2, rfl⟩ := genDelim_inv e2
  obtain ⟨bar, h3, e3, e⟩ := bind_inv e
  obtain ⟨r3, k3, rfl⟩ := genBar_inv e3
  obtain ⟨st, h4, e4, e⟩ := bind_inv e
  obtain ⟨r4, k4, rfl⟩ := genStyle_inv e4
  have l1 := (suffix_genDelim k1).length_le
  have l2 : r2.length ≤ r1.length := (suffix_genDelim k2).length_le
  have l3 : r3.length ≤ r2.length := (suffix_genBar k3).length_le
  have l4 : r4.length ≤ r3.length := (suffix_genStyle k4).length_le
  obtain ⟨_, _, _, _, _, _, o1, o2⟩ := fraction_back B hr (pre_past (pre_past (pre_past (pre_past hp (suffix_genDelim k1)) (suffix_genDelim k2))
    (suffix_genBar k3)) (suffix_genStyle k4)) (by show r4.length + 1 ≤ n; omega) e hd
  exact ⟨_, _, _, .genfrac hq k1 k2 k3 k4 o1 o2⟩

/-- What is left after swapping. -/
theorem swap_der {b is over : List Instr} (hd : Der (b ++ is ++ over.drop b.length)) (hb : over.take b.length = b) : Der over := by
  intro g A hi
  rw [← List.take_append_drop b.length over, hb] at hi
  refine hd g A ?_
  simp only [List.mem_append] at hi ⊢
  rcases hi with hi | hi
  · exact .inl (.inl hi)
  · exact .inr hi

theorem back_overset (B : Back cf n) (hr : Regular o.cs) (hp : Pre false o h) (hn : h.content.cs.length + 1 ≤ n) {ty : ScriptType} (hq : primOf name = .overset ty)
    (e : execPrim cf (handleToken cf n) (.overset ty) h = .ok ⟨⟩ h') (hd : Der h'.buf) : Read a (.cs name) h.content.cs := by
  unfold execPrim at e
  obtain ⟨_, h0, e0, e⟩ := bind_inv e
  cases e0
  unfold scriptSwap at e
  rw [M.get_bind] at e
  obtain ⟨a1, h1, e1, e⟩ := bind_inv e
  obtain ⟨_, h2, e2, e⟩ := bind_inv e
  rw [M.get_bind, M.modify_bind] at e
  obtain ⟨a2, h3, e3, e⟩ := bind_inv e
  obtain ⟨_, h4, e4, e⟩ := bind_inv e
  cases e
  have hp0 : Pre false o { h with buf := h.buf ++ [.ev (.script ty .aboveBelow)] } := pre_same hp rfl
  obtain ⟨d, hk⟩ := two_keeps hp0 hn e1 rfl e2 (by rfl) e3 e4
  dsimp only at hk hd
  obtain ⟨d1, hk1, -⟩ := operand_keeps hp0 hn e1 rfl e2
  obtain ⟨t, -, rfl⟩ := suffix_argument e1
  have hb : h2.buf.take (h.buf ++ [Instr.ev (.script ty .aboveBelow)]).length = h.buf ++ [Instr.ev (.script ty .aboveBelow)] := by
    rw [hk1.buf]; exact List.take_left' rfl
  rw [hb] at hk
  have hd4 := hd
  rw [hk] at hd4
  obtain ⟨_, _, _, _, _, _, o1, o2⟩ := two_back B hr hp0 hn e1 rfl e2 (by rfl) e3 e4 (swap_der hd4 hb) hd.left
  exact ⟨_, _, _, .overset hq o1 o2⟩

theorem back_buildrel (B : Back cf n) (hr : Regular o.cs) (hp : Pre false o h) (hn : h.content.cs.length + 1 ≤ n) (hq : primOf name = .buildrel)
    (e : execPrim cf (handleToken cf n) .buildrel h = .ok ⟨⟩ h') (hd : Der h'.buf) : Read a (.cs name) h.content.cs := by
  unfold execPrim at e
  obtain ⟨x, hx0, ex, e⟩ := bind_inv e
  obtain ⟨os, t, hx, rfl, rfl⟩ : ∃ os t, Delimited c!"\\over" h.content.cs os t ∧ x = h.content.part os (blen c!"\\over") t ∧ hx0 = past h t := by
    unfold H.contentWithSuffix at ex
    cases ha : Lex.contentWithSuffix c!"\\over" h.content.cs with
    | ok b r => rw [ha] at ex; cases ex; exact ⟨b, r, PL.Macros.contentWithSuffix_ok.1 ha, rfl, rfl⟩
    | err => rw [ha] at ex; cases ex
    | panic => rw [ha] at ex; cases ex
  clear ex
  have htext := delimited_text hx
  have hlt := delimited_lt hx
  have hso : Sub (h.content.part os (blen c!"\\over") t) o := Sub.part (pre := []) hp.wf hp.sub (by rw [htext]; simp) rfl
  have hpt : Pre false o (past h t) := pre_past hp ⟨os ++ c!"\\over", by rw [htext]; simp⟩
  obtain ⟨_, h0, e0, e⟩ := bind_inv e
  cases e0
  unfold scriptSwap at e
  rw [M.get_bind] at e
  obtain ⟨a1, h1, e1, e⟩ := bind_inv e
  have hp0 : Pre false o { past h t with buf := (past h t).buf ++ [.ev (.script .sup .aboveBelow)] } := pre_same hpt rfl
  have hA := argumentOf_spec (cf := cf) hp0 hso rfl
  rw [e1] at hA
  obtain ⟨rfl, hA, -, hsz⟩ := hA
  obtain ⟨_, h2, e2, e⟩ := bind_inv e
  rw [M.get_bind, M.modify_bind] at e
  obtain ⟨a2, h3, e3, e⟩ := bind_inv e
  obtain ⟨_, h4, e4, e⟩ := bind_inv e
  cases e
  -- what is staged
  have hE := handleArgument_spec (handleToken_ok cf false o n) hp0 hA (by show t.length + 2 ≤ n; omega)
  rw [e2] at hE
  obtain ⟨d1, hk1, -, -, -, -, hl2⟩ := hE
  have hlen := congrArg List.length htext
  have hl2 : h2.content.cs.length + 1 ≤ n := by
    change h2.content.cs.length ≤ max t.length a1.tl at hl2
    change a1.size + a1.tl ≤ os.length at hsz
    simp at hlen
    omega
  have hb : h2.buf.take (h.buf ++ [Instr.ev (.script .sup .aboveBelow)]).length = h.buf ++ [Instr.ev (.script .sup .aboveBelow)] := by
    rw [hk1.buf]; exact List.take_left' rfl
  have base : Der h2.buf ∧ ∃ ms pl u, Reads Known.none (.operand h2.content.cs ms u pl) := by
    have hp4 : Pre false o { h2 with buf := h2.buf.take (h.buf ++ [Instr.ev (.script .sup .aboveBelow)]).length } := ⟨hp.wf, hk1.sub, fun h => by cases h⟩
    obtain ⟨d, hk, -⟩ := operand_keeps hp4 hl2 e3 rfl e4
    obtain ⟨r, -, rfl⟩ := suffix_argument e3
    obtain ⟨ms, pl, ho⟩ := operand_back B hp4 hr hl2 e3 rfl e4 hd.left
    have hk := hk.buf
    refine ⟨?_, ms, pl, _, ho⟩
    change h4.buf = h2.buf.take (h.buf ++ [Instr.ev (.script .sup .aboveBelow)]).length ++ d at hk
    rw [hb] at hk
    have hd4 : Der (h4.buf ++ h2.buf.drop (h.buf ++ [Instr.ev (.script .sup .aboveBelow)]).length) := hd
    rw [hk] at hd4
    exact swap_der hd4 hb
  obtain ⟨-, hA'⟩ := argumentOf_inv e1
  rcases hA' with ⟨g, r, hg, rfl⟩ | ⟨x, ht, v, hg, rfl, hxt⟩
  · cases e2
    obtain ⟨hd2, ms, pl, u, ho⟩ := base
    obtain ⟨ns, hf⟩ := hd2 ((h.content.part os (blen c!"\\over") t).part g 1 r) none (by simp)
    exact ⟨_, _, _, .buildrel hq hx hg hf ho⟩
  · by_cases hdig : ∃ c, x = .chr c ∧ isDigit c = true
    · obtain ⟨c, rfl, hc⟩ := hdig
      cases ht with
      | cs => cases hxt
      | chr d ctx =>
        obtain ⟨rfl, hctx⟩ := hxt
        obtain ⟨src, stop, cs⟩ := ctx
        cases hctx
        cases n with
        | zero => omega
        | succ n =>
          have e2' : handleToken cf (n + 1) (.chr d ⟨src, stop, d :: v⟩)
              { past h t with buf := (past h t).buf ++ [.ev (.script .sup .aboveBelow)], harg := true } = .ok ⟨⟩ h2 := e2
          rw [C15_argument cf n d v src stop _ hc rfl] at e2'
          cases e2'
          obtain ⟨-, ms, pl, u, ho⟩ := base
          exact ⟨_, _, _, .buildrelDigit hq hx hg hc ho⟩
    · have hdig : ∀ c, x = .chr c → isDigit c = false := by
        intro c hc
        cases hd : isDigit c with
        | false => rfl
        | true => exact absurd ⟨c, hc, hd⟩ hdig
      obtain ⟨ht', hx'⟩ : ∃ ht' : HTok, ht'.is x t := by
        cases x with
        | cs n => exact ⟨.cs n, rfl⟩
        | chr c => exact ⟨.chr c { h.content with cs := c :: t }, rfl, rfl⟩
      have e2' : handleToken cf n ht { past h t with buf := (past h t).buf ++ [.ev (.script .sup .aboveBelow)], harg := true } = .ok ⟨⟩ h2 := e2
      rw [handleToken_ctx hxt hx' hdig rfl] at e2'
      obtain ⟨hd2, ms, pl, u, ho⟩ := base
      obtain ⟨ns, r, pl', hm⟩ := B true x t ht' { past h t with buf := (past h t).buf ++ [.ev (.script .sup .aboveBelow)], harg := true } h2 o
        (by omega) hx' (by rfl) rfl ⟨hp.wf, hpt.sub, fun h => by cases h⟩ (in_of hxt hg.1 hA) hr fair_true e2' hd2
      have := means_ok hm (by omega) hx' (by rfl) (by rfl) e2'
      subst this
      exact ⟨_, _, _, .buildrelToken hq hx hg hdig (free_none x) hm ho⟩

end genfrac

/-! ### Classes and fonts -/

section fonts
variable {a : Bool} {name : Str} {h h' : HSt}

theorem single_lone {sl : Sl} {c : Char} (hc : singleChar (.group sl) = some c) : Lone sl.cs c := by
  apply Classical.byContradiction
  intro hn
  by_cases hl : ∀ d, ¬ Lone sl.cs d
  · rw [not_lone hl] at hc; cases hc
  · obtain ⟨d, hd⟩ := Classical.not_forall.1 hl
    have hd := Classical.not_not.1 hd
    have : singleChar (.group sl) = some d := by
      show (match trim sl.cs with | [c] => some c | _ => none) = some d
      rw [lone_single hd]
    rw [this] at hc
    cases hc
    exact hn hd

theorem single_none {sl : Sl} (hc : singleChar (.group sl) = none) : ∀ c, ¬ Lone sl.cs c := by
  intro c hl
  have : singleChar (.group sl) = some c := by
    show (match trim sl.cs with | [c] => some c | _ => none) = some c
    rw [lone_single hl]
  rw [this] at hc
  cases hc

theorem back_atom (B : Back cf n) (hr : Regular o.cs) (hp : Pre false o h) (hn : h.content.cs.length + 1 ≤ n) {cls : AtomClass} (hq : primOf name = .atom cls)
    (e : execPrim cf (handleToken cf n) (.atom cls) h = .ok ⟨⟩ h') (hd : Der h'.buf) : Read a (.cs name) h.content.cs := by
  have key : ∀ h0 : HSt, h0.content = h.content → atomGroup (handleToken cf n) cls h0 = .ok ⟨⟩ h' → Read a (.cs name) h.content.cs := by
    intro h0 hc e
    unfold atomGroup at e
    obtain ⟨arg, h1, e1, e⟩ := bind_inv e
    cases hs : singleChar arg with
    | some c =>
      rcases argument_inv e1 with ⟨g, r, hb, rfl, rfl⟩ | ⟨x, ht, t, hb, rfl, hx, rfl⟩
      · rw [hc] at hb
        exact ⟨_, _, _, .classLone hq hb (single_lone hs)⟩
      · rw [hc] at hb
        cases ht with
        | cs => cases hs
        | chr d ctx =>
          cases x with
          | cs => cases hx
          | chr y => exact ⟨_, _, _, .classChar hq hb⟩
    | none =>
      rw [hs] at e
      dsimp only at e
      have hp0 : Pre false o h0 := pre_same hp hc
      have hn0 : h0.content.cs.length + 1 ≤ n := by rw [hc]; exact hn
      rcases argument_inv e1 with ⟨g, r, hb, rfl, rfl⟩ | ⟨x, ht, t, hb, rfl, hx, rfl⟩
      · have hl := single_none hs
        rw [hc] at hb
        by_cases hcls : cls = .op
        · subst hcls
          exact ⟨_, _, _, .className hq hb hl⟩
        · have : Der h'.buf → ∃ ns, Formula g ns := by
            intro hd
            have e' : (do ev (.begin_ .normal); handleArgument (handleToken cf n) (.group (h0.content.part g 1 r)); ev .end_ : H PUnit) (past h0 r) = .ok ⟨⟩ h' := by
              revert e
              cases cls <;> first | exact fun e => e | exact absurd rfl hcls
            cases e'
            exact hd (h0.content.part g 1 r) none (by simp)
          obtain ⟨ns, hf⟩ := this hd
          exact ⟨_, _, _, .classGroup hq hcls hb hl hf⟩
      · cases ht with
        | chr => cases hs
        | cs m =>
          cases x with
          | chr => cases hx
          | cs y =>
            obtain rfl : m = y := id hx
            have e' : (do ev (.begin_ .normal); handleArgument (handleToken cf n) (.token (.cs m)); ev .end_ : H PUnit) (past h0 t) = .ok ⟨⟩ h' := by
              revert e
              cases cls <;> exact fun e => e
            obtain ⟨_, h2, e2, e'⟩ := bind_inv e'
            cases e2
            obtain ⟨_, h3, e3, e'⟩ := bind_inv e'
            cases e'
            have hA := argument_spec (cf := cf) hp0
            rw [e1] at hA
            have hlt := nextTok_length hb.1
            obtain ⟨ns, r, pl, hm⟩ := B true (.cs m) t (.cs m) { past h0 t with buf := (past h0 t).buf ++ [.ev (.begin_ .normal)], harg := true } h3 o
              (by omega) rfl rfl rfl ⟨hp0.wf, hA.1.sub, fun h => by cases h⟩ (in_of hx hb.1 hA.2.1) hr fair_true e3 (Der.left hd)
            rw [hc] at hb
            exact ⟨_, _, _, .classToken hq hb (free_none _) hm⟩
  unfold execPrim at e
  by_cases hcls : cls = .op
  · subst hcls
    exact key { h with allowMods := true, pos := .movable } rfl e
  · refine key h rfl ?_
    revert e
    cases cls <;> first | exact fun e => e | exact absurd rfl hcls

theorem blank_spaces {w k : Str} (hw : Spaces w) (hk : Blank k) : Blank (w ++ k) := by
  induction w with
  | nil => exact hk
  | cons c w ih => exact .ws (hw c (by simp)) (ih fun d hd => hw d (by simp [hd]))

theorem newline_names {name : Str} (h : primOf name = .newline) : name ∈ [c!"\\", c!"cr"] :=
  tableNames (by decide +kernel) (by simp) (by simp) (by simp) h

theorem back_font (B : Back cf n) (hr : Regular o.cs) (hp : Pre false o h) (hn : h.content.cs.length + 1 ≤ n) (ha : h.harg = a)
    (hf : Fair a (.cs name) h.content.cs) {f : Option Font} (hq : primOf name = .fontGroup f)
    (e : execPrim cf (handleToken cf n) (.fontGroup f) h = .ok ⟨⟩ h') (hd : Der h'.buf) : Read a (.cs name) h.content.cs := by
  unfold execPrim fontGroup at e
  obtain ⟨arg, h1, e1, e⟩ := bind_inv e
  obtain ⟨_, h2, e2, e⟩ := bind_inv e
  cases e2
  rcases argument_inv e1 with ⟨g, r, hb, rfl, rfl⟩ | ⟨x, ht, t, hb, rfl, hx, rfl⟩
  · cases e
    obtain ⟨ns, hfm⟩ := hd (h.content.part g 1 r) none (by simp)
    exact ⟨_, _, _, .fontGroup hq hb hfm⟩
  · dsimp only at e
    obtain ⟨_, h3, e3, e⟩ := bind_inv e
    cases e
    have hA := argument_spec (cf := cf) hp
    rw [e1] at hA
    have hlt := nextTok_length hb.1
    have hfair : Fair a x t := by
      intro hfa
      obtain ⟨-, -, t0, hr0, hn0⟩ := hf hfa
      obtain ⟨k0, w0, -, hw0, -, e0⟩ : ∃ k w, Blank k ∧ Spaces w ∧ name ≠ [] ∧ t0 = k ++ '\\' :: (name ++ w ++ h.content.cs) := by
        obtain ⟨tk, h1, h2⟩ := nextTok_iff.1 hn0
        have := token_facts h1
        cases tk with
        | cs m => obtain rfl : m = name := h2; exact this
        | chr => cases h2
      have hfont := hr0.font name (font_names hq)
      obtain ⟨tk, h1, h2⟩ := nextTok_iff.1 hb.1
      have htk := token_facts h1
      refine ⟨?_, ?_, h.content.cs, hr.infix hp.sub.infix, hb.1⟩
      · rintro rfl
        cases tk with
        | cs => cases h2
        | chr c ctx =>
          cases h2
          obtain ⟨-, k, hk, e4, -⟩ := htk
          refine hfont (w0 ++ k) ['&'] (blank_spaces hw0 hk) (.inl rfl) ⟨k0, t, ?_⟩
          rw [e0, e4]
          simp
      · rintro m rfl hm
        cases tk with
        | chr => cases h2
        | cs y =>
          obtain rfl : y = m := h2
          obtain ⟨k, w, hk, -, -, e4⟩ := htk
          refine hfont (w0 ++ k) ('\\' :: y) (blank_spaces hw0 hk) (.inr ?_) ⟨k0, w ++ t, ?_⟩
          · have := newline_names hm
            simp only [List.mem_cons, List.not_mem_nil, or_false] at this
            rcases this with rfl | rfl
            · exact .inl rfl
            · exact .inr rfl
          · rw [e0, e4]
            simp
    obtain ⟨ns, r, pl, hm⟩ := B a x t ht { past h t with buf := (past h t).buf ++ [.ev (.begin_ .normal), .ev (.stateChange (.font f))] } h3 o
      (by omega) hx rfl ha ⟨hp.wf, hA.1.sub, fun h => by cases h⟩ (in_of hx hb.1 hA.2.1) hr hfair e3 (Der.left hd)
    exact ⟨_, _, _, .fontToken hq hb (free_none _) hm⟩

end fonts

/-! ### All tokens -/

theorem not_defining {x : Word} (hr : Regular o.cs) (hi : In o x) {name : Str} (hx : x = .cs name) (h : ('\\' :: name) ∈ definingCommands) : False :=
  hr.macros _ h (hi.1 name hx)

theorem back (hov : cf.overflowChecks = true) : ∀ n, Back cf n := by
  intro n
  induction n with
  | zero => intro a x s ht h h' o hn; omega
  | succ n B =>
    intro a x s ht h h' o hn hx hs ha hp hi hr hf e hd
    cases x with
    | chr c =>
      cases ht with
      | cs => cases hx
      | chr d ctx =>
        obtain ⟨rfl, hx⟩ := hx
        exact back_char hx hs ha hf (hi.2 _ rfl) e hd
    | cs name =>
      cases ht with
      | chr => cases hx
      | cs m =>
        obtain rfl : m = name := hx
        subst hs
        have hn : h.content.cs.length + 1 ≤ n := by omega
        replace e : execPrim cf (handleToken cf n) (primOf m) h = .ok ⟨⟩ h' := e
        cases hq : primOf m <;> rw [hq] at e
        case func => exact ⟨_, _, _, .single (.cs (by rw [hq]; rfl))⟩
        case funcMov => exact ⟨_, _, _, .operator (by rw [hq]; rfl)⟩
        case operatorname => exact back_operatorname hq e
        case pmod => exact back_pmod B hr hp hn hq e hd
        case atom => exact back_atom B hr hp hn hq e hd
        case ord => exact ⟨_, _, _, .single (.cs (by rw [hq]; rfl))⟩
        case rel => exact ⟨_, _, _, .single (.cs (by rw [hq]; rfl))⟩
        case rel2 => exact ⟨_, _, _, .single (.cs (by rw [hq]; rfl))⟩
        case bin => exact ⟨_, _, _, .single (.cs (by rw [hq]; rfl))⟩
        case dots => exact back_dots hq
        case fontChange => exact ⟨_, _, _, .change (by rw [hq]; rfl)⟩
        case fontGroup => exact back_font B hr hp hn ha hf hq e hd
        case style => exact ⟨_, _, _, .change (by rw [hq]; rfl)⟩
        case color => exact back_color hr hp hq e
        case textcolor => exact back_textcolor B hr hp hn hq e hd
        case colorbox => exact back_colorbox hr hp hq e
        case fcolorbox => exact back_fcolorbox hr hp hq e
        case sized => exact back_sized hq e
        case left => exact back_left hq e hd
        case middle => exact back_middle hq e
        case unbalanced => cases e
        case largeOp => exact ⟨_, _, _, .operator (by rw [hq]; rfl)⟩
        case smallint => exact ⟨_, _, _, .operator (by rw [hq]; rfl)⟩
        case accent => exact back_accent B hr hp hn hq e hd
        case under => exact back_under B hr hp hn hq e hd
        case space => exact ⟨_, _, _, .space hq⟩
        case nbsp => exact ⟨_, _, _, .single (.cs (by rw [hq]; rfl))⟩
        case kern => exact back_kern hq e
        case hskip => exact back_hskip hq e
        case mkern => exact back_mkern hq e
        case mskip => exact back_mskip hq e
        case hspace => exact back_hspace hq e
        case space3 => exact back_space3 hq e
        case xarrow => exact back_xarrow B hr hp hn hq e hd
        case frac => exact back_frac B hr hp hn hq e hd
        case genfrac => exact back_genfrac B hr hp hn hq e hd
        case overset => exact back_overset B hr hp hn hq e hd
        case buildrel => exact back_buildrel B hr hp hn hq e hd
        case substack => exact back_substack hq e hd
        case sideset => exact back_sideset B hr hp hn hq e hd
        case sqrt => exact back_sqrt B hr hp hn hq e hd
        case surd => exact ⟨_, _, _, .surd hq⟩
        case text => exact back_text hq e
        case not_ => exact back_not B hr hp hn hq e hd
        case char => exact back_char_ hov hq e
        case relax =>
          cases a with
          | false => exact ⟨_, _, _, .relax hq⟩
          | true =>
            change (if h.harg then M.fail .relax else pure ⟨⟩ : H PUnit) h = _ at e
            rw [if_pos ha] at e
            cases e
        case begingroup => exact back_begingroup hq e hd
        case begin_ => exact back_begin hr hp hq e hd
        case newline =>
          cases a with
          | false => exact absurd hq ((hf rfl).2.1 m rfl)
          | true =>
            exfalso
            obtain ⟨st, h1, e1, e⟩ := bind_inv e
            cases e1
            cases hA : h.align with
            | none =>
              have h2 : h.align = none := hA
              revert e
              rw [h2]
              intro e
              cases e
            | some A =>
              have h2 : h.align = some A := hA
              revert e
              rw [h2]
              dsimp only
              rw [if_pos ha]
              intro e
              cases e
        case def_ =>
          have hm := tableNames (names := [c!"def"]) (by decide +kernel) (by simp) (by simp) (by simp) hq
          simp only [List.mem_singleton] at hm
          subst hm
          exact (not_defining hr hi rfl (by decide)).elim
        case let_ =>
          have hm := tableNames (names := [c!"let"]) (by decide +kernel) (by simp) (by simp) (by simp) hq
          simp only [List.mem_singleton] at hm
          subst hm
          exact (not_defining hr hi rfl (by decide)).elim
        case futurelet =>
          have hm := tableNames (names := [c!"futurelet"]) (by decide +kernel) (by simp) (by simp) (by simp) hq
          simp only [List.mem_singleton] at hm
          subst hm
          exact (not_defining hr hi rfl (by decide)).elim
        case newcommand =>
          have key : ∀ e ∈ primTable, (match e.2 with | .newcommand _ => true | _ => false) = true →
              e.1 ∈ [c!"newcommand", c!"renewcommand", c!"providecommand"] := by
            decide +kernel
          have hm := tableNames (fun e he h => key e he (by rw [h])) (by simp) (by simp) (by simp) hq
          simp only [List.mem_cons, List.not_mem_nil, or_false] at hm
          rcases hm with rfl | rfl | rfl <;> exact (not_defining hr hi rfl (by decide)).elim
        case delim => exact ⟨_, _, _, .single (.cs (by rw [hq]; rfl))⟩
        case unknown => cases e

end PL.Formula
