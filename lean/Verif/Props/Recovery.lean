import Verif.Props.Storage
set_option autoImplicit false
/-!
# After an error (C46)
-/
namespace PL.Props
open PL PL.Lex Spec

variable {cf : Cfg}

/-- A text starting with something that is an error by itself, with the text after it: an unknown command, a dollar sign, a hash
sign, a closing brace, an alignment character. -/
inductive Stray : Str → ErrorKind → Str → Prop
  | command {k t name r : Str} : Blank k → CsName t name r → primOf name = .unknown → Stray (k ++ '\\' :: t) .unknownPrimitive (trimStart r)
  | dollar {k r : Str} : Blank k → Stray (k ++ '$' :: r) .mathShift r
  | hash {k r : Str} : Blank k → Stray (k ++ '#' :: r) .hashSign r
  | brace {k r : Str} : Blank k → Stray (k ++ '}' :: r) (.unbalancedGroup none) r
  | align {k r : Str} : Blank k → Stray (k ++ '&' :: r) .alignment r

theorem stray_parse {t r : Str} {e : ErrorKind} (h : Stray t e r) {s : HSt} (hs : s.content.cs = t) (ha : s.align = none) :
    parseH cf s = .err e { s with content := { s.content with cs := r } } := by
  have chr : ∀ {k r' : Str} {c : Char}, Blank k → t = k ++ c :: r' → isWs c = false → c ≠ '%' → c ≠ '\\' →
      parseH cf s = atom cf (.chr c { s.content with cs := c :: r' }) { s with content := { s.content with cs := r' } } := by
    intro k r' c hk ht hw h1 h2
    have := token_chr_eq (k := k) (c := c) (r := r') hk h2 h1 hw
    unfold parseH
    rw [hs, ht, this]
    rfl
  have at_ : ∀ (tk : HTok) (s : HSt), (∀ n, handleToken cf (n + 1) tk s = .err e s) → atom cf tk s = .err e s := by
    intro tk s h
    unfold atom
    rw [M.get_bind, M.run_bind, show tokenFuel s.content = (s.content.cs.length + 2) + 1 from rfl, h]
  cases h with
  | @command k t name r hk hn hu =>
    have := token_cs_eq hk hn
    unfold parseH
    rw [hs, this]
    refine at_ _ _ fun n => ?_
    show handleToken cf (n + 1) (.cs name) _ = _
    rw [handleToken, hu]
    unfold execPrim
    rfl
  | @dollar k r hk => rw [chr hk rfl (by decide) (by decide) (by decide)]; exact at_ _ _ fun n => rfl
  | @hash k r hk => rw [chr hk rfl (by decide) (by decide) (by decide)]; exact at_ _ _ fun n => rfl
  | @brace k r hk => rw [chr hk rfl (by decide) (by decide) (by decide)]; exact at_ _ _ fun n => rfl
  | @align k r hk =>
    rw [chr hk rfl (by decide) (by decide) (by decide)]
    refine at_ _ _ fun n => ?_
    show handleChar '&' _ _ = _
    unfold handleChar
    rw [M.get_bind]
    simp only [ha]
    rfl

theorem stray_blank {t r : Str} {e : ErrorKind} (h : Stray t e r) : trimStart t ≠ [] := by
  intro h0
  have hp := stray_parse (cf := cf0) h (s := ⟨⟨0, 0, t⟩, [], false, .right, false, false, none, []⟩) rfl rfl
  unfold parseH at hp
  dsimp only at hp
  rw [← token_trim, h0] at hp
  cases hp

/-! ## C46 -/

/-- At every place of an input without definitions: a stray command or character gives its error and nothing else; the text after it is left
in place, in the same surroundings. -/
theorem C46_stray_step (cf : Cfg) (inp : Str) (hd : ¬ Defines inp) (its : List Item) (s : State) (h : Reached cf inp its s) (c : Sl) (rest : List Instr)
    (hs : s.stack = .sub c none :: rest) (e : ErrorKind) (r : Str) (hc : Stray c.cs e r) :
    ∃ ctx s', step cf s = .item (.err e ctx) s' ∧ s'.stack = .sub { c with cs := r } none :: rest ∧ s'.buf = s.buf ∧ s'.macros = s.macros := by
  obtain ⟨ctx, sp, h1⟩ := step_error (cf := cf) (reached_exec h).base hd hs (stray_blank hc) (stray_parse hc rfl rfl)
  exact ⟨ctx, _, h1, rfl, rfl, rfl⟩

/-- For every input without definitions and every error in it: if nothing is left staged, the items that follow are those of the text left,
as if it were an input of its own. Missing: errors that leave something staged (`C46_false`), and inputs with definitions. -/
theorem C46_rest_partial (cf : Cfg) (inp : Str) (hd : ¬ Defines inp) (its : List Item) (e : ErrorKind) (ctx : Str) (s : State)
    (h : Reached cf inp (its ++ [.err e ctx]) s) (hb : s.buf = []) (c : Sl) (hs : s.stack = [.sub c none]) (r : List Item) (hr : Yields cf c.cs r) :
    ∃ r', Yields cf inp (its ++ .err e ctx :: r') ∧ r'.map Item.bare = r.map Item.bare := by
  have hx := reached_exec h
  have hdc : ¬ Defines c.cs := by
    obtain ⟨-, -, h3⟩ := hx.base.nodef hd
    have := h3 c none (by simp [hs])
    exact fun h => hd (h.mono this.infix)
  obtain ⟨n, hn⟩ := hr
  obtain ⟨t, h1, h2⟩ := yields_exec hn
  obtain ⟨r', s', h3, h4, h5, -⟩ := exec_text hx.base hd hs hb hdc rfl rfl h1
  have h6 := exec_yields (hx.trans h3) (h5.empty h2)
  exact ⟨r', by simpa using h6, h4⟩

/-- The same inside groups: if the text left has no further error, its events come next and then what was to follow the text. -/
theorem C46_nested_partial (cf : Cfg) (inp : Str) (hd : ¬ Defines inp) (its : List Item) (e : ErrorKind) (ctx : Str) (s : State)
    (h : Reached cf inp (its ++ [.err e ctx]) s) (hb : s.buf = []) (c : Sl) (rest : List Instr) (hs : s.stack = .sub c none :: rest)
    (r : List Item) (hr : Yields cf c.cs r) (hn : NoErr r) :
    ∃ s', Reached cf inp (its ++ .err e ctx :: r) s' ∧ s'.stack = rest ∧ s'.buf = [] := by
  have hx := reached_exec h
  have hdc : ¬ Defines c.cs := by
    obtain ⟨-, -, h3⟩ := hx.base.nodef hd
    have := h3 c none (by simp [hs])
    exact fun h => hd (h.mono this.infix)
  obtain ⟨n, hn'⟩ := hr
  obtain ⟨t, h1, h2⟩ := yields_exec hn'
  obtain ⟨r', s', h3, h4, h5, -⟩ := exec_text (s := ⟨[.sub c none], [], s.macros, s.sp⟩)
    (hx.base.part rfl rfl (by intro x A hx; simp at hx; exact ⟨none, by simp [hs, hx.1]⟩)) hd rfl rfl hdc rfl rfl h1
  obtain rfl := map_bare_noErr h4 hn
  have h6 : Exec cf s r' (s'.over rest) := by
    have := exec_over rest h3
    have e : State.over ⟨[.sub c none], [], s.macros, s.sp⟩ rest = s := by
      cases s
      simp only at hs hb
      subst hs hb
      rfl
    rwa [e] at this
  refine ⟨s'.over rest, ?_, ?_, h5.noBuf (h1.fine (st := false) hn (by simp)).1.buf⟩
  · have := exec_reached (hx.trans h6)
    simpa using this
  · show s'.stack ++ rest = rest
    rw [h5.empty h2]
    rfl

/-- The items of an input starting with a stray command or character: its error, then the items of the rest. -/
theorem C46_stray (cf : Cfg) (inp : Str) (hd : ¬ Defines inp) (e : ErrorKind) (r : Str) (hc : Stray inp e r) (b : List Item) (hb : Yields cf r b) :
    ∃ ctx b', Yields cf inp (.err e ctx :: b') ∧ b'.map Item.bare = b.map Item.bare := by
  obtain ⟨ctx, s', h1, h2, h3, -⟩ := C46_stray_step cf inp hd [] (State.init inp) .new ⟨0, blen inp, inp⟩ [] rfl e r hc
  obtain ⟨b', h4, h5⟩ := C46_rest_partial cf inp hd [] e ctx s' (Reached.new.item h1) h3 _ h2 b hb
  exact ⟨ctx, b', h4, h5⟩

/-- A case of it. -/
example : Stray c!" \\foo {a}$" .unknownPrimitive c!"{a}$" :=
  .command (k := c!" ") (t := c!"foo {a}$") (name := c!"foo") (r := c!" {a}$") (.ws (by decide) .nil)
    (.word (name := c!"foo") (r := c!" {a}$") (by decide) (by decide) (by intro c r h; cases h; decide)) (by decide +kernel)

/-- An error in the second argument of a command leaves the events of the first one: they come out with the next command. -/
theorem C46_false : (run cf0 60 (State.init c!"\\frac{a}\\foo b")).1.map Item.bare = [.inr .unknownPrimitive,
      .inl (.visual (.fraction none)), .inl (.begin_ .normal), .inl (.content (.ordinary 'a' false)), .inl .end_, .inl (.content (.ordinary 'b' false))] ∧
    (run cf0 60 (State.init c!"b")).1.map Item.bare = [.inl (.content (.ordinary 'b' false))] := by decide +kernel

end PL.Props
