import Verif.Lemmas.Frame
import Verif.Props.Plain
import Verif.Spec.Delimiter
set_option autoImplicit false
/-!
# Groups and the events of their contents (C23, C24, C27)
-/
namespace PL.Props
open PL PL.Lex Spec

variable {cf : Cfg}

/-- The end of a run, as an execution. -/
theorem yields_exec {s : State} {n : Nat} {its : List Item} (h : run cf n s = (its, .done)) : ∃ s', Exec cf s its s' ∧ s'.stack = [] := by
  obtain ⟨s', h1, h2⟩ := run_exec (cf := cf) n s
  rw [h] at h1 h2
  exact ⟨s', h1, step_done h2⟩

theorem panics_exec {s : State} {n : Nat} {its : List Item} {p : Panic} (h : run cf n s = (its, .panic p)) :
    ∃ s', Exec cf s its s' ∧ step cf s' = .panic p := by
  obtain ⟨s', h1, h2⟩ := run_exec (cf := cf) n s
  rw [h] at h1 h2
  exact ⟨s', h1, h2⟩

/-- The items of an input, followed by a panic. -/
def Panics (cf : Cfg) (inp : Str) (its : List Item) (p : Panic) : Prop := ∃ n, run cf n (State.init inp) = (its, .panic p)

theorem exec_panics {inp : Str} {its : List Item} {s : State} {p : Panic} (h : Exec cf (State.init inp) its s) (hs : step cf s = .panic p) :
    Panics cf inp its p := by
  obtain ⟨n, hn⟩ := exec_run h (n' := 1) (its' := []) (f := .panic p) (by rw [run]; simp only [hs])
  exact ⟨n, by simpa using hn⟩

/-! ### White space before a text -/

theorem step_trim {s : State} {c : Sl} {A : Option AlignCount} {B : List Instr} :
    step cf ⟨.sub { c with cs := trimStart c.cs } A :: B, s.buf, s.macros, s.sp⟩ = step cf ⟨.sub c A :: B, s.buf, s.macros, s.sp⟩ := by
  have e : parse cf (startSt ⟨.sub { c with cs := trimStart c.cs } A :: B, s.buf, s.macros, s.sp⟩ { c with cs := trimStart c.cs } A) =
      parse cf (startSt ⟨.sub c A :: B, s.buf, s.macros, s.sp⟩ c A) := by
    unfold parse
    rw [parseLoop]
    unfold startSt
    simp only [token_trim, trimStart_twice]
    cases token c.cs with
    | panic p => rfl
    | err e r => rfl
    | ok t r => cases t <;> rfl
  unfold step
  simp only [trimStart_twice, e]

theorem run_trim {s : State} {c : Sl} {A : Option AlignCount} {B : List Instr} {n : Nat} {x : List Item × Fin_} (hx : ∀ s, x.2 ≠ .more s)
    (h : run cf n ⟨.sub c A :: B, s.buf, s.macros, s.sp⟩ = x) :
    run cf n ⟨.sub { c with cs := trimStart c.cs } A :: B, s.buf, s.macros, s.sp⟩ = x := by
  cases n with
  | zero => rw [run] at h; rw [← h] at hx; exact absurd rfl (hx _)
  | succ n => rw [run] at h ⊢; rw [step_trim]; exact h

/-! ### A group at the start of a text -/

/-- The first step stages the start of a group, its content and its end. -/
structure Opens (cf : Cfg) (inp : Str) (b : Event) (g c' : Sl) : Prop where
  step : step cf (State.init inp) = .again ⟨[.ev b, .sub g none, .ev .end_, .sub { c' with cs := trimStart c'.cs } none], [], [], .init inp⟩

theorem map_bare_noErr {a b : List Item} (h : a.map Item.bare = b.map Item.bare) (hb : NoErr b) : a = b := by
  induction b generalizing a with
  | nil => simpa using h
  | cons x b ih =>
    cases a with
    | nil => cases h
    | cons y a =>
      simp only [List.map_cons, List.cons.injEq] at h
      obtain ⟨e, rfl⟩ := hb x (by simp)
      have : y = .ok e := by
        cases y with
        | ok e' => have := h.1; simp [Item.bare] at this; rw [this]
        | err => have := h.1; simp [Item.bare] at this
      rw [this, ih h.2 fun i hi => hb i (by simp [hi])]

/-- The items of the content of the group at the start of a text. -/
theorem Opens.content {inp : Str} {b : Event} {g c' : Sl} (h : Opens cf inp b g c') (hn : ¬ Defines inp) {its : List Item} {t : State}
    (he : Exec cf (State.init g.cs) its t) (hg : ¬ Defines g.cs) :
    ∃ its' s', Exec cf (State.init inp) (.ok b :: its') (s'.over [.ev .end_, .sub { c' with cs := trimStart c'.cs } none]) ∧
      its'.map Item.bare = its.map Item.bare ∧ Alike t s' ∧ Base inp s' := by
  have h1 : Exec cf (State.init inp) [.ok b] ⟨[.sub g none, .ev .end_, .sub { c' with cs := trimStart c'.cs } none], [], [], .init inp⟩ :=
    (Exec.init.again h.step).item rfl
  obtain ⟨its', s', h2, h3, h4, h5⟩ := exec_text (s := ⟨[.sub g none], [], [], .init inp⟩) (h1.base.part (s' := ⟨[.sub g none], [], [], .init inp⟩) rfl rfl
    (by intro x A hx; simp at hx; exact ⟨none, by simp [hx.1]⟩)) hn rfl rfl hg rfl rfl he
  exact ⟨its', s', h1.trans (exec_over _ h2), h3, h4, h5⟩

/-- A text that is one group, followed by blank text. -/
theorem Opens.alone {inp : Str} {b : Event} {g c' : Sl} (h : Opens cf inp b g c') (hn : ¬ Defines inp) (hg : ¬ Defines g.cs)
    (hc : trimStart c'.cs = []) {its : List Item} (hy : Yields cf g.cs its) :
    ∃ its', Yields cf inp its' ∧ its'.map Item.bare = .inl b :: its.map Item.bare ++ [.inl .end_] := by
  obtain ⟨n, hn'⟩ := hy
  obtain ⟨t, h1, h2⟩ := yields_exec hn'
  obtain ⟨its', s', h3, h4, h5, h6⟩ := h.content hn h1 hg
  have hs := h5.empty h2
  have h7 : Exec cf (State.init inp) (.ok b :: its' ++ [.ok .end_]) ⟨[.sub { c' with cs := trimStart c'.cs } none], s'.buf, s'.macros, s'.sp⟩ := by
    refine h3.item ?_
    unfold PL.step State.over
    rw [hs]
    rfl
  refine ⟨_, exec_yields (h7.again (s' := ⟨[], s'.buf, s'.macros, s'.sp⟩) ?_) rfl, by simp [h4, Item.bare]⟩
  unfold PL.step
  simp only [hc]
  rfl

/-- A panic in the content of a group. -/
theorem Opens.panics {inp : Str} {b : Event} {g c' : Sl} (h : Opens cf inp b g c') (hn : ¬ Defines inp) (hg : ¬ Defines g.cs)
    {its : List Item} {p : Panic} (hy : Panics cf g.cs its p) :
    ∃ its', Panics cf inp its' p ∧ its'.map Item.bare = .inl b :: its.map Item.bare := by
  obtain ⟨n, hn'⟩ := hy
  obtain ⟨t, h1, h2⟩ := panics_exec hn'
  obtain ⟨its', s', h3, h4, h5, h6⟩ := h.content hn h1 hg
  have := step_sim (cf := cf) h1.base h6 hg hn h5
  rw [h2] at this
  generalize hx : PL.step cf s' = x at this
  cases this
  refine ⟨_, exec_panics h3 ?_, by simp [h4, Item.bare]⟩
  have hne : s'.stack ≠ [] := by
    intro he
    unfold PL.step at hx
    rw [he] at hx
    cases hx
  rw [step_over _ hne, hx]
  rfl

/-- A group without errors, and what follows it. -/
theorem Opens.before {inp : Str} {b : Event} {g c' : Sl} (h : Opens cf inp b g c') (hn : ¬ Defines inp) (hg : ¬ Defines g.cs)
    (hc : ¬ Defines c'.cs) {a r : List Item} (hy : Yields cf g.cs a) (ha : NoErr a) (hr : Yields cf c'.cs r) :
    ∃ r', Yields cf inp (.ok b :: a ++ .ok .end_ :: r') ∧ r'.map Item.bare = r.map Item.bare := by
  obtain ⟨n, hn'⟩ := hy
  obtain ⟨t, h1, h2⟩ := yields_exec hn'
  obtain ⟨a', s', h3, h4, h5, h6⟩ := h.content hn h1 hg
  obtain rfl := map_bare_noErr h4 ha
  have hs := h5.empty h2
  have hb := h5.noBuf (h1.fine (st := false) ha (by simp)).1.buf
  have h7 : Exec cf (State.init inp) (.ok b :: a' ++ [.ok .end_]) ⟨[.sub { c' with cs := trimStart c'.cs } none], [], s'.macros, s'.sp⟩ := by
    refine h3.item ?_
    unfold PL.step State.over
    rw [hs, hb]
    rfl
  obtain ⟨m, hm⟩ := hr
  have hm' := run_trim (s := State.init c'.cs) (c := ⟨0, blen c'.cs, c'.cs⟩) (A := none) (B := []) (x := (r, .done)) (by intro s; simp) hm
  obtain ⟨u, h8, h9⟩ := yields_exec hm'
  have hbase : Base c'.cs ⟨[.sub ⟨0, blen c'.cs, trimStart c'.cs⟩ none], [], [], .init c'.cs⟩ := by
    have hsub : Sub ⟨0, blen c'.cs, trimStart c'.cs⟩ (whole c'.cs) := (Sub.refl (whole c'.cs)).suffix (trimStart_suffix _)
    refine ⟨rfl, (by intro e he; cases he), Nat.zero_le _, ?_, ?_, (by simp), fun _ => ⟨rfl, rfl, ?_⟩⟩
    · intro x A hx
      simp at hx
      rw [hx.1]
      exact hsub.wf (Nat.le_refl _)
    · intro x A hx
      simp at hx
      rw [hx.1]
      intro d hd hw
      exact ⟨d, (trimStart_suffix _).subset hd, hw⟩
    · intro x A hx
      simp at hx
      rw [hx.1]
      exact hsub
  obtain ⟨-, r', v, h10, h11, h12, -⟩ := exec_sim hbase h7.base hc hn ⟨by simp [Instr.er, Sl.er], rfl⟩ h8
  have h13 := exec_yields (h7.trans h10) (h12.empty h9)
  exact ⟨r', by simpa using h13, h11⟩

/-- The state in which a command at the start of an input is handled. -/
def startOn (inp rest : Str) : HSt := ⟨⟨0, blen inp, rest⟩, [], false, .right, false, false, none, []⟩

theorem opens_of {inp rest r : Str} {t : Tok} {b : Event} {g : Sl} (ht : token inp = .ok t rest)
    (hh : handleToken cf (rest.length + 3) (.ofTok ⟨0, blen inp, inp⟩ t) (startOn inp rest) =
      .ok ⟨⟩ { startOn inp r with buf := [.ev b, .sub g none, .ev .end_] }) (hr : NoScriptAfter r) :
    Opens cf inp b g ⟨0, blen inp, r⟩ := by
  have hne : trimStart inp ≠ [] := by
    intro h0
    rw [← token_trim, h0] at ht
    cases ht
  have ha : atom cf (.ofTok ⟨0, blen inp, inp⟩ t) (startOn inp rest) =
      .ok none { startOn inp (trimStart r) with buf := [.ev b, .sub g none, .ev .end_] } := by
    unfold atom
    rw [M.get_bind, M.run_bind, show tokenFuel (startOn inp rest).content = rest.length + 3 from rfl, hh]
    dsimp only
    rw [M.get_bind]
    exact scripts_none rfl rfl hr
  refine ⟨?_⟩
  unfold step State.init
  simp only
  rw [if_neg (by simpa using hne), parse_eq rfl]
  unfold parseH startSt
  simp only [ht]
  rw [show ({ src := 0, stop := blen inp, cs := rest } : Sl) = (startOn inp rest).content from rfl]
  have := ha
  unfold startOn at this
  unfold startOn
  rw [this]
  rfl

/-! ## C27: braces -/

/-- No command defining macros is cut out of a text by leaving braces away. -/
theorem defines_braces {X : Str} (h : ¬ Defines X) : ¬ Defines ('{' :: X ++ ['}']) := by
  rintro ⟨w, hw, hi⟩
  refine h ⟨w, hw, ?_⟩
  have hb : '{' ∉ w ∧ '}' ∉ w := by
    have : ∀ w ∈ definingCommands, '{' ∉ w ∧ '}' ∉ w := by decide
    exact this w hw
  obtain ⟨a, b, e⟩ := hi
  have hne : w ≠ [] := by
    have : ∀ w ∈ definingCommands, w ≠ [] := by decide
    exact this w hw
  cases a with
  | nil =>
    cases w with
    | nil => exact absurd rfl hne
    | cons x w => simp at e; exact absurd (by simp [e.1]) hb.1
  | cons x a =>
    simp at e
    rcases List.eq_nil_or_concat b with rfl | ⟨b', y, rfl⟩
    · rcases List.eq_nil_or_concat w with rfl | ⟨w', z, rfl⟩
      · exact absurd rfl hne
      · have := congrArg List.getLast? e.2
        simp at this
        exact absurd (by simp [this]) hb.2
    · rw [List.concat_eq_append] at e
      have e2 := e.2
      rw [← List.append_assoc, ← List.append_assoc] at e2
      have := (List.append_inj' e2 rfl).1
      exact ⟨a, b', by simpa using this⟩

theorem handle_brace {inp t X Y : Str} {ctx : Sl} {n : Nat} (hs : Split ['{'] ['}'] 0 t X Y) :
    handleToken cf (n + 1) (.chr '{' ctx) (startOn inp t) = .ok ⟨⟩ { startOn inp Y with
      buf := [.ev (.begin_ .normal), .sub ((startOn inp t).content.part X 1 Y) none, .ev .end_] } := by
  have e : Lex.groupContent .normal t = .ok X Y := groupContent_ok.2 hs
  have e2 : H.groupContent .normal (startOn inp t) = .ok ((startOn inp t).content.part X 1 Y) (startOn inp Y) := by
    unfold H.groupContent
    rw [show (startOn inp t).content.cs = t from rfl, e]
    rfl
  show handleChar '{' ctx _ = _
  unfold handleChar
  rw [M.get_bind, if_neg (by decide), if_neg (by decide), if_neg (by decide), if_neg (by decide), if_neg (by decide), if_pos rfl, M.run_bind, e2]
  rfl

theorem opens_brace {k t X Y : Str} (hk : Blank k) (hs : Split ['{'] ['}'] 0 t X Y) (hr : NoScriptAfter Y) :
    ∃ g, g.cs = X ∧ Opens cf (k ++ '{' :: t) (.begin_ .normal) g ⟨0, blen (k ++ '{' :: t), Y⟩ :=
  ⟨_, rfl, opens_of (token_chr_eq hk (by decide) (by decide) (by decide)) (handle_brace hs) hr⟩

/-- `{X}` yields the start of a group, then what `X` yields, then the end of the group. `X` is any text whose braces match
and which defines no macros, and may yield errors; the reports of errors quote different excerpts. -/
theorem C27_braces (cf : Cfg) (X : Str) (hb : Split ['{'] ['}'] 0 (X ++ ['}']) X []) (hd : ¬ Defines X) (its : List Item) (hy : Yields cf X its) :
    ∃ its', Yields cf ('{' :: X ++ ['}']) its' ∧ its'.map Item.bare = .inl (.begin_ .normal) :: its.map Item.bare ++ [.inl .end_] := by
  obtain ⟨g, rfl, h⟩ := opens_brace (cf := cf) (k := []) .nil hb (by unfold NoScriptAfter; decide)
  exact h.alone (by simpa using defines_braces hd) hd rfl hy

/-- The same for a text that panics. -/
theorem C27_panics (cf : Cfg) (X : Str) (hb : Split ['{'] ['}'] 0 (X ++ ['}']) X []) (hd : ¬ Defines X) (its : List Item) (p : Panic)
    (hy : Panics cf X its p) :
    ∃ its', Panics cf ('{' :: X ++ ['}']) its' p ∧ its'.map Item.bare = .inl (.begin_ .normal) :: its.map Item.bare := by
  obtain ⟨g, rfl, h⟩ := opens_brace (cf := cf) (k := []) .nil hb (by unfold NoScriptAfter; decide)
  exact h.panics (by simpa using defines_braces hd) hd hy

/-- A group followed by more text without a script: the events of the group, then those of the text after it. -/
theorem C27_sequence (cf : Cfg) (k X Y : Str) (hk : Blank k) (hb : Split ['{'] ['}'] 0 (X ++ '}' :: Y) X Y)
    (hd : ¬ Defines (k ++ '{' :: (X ++ '}' :: Y))) (hr : NoScriptAfter Y) (a b : List Item) (ha : Yields cf X a) (hn : NoErr a) (hY : Yields cf Y b) :
    ∃ b', Yields cf (k ++ '{' :: (X ++ '}' :: Y)) (.ok (.begin_ .normal) :: a ++ .ok .end_ :: b') ∧ b'.map Item.bare = b.map Item.bare := by
  obtain ⟨g, rfl, h⟩ := opens_brace (cf := cf) hk hb hr
  refine h.before hd (fun h => hd (h.mono ?_)) (fun h => hd (h.mono ?_)) ha hn hY
  · exact ⟨k ++ ['{'], '}' :: Y, by simp⟩
  · exact ⟨k ++ '{' :: (g.cs ++ ['}']), [], by simp⟩

example : Split ['{'] ['}'] 0 (c!"a{b}_\\}%}\n#" ++ ['}']) c!"a{b}_\\}%}\n#" [] := groupContent_ok (k := .normal).1 (by decide)
example : (run cf0 60 (State.init c!"a{b}_\\}%}\n#")).1.map Item.bare = [.inl (ordinary 'a'), .inl (.script .sub .right), .inl (.begin_ .normal),
    .inl (ordinary 'b'), .inl .end_, .inl (.content (.delimiter '}' none .close)), .inr .hashSign] := by decide +kernel
example : Split ['{'] ['}'] 0 (c!"a^2" ++ '}' :: c!" b") c!"a^2" c!" b" := groupContent_ok (k := .normal).1 (by decide)

/-! ## C23: `\left` and `\right` -/

theorem _root_.PL.Spec.DelimText.suffix {s r : Str} {d : Option Char} (h : DelimText s d r) : r <:+ s := by
  have key : ∀ {x : Word}, NextTok s x r → r <:+ s := by
    intro x h
    obtain ⟨t, ht, -⟩ := nextTok_iff.1 h
    have := good_token (cf := cf0) s
    rw [ht] at this
    exact this
  cases h with
  | dot => exact List.suffix_cons _ _
  | chr _ h _ => exact key h
  | cs _ h _ => exact key h

theorem leftDelim_eq {inp s r : Str} {d : Option Char} (h : DelimText s d r) : leftDelim (startOn inp s) = .ok d (startOn inp r) := by
  have key : ∀ (s r : Str) (d : Char) (ty : DelimType), s.head? ≠ some '.' → delimiter s = .ok (d, ty) r →
      leftDelim (startOn inp s) = .ok (some d) (startOn inp r) := by
    intro s r d ty hs hd
    unfold leftDelim
    rw [M.get_bind, show (startOn inp s).content.cs = s from rfl]
    split
    · exact absurd rfl hs
    · rw [M.run_bind]
      have : H.lex delimiter (startOn inp s) = .ok (d, ty) (startOn inp r) := by
        unfold H.lex
        rw [show (startOn inp s).content.cs = s from rfl, hd]
        rfl
      rw [this]
      rfl
  cases h with
  | dot => rfl
  | @chr s c r d ty h1 h2 h3 =>
    obtain ⟨t, ht, hc⟩ := nextTok_iff.1 h2
    cases t with
    | cs => cases hc
    | chr c' r' =>
      obtain rfl : c' = c := hc
      refine key s r d ty h1 ?_
      unfold delimiter
      rw [M.run_bind, ht]
      dsimp only [tokenToDelim]
      rw [h3]
      rfl
  | @cs s n r d ty h1 h2 h3 =>
    obtain ⟨t, ht, hc⟩ := nextTok_iff.1 h2
    cases t with
    | chr => cases hc
    | cs n' =>
      obtain rfl : n' = n := hc
      refine key s r d ty h1 ?_
      unfold delimiter
      rw [M.run_bind, ht]
      dsimp only [tokenToDelim]
      rw [h3]
      rfl

theorem left_prim : primOf c!"left" = .left := by decide +kernel

theorem handle_left {inp u t X v Y : Str} {l r : Option Char} {n : Nat} (hl : DelimText u l t)
    (hs : Split c!"\\left" c!"\\right" 0 t X v) (hr : DelimText v r Y) :
    handleToken cf (n + 1) (.cs c!"left") (startOn inp u) = .ok ⟨⟩ { startOn inp Y with
      buf := [.ev (.begin_ (.leftRight l r)), .sub ((startOn inp t).content.part X 6 v) none, .ev .end_] } := by
  have e : Lex.groupContent .leftRight t = .ok X v := groupContent_ok.2 hs
  have e2 : H.groupContent .leftRight (startOn inp t) = .ok ((startOn inp t).content.part X 6 v) (startOn inp v) := by
    unfold H.groupContent
    rw [show (startOn inp t).content.cs = t from rfl, e]
    rfl
  rw [handleToken, left_prim]
  unfold execPrim
  dsimp only
  rw [M.run_bind, leftDelim_eq hl]
  dsimp only
  rw [M.run_bind, e2]
  dsimp only
  rw [M.run_bind, leftDelim_eq hr]
  rfl

/-- `\left l X \right r` yields one group with these delimiters around what `X` yields. The text between is taken up to the matching
text `\right`, so that a command such as `\rightarrow` in `X` ends it (`C23_false`). -/
theorem C23_left_right_partial (cf : Cfg) (k w u t X v Y : Str) (l r : Option Char) (hk : Blank k) (hw : Spaces w) (hu : ∀ c u', w ++ u = c :: u' → isLetter c = false)
    (hu2 : ∀ c u', u = c :: u' → isWs c = false)
    (hl : DelimText u l t) (hs : Split c!"\\left" c!"\\right" 0 t X v) (hr : DelimText v r Y) (hY : NoScriptAfter Y)
    (hd : ¬ Defines (k ++ c!"\\left" ++ w ++ u))
    (a b : List Item) (ha : Yields cf X a) (hn : NoErr a) (hb : Yields cf Y b) :
    ∃ b', Yields cf (k ++ c!"\\left" ++ w ++ u) (.ok (.begin_ (.leftRight l r)) :: a ++ .ok .end_ :: b') ∧ b'.map Item.bare = b.map Item.bare := by
  have htok : token (k ++ c!"\\left" ++ w ++ u) = .ok (.cs c!"left") u := by
    have := token_cs_eq (k := k) (s := c!"left" ++ (w ++ u)) (name := c!"left") (r := w ++ u) hk (.word (by decide) (by decide) hu)
    rw [trimStart_ws_append hw, trimStart_eq_self hu2] at this
    simpa using this
  have h := opens_of (cf := cf) htok (handle_left hl hs hr) hY
  obtain ⟨p1, e1⟩ := hl.suffix
  obtain ⟨p2, e2⟩ := hr.suffix
  have e3 := hs.eq
  refine h.before hd (fun h => hd (h.mono ⟨k ++ c!"\\left" ++ w ++ p1, c!"\\right" ++ v, ?_⟩))
    (fun h => hd (h.mono ⟨k ++ c!"\\left" ++ w ++ p1 ++ X ++ c!"\\right" ++ p2, [], ?_⟩)) ha hn hb
  · rw [← e1, e3]; simp [Sl.part]
  · rw [← e1, e3, ← e2]; simp

/-- The text between is cut at `\rightarrow`, although this is another control word. -/
theorem C23_false : (run cf0 60 (State.init c!"\\left( a \\rightarrow b \\right)")).1.map Item.bare =
    [.inr .delimiter, .inl (ordinary 'r'), .inl (ordinary 'r'), .inl (ordinary 'o'), .inl (ordinary 'w'), .inl (ordinary 'b'),
      .inr (.unbalancedGroup none), .inl (.content (.delimiter ')' none .close))] := by decide +kernel

/-- A full stop is not accepted after `\right` and a space. -/
theorem C23_false_dot : (run cf0 60 (State.init c!"\\left( a \\right .")).1.map Item.bare = [.inr .delimiter] := by decide +kernel

example : Split c!"\\left" c!"\\right" 0 c!" a\\left[b\\right]c \\right\\rangle+1" c!" a\\left[b\\right]c " c!"\\rangle+1" :=
  groupContent_ok (k := .leftRight).1 (by decide +kernel)
example : DelimText c!"\\rangle+1" (some '⟩') c!"+1" :=
  .cs (by decide) (.cs (k := []) (t := c!"rangle+1") (w := []) .nil (.word (name := c!"rangle") (by decide) (by decide) (by intro c r h; cases h; decide))
    (by unfold Spaces; decide) (by intro c r h; cases h; decide)) (ty := .close) (by decide +kernel)

/-! ## C24: `\begingroup` and `\endgroup` -/

theorem begingroup_prim : primOf c!"begingroup" = .begingroup := by decide +kernel

theorem handle_begingroup {inp t X v : Str} {n : Nat} (hs : Split c!"\\begin" c!"\\end" 0 t X v) :
    handleToken cf (n + 1) (.cs c!"begingroup") (startOn inp t) = .ok ⟨⟩ { startOn inp v with
      buf := [.ev (.begin_ .normal), .sub ((startOn inp t).content.part X 4 v) none, .ev .end_] } := by
  have e : Lex.groupContent .beginEnd t = .ok X v := groupContent_ok.2 hs
  have e2 : H.groupContent .beginEnd (startOn inp t) = .ok ((startOn inp t).content.part X 4 v) (startOn inp v) := by
    unfold H.groupContent
    rw [show (startOn inp t).content.cs = t from rfl, e]
    rfl
  rw [handleToken, begingroup_prim]
  unfold execPrim
  dsimp only
  rw [M.run_bind, e2]
  rfl

/-- What `\begingroup X\endgroup Y` yields: the group around what `X` yields, then what the text `group Y` yields. It is not what `{X}Y`
yields. `X` is the text up to the matching text `\end`. -/
theorem C24_actual_partial (cf : Cfg) (k w X Y : Str) (hk : Blank k) (hw : Spaces w)
    (hu : ∀ c u', w ++ (X ++ c!"\\endgroup" ++ Y) = c :: u' → isLetter c = false) (hu2 : ∀ c u', X ++ c!"\\endgroup" ++ Y = c :: u' → isWs c = false)
    (hs : Split c!"\\begin" c!"\\end" 0 (X ++ c!"\\endgroup" ++ Y) X (c!"group" ++ Y))
    (hd : ¬ Defines (k ++ c!"\\begingroup" ++ w ++ (X ++ c!"\\endgroup" ++ Y)))
    (a b : List Item) (ha : Yields cf X a) (hn : NoErr a) (hb : Yields cf (c!"group" ++ Y) b) :
    ∃ b', Yields cf (k ++ c!"\\begingroup" ++ w ++ (X ++ c!"\\endgroup" ++ Y)) (.ok (.begin_ .normal) :: a ++ .ok .end_ :: b') ∧
      b'.map Item.bare = b.map Item.bare := by
  have htok : token (k ++ c!"\\begingroup" ++ w ++ (X ++ c!"\\endgroup" ++ Y)) = .ok (.cs c!"begingroup") (X ++ c!"\\endgroup" ++ Y) := by
    have := token_cs_eq (k := k) (s := c!"begingroup" ++ (w ++ (X ++ c!"\\endgroup" ++ Y))) (name := c!"begingroup") (r := w ++ (X ++ c!"\\endgroup" ++ Y))
      hk (.word (by decide) (by decide) hu)
    rw [trimStart_ws_append hw, trimStart_eq_self hu2] at this
    simpa using this
  have h := opens_of (cf := cf) htok (handle_begingroup hs) (by
    unfold NoScriptAfter
    rw [trimStart_eq_self (by intro c r h; cases h; decide)]
    exact ⟨by simp, by simp⟩)
  refine h.before hd (fun h => hd (h.mono ⟨k ++ c!"\\begingroup" ++ w, c!"\\endgroup" ++ Y, by simp [Sl.part]⟩))
    (fun h => hd (h.mono ⟨k ++ c!"\\begingroup" ++ w ++ X ++ c!"\\end", [], by simp⟩)) ha hn hb

/-- In particular five letters follow every group made with `\begingroup X\endgroup`. -/
theorem C24_letters (cf : Cfg) (X : Str) (hu : ∀ c u', X = c :: u' → isLetter c = false ∧ isWs c = false)
    (hs : Split c!"\\begin" c!"\\end" 0 (X ++ c!"\\endgroup") X c!"group")
    (hd : ¬ Defines (c!"\\begingroup" ++ (X ++ c!"\\endgroup"))) (a : List Item) (ha : Yields cf X a) (hn : NoErr a) :
    Yields cf (c!"\\begingroup" ++ (X ++ c!"\\endgroup"))
      (.ok (.begin_ .normal) :: a ++ .ok .end_ :: c!"group".map fun c => .ok (.content (.ordinary c false))) := by
  have hl := C26_letters cf c!"group" (by decide)
  have hc : ∀ c u', X ++ c!"\\endgroup" = c :: u' → isLetter c = false ∧ isWs c = false := by
    intro c u' h
    cases X with
    | nil => cases h; decide
    | cons x X =>
      rw [List.cons_append] at h
      injection h with h1 h2
      exact h1 ▸ hu x X rfl
  obtain ⟨b', h1, h2⟩ := C24_actual_partial cf [] [] X [] .nil (by unfold Spaces; simp)
    (by intro c u' h; rw [List.append_nil] at h; exact (hc c u' h).1) (by intro c u' h; rw [List.append_nil] at h; exact (hc c u' h).2)
    (by rw [List.append_nil, List.append_nil]; exact hs) (by rw [List.append_nil, List.append_nil, List.nil_append]; exact hd) a _ ha hn (by rw [List.append_nil]; exact hl)
  have e : b' = c!"group".map fun c => .ok (.content (.ordinary c false)) := by
    refine map_bare_noErr (h2.trans ?_) ?_
    · rfl
    · intro i hi
      simp only [List.mem_map] at hi
      obtain ⟨c, -, rfl⟩ := hi
      exact ⟨_, rfl⟩
  rw [e, List.append_nil, List.append_nil, List.nil_append] at h1
  exact h1

theorem C24_false : (run cf0 60 (State.init c!"\\begingroup a\\endgroup")).1 ≠ (run cf0 60 (State.init c!"{ a}")).1 := by decide +kernel

example : Split c!"\\begin" c!"\\end" 0 (c!"+\\begin{matrix}1\\end{matrix}" ++ c!"\\endgroup") c!"+\\begin{matrix}1\\end{matrix}" c!"group" :=
  groupContent_ok (k := .beginEnd).1 (by decide +kernel)

end PL.Props
