import Verif.Lemmas.Shift
import Verif.Lemmas.Beside
import Verif.Props.Groups
import Verif.Props.Mistakes
set_option autoImplicit false
/-!
# Groups whose content defines and uses macros (C23, C24, C27)

The items of the content are those it yields as an input of its own, up to the first error. The macros defined in the group hold after it. This holds if the texts lie as in
the arena. For other layouts (the theorems with `_partial`), the only difference there can be is that the limit for expansions is reached earlier.
-/
namespace PL.Props
open PL PL.Lex Spec

variable {cf : Cfg}

/-- The content of the group at the start of a text, as long as it yields no errors. -/
theorem Opens.inside {inp : Str} {b : Event} {g c' : Sl} (h : Opens cf inp b g c') {a : List Item} {s : State} (hs : Exec cf (State.init g.cs) a s) (ha : NoErr a) :
    (∃ t, Exec cf (State.init inp) (.ok b :: a) t ∧ Twin [.ev .end_, .sub { c' with cs := trimStart c'.cs } none] s t) ∨
    ∃ es ctx t, es <+: a ∧ Exec cf (State.init inp) (.ok b :: es ++ [.err .macroRecursionLimit ctx]) t := by
  have h1 : Exec cf (State.init inp) [.ok b] ⟨[.sub g none, .ev .end_, .sub { c' with cs := trimStart c'.cs } none], [], [], .init inp⟩ :=
    (Exec.init.again h.step).item rfl
  have ht : Twin [.ev .end_, .sub { c' with cs := trimStart c'.cs } none] (State.init g.cs)
      ⟨[.sub g none, .ev .end_, .sub { c' with cs := trimStart c'.cs } none], [], [], .init inp⟩ :=
    ⟨⟨[.sub g none], rfl, by simp [State.init, Instr.er, Sl.er]⟩, rfl, rfl⟩
  rcases exec_twin (.init (cf := cf) (s0 := State.init g.cs)) (by simp [NoErr]) h1 (by intro i hi; simp at hi; exact ⟨_, hi⟩) ht hs ha with ⟨t, h2, h3⟩ | ⟨es, ctx, t, h2, h3⟩
  · exact .inl ⟨t, by simpa using h1.trans h2, h3⟩
  · exact .inr ⟨es, ctx, t, h2, by simpa using h1.trans h3⟩

/-- After the content: the end of the group, and then the parser is at the text after it with the macros of the content. -/
theorem Opens.passed {inp : Str} {b : Event} {g c' : Sl} (h : Opens cf inp b g c') {a : List Item} {s : State} (hs : Exec cf (State.init g.cs) a s) (ha : NoErr a)
    (he : s.stack = []) :
    (∃ t c, Exec cf (State.init inp) (.ok b :: a ++ [.ok .end_]) t ∧ t.stack = [.sub c none] ∧ c.cs = trimStart c'.cs ∧ t.buf = [] ∧ t.macros = s.macros) ∨
    ∃ es ctx t, es <+: a ∧ Exec cf (State.init inp) (.ok b :: es ++ [.err .macroRecursionLimit ctx]) t := by
  rcases h.inside hs ha with ⟨t, h1, ⟨top, h2, h3⟩, h4, h5⟩ | h1
  · have h6 : top = [] := by rw [he] at h3; simpa using h3.symm
    subst h6
    have h7 : t.buf = [] := by
      rw [(hs.fine (st := false) ha (by simp)).1.buf] at h4
      simpa using h4.symm
    refine .inl ⟨⟨[.sub { c' with cs := trimStart c'.cs } none], t.buf, t.macros, t.sp⟩, _, h1.item (i := .ok .end_) ?_, rfl, rfl, h7, h5.symm⟩
    unfold PL.step
    rw [h2]
    rfl
  · exact .inr h1

theorem exec_last {s0 s' : State} {its : List Item} {i : Item} (h : Exec cf s0 (its ++ [i]) s') : ∃ s s1, Exec cf s0 its s ∧ step cf s = .item i s1 := by
  generalize e : its ++ [i] = l at h
  induction h with
  | init => simp at e
  | item h1 h2 =>
    obtain ⟨rfl, h3⟩ := List.append_inj' e rfl
    cases h3
    exact ⟨_, _, h1, h2⟩
  | again _ _ ih => exact ih e

/-- A mistake in the content. -/
theorem Opens.mistake {inp : Str} {b : Event} {g c' : Sl} (h : Opens cf inp b g c') {a : List Item} {s s' : State} (hs : Exec cf (State.init g.cs) a s) (ha : NoErr a)
    {k : ErrorKind} {ctx : Str} (hk : PL.step cf s = .item (.err k ctx) s') (hl : k ≠ .macroRecursionLimit) :
    (∃ ctx t, Exec cf (State.init inp) (.ok b :: a ++ [.err k ctx]) t) ∨
    ∃ es ctx t, es <+: a ∧ Exec cf (State.init inp) (.ok b :: es ++ [.err .macroRecursionLimit ctx]) t := by
  rcases h.inside hs ha with ⟨t, h1, h2⟩ | h1
  · have hne : s.stack ≠ [] := by intro h0; unfold PL.step at hk; rw [h0] at hk; cases hk
    rcases step_twin hs ha h1 (by intro i hi; rcases List.mem_cons.1 hi with rfl | hi; exacts [⟨_, rfl⟩, ha i hi]) h2 hne with ⟨c, u, h4⟩ | ⟨c, u, h4⟩ | h4
    · rw [hk] at h4; cases h4; exact absurd rfl hl
    · exact .inr ⟨a, c, u, List.prefix_rfl, h1.item h4⟩
    · rw [hk] at h4
      obtain ⟨c, u, h5⟩ := h4
      exact .inl ⟨c, u, h1.item h5⟩
  · exact .inr h1

/-- A panic in the content. -/
theorem Opens.panicked {inp : Str} {b : Event} {g c' : Sl} (h : Opens cf inp b g c') {a : List Item} {p : Panic} (hp : Panics cf g.cs a p) (ha : NoErr a) :
    Panics cf inp (.ok b :: a) p ∨ ∃ es ctx t, es <+: a ∧ Exec cf (State.init inp) (.ok b :: es ++ [.err .macroRecursionLimit ctx]) t := by
  obtain ⟨n, hp⟩ := hp
  obtain ⟨s, hs, hk⟩ := panics_exec hp
  rcases h.inside hs ha with ⟨t, h1, h2⟩ | h1
  · have hne : s.stack ≠ [] := by intro h0; unfold PL.step at hk; rw [h0] at hk; cases hk
    rcases step_twin hs ha h1 (by intro i hi; rcases List.mem_cons.1 hi with rfl | hi; exacts [⟨_, rfl⟩, ha i hi]) h2 hne with ⟨c, u, h4⟩ | ⟨c, u, h4⟩ | h4
    · rw [hk] at h4; cases h4
    · exact .inr ⟨a, c, u, List.prefix_rfl, h1.item h4⟩
    · rw [hk] at h4
      exact .inl (exec_panics h1 h4)
  · exact .inr h1

/-- `{X}` with any definitions and calls of macros in `X`: the start of a group, then what `X` yields, then the end. -/
theorem C27_definitions_partial (cf : Cfg) (X : Str) (hb : Split ['{'] ['}'] 0 (X ++ ['}']) X []) (a : List Item) (hy : Yields cf X a) (hn : NoErr a) :
    Yields cf ('{' :: X ++ ['}']) (.ok (.begin_ .normal) :: a ++ [.ok .end_]) ∨
    ∃ es ctx s, es <+: a ∧ Reached cf ('{' :: X ++ ['}']) (.ok (.begin_ .normal) :: es ++ [.err .macroRecursionLimit ctx]) s := by
  obtain ⟨g, rfl, h⟩ := opens_brace (cf := cf) (k := []) .nil hb (by unfold NoScriptAfter; decide)
  simp only [reached_iff]
  obtain ⟨n, hy⟩ := hy
  obtain ⟨s, h1, h2⟩ := yields_exec hy
  rcases h.passed h1 hn h2 with ⟨t, c, h3, h4, h5, h6, h7⟩ | h3
  · refine .inl (exec_yields (h3.again (s' := ⟨[], t.buf, t.macros, t.sp⟩) ?_) rfl)
    unfold step
    rw [h4]
    simp only
    rw [if_pos (by rw [h5]; rfl)]
  · exact .inr h3

/-- In front of more text: the parser comes to that text with the macros that `X` leaves. -/
theorem C27_leaves_partial (cf : Cfg) (k X Y : Str) (hk : Blank k) (hb : Split ['{'] ['}'] 0 (X ++ '}' :: Y) X Y) (hr : NoScriptAfter Y) (a : List Item) (s : State)
    (ha : Reached cf X a s) (hn : NoErr a) (he : s.stack = []) :
    (∃ t c, Reached cf (k ++ '{' :: (X ++ '}' :: Y)) (.ok (.begin_ .normal) :: a ++ [.ok .end_]) t ∧ t.stack = [.sub c none] ∧ c.cs = trimStart Y ∧ t.buf = [] ∧
      t.macros = s.macros) ∨
    ∃ es ctx t, es <+: a ∧ Reached cf (k ++ '{' :: (X ++ '}' :: Y)) (.ok (.begin_ .normal) :: es ++ [.err .macroRecursionLimit ctx]) t := by
  obtain ⟨g, rfl, h⟩ := opens_brace (cf := cf) hk hb hr
  simp only [reached_iff] at ha ⊢
  exact h.passed ha hn he

/-- The first mistake in the content of a group is reported as that of the content alone. -/
theorem C27_mistake_partial (cf : Cfg) (k X Y : Str) (hk : Blank k) (hb : Split ['{'] ['}'] 0 (X ++ '}' :: Y) X Y) (hr : NoScriptAfter Y) (a : List Item) (e : ErrorKind)
    (ctx : Str) (s : State) (ha : Reached cf X (a ++ [.err e ctx]) s) (hn : NoErr a) (hl : e ≠ .macroRecursionLimit) :
    (∃ ctx t, Reached cf (k ++ '{' :: (X ++ '}' :: Y)) (.ok (.begin_ .normal) :: a ++ [.err e ctx]) t) ∨
    ∃ es ctx t, es <+: a ∧ Reached cf (k ++ '{' :: (X ++ '}' :: Y)) (.ok (.begin_ .normal) :: es ++ [.err .macroRecursionLimit ctx]) t := by
  obtain ⟨g, rfl, h⟩ := opens_brace (cf := cf) hk hb hr
  simp only [reached_iff] at ha ⊢
  obtain ⟨s1, s2, h1, h2⟩ := exec_last ha
  exact h.mistake h1 hn h2 hl

/-- If the content panics, then the group does. -/
theorem C27_panics_definitions_partial (cf : Cfg) (k X Y : Str) (hk : Blank k) (hb : Split ['{'] ['}'] 0 (X ++ '}' :: Y) X Y) (hr : NoScriptAfter Y) (a : List Item) (p : Panic)
    (ha : Panics cf X a p) (hn : NoErr a) :
    Panics cf (k ++ '{' :: (X ++ '}' :: Y)) (.ok (.begin_ .normal) :: a) p ∨
    ∃ es ctx t, es <+: a ∧ Reached cf (k ++ '{' :: (X ++ '}' :: Y)) (.ok (.begin_ .normal) :: es ++ [.err .macroRecursionLimit ctx]) t := by
  obtain ⟨g, rfl, h⟩ := opens_brace (cf := cf) hk hb hr
  simp only [reached_iff]
  exact h.panicked ha hn

/-- The same between `\left` and `\right`. -/
theorem C23_definitions_partial (cf : Cfg) (k w u t X v Y : Str) (l r : Option Char) (hk : Blank k) (hw : Spaces w) (hu : ∀ c u', w ++ u = c :: u' → isLetter c = false)
    (hu2 : ∀ c u', u = c :: u' → isWs c = false) (hl : DelimText u l t) (hs : Split c!"\\left" c!"\\right" 0 t X v) (hr : DelimText v r Y) (hY : NoScriptAfter Y)
    (a : List Item) (s : State) (ha : Reached cf X a s) (hn : NoErr a) (he : s.stack = []) :
    (∃ t c, Reached cf (k ++ c!"\\left" ++ w ++ u) (.ok (.begin_ (.leftRight l r)) :: a ++ [.ok .end_]) t ∧ t.stack = [.sub c none] ∧ c.cs = trimStart Y ∧ t.buf = [] ∧
      t.macros = s.macros) ∨
    ∃ es ctx t, es <+: a ∧ Reached cf (k ++ c!"\\left" ++ w ++ u) (.ok (.begin_ (.leftRight l r)) :: es ++ [.err .macroRecursionLimit ctx]) t := by
  have htok : token (k ++ c!"\\left" ++ w ++ u) = .ok (.cs c!"left") u := by
    have := token_cs_eq (k := k) (s := c!"left" ++ (w ++ u)) (name := c!"left") (r := w ++ u) hk (.word (by decide) (by decide) hu)
    rw [trimStart_ws_append hw, trimStart_eq_self hu2] at this
    simpa using this
  have h := opens_of (cf := cf) htok (handle_left hl hs hr) hY
  simp only [reached_iff] at ha ⊢
  exact h.passed ha hn he

/-- And between `\begingroup` and `\endgroup`, as far as these delimit a group. -/
theorem C24_definitions_partial (cf : Cfg) (k w X Y : Str) (hk : Blank k) (hw : Spaces w)
    (hu : ∀ c u', w ++ (X ++ c!"\\endgroup" ++ Y) = c :: u' → isLetter c = false) (hu2 : ∀ c u', X ++ c!"\\endgroup" ++ Y = c :: u' → isWs c = false)
    (hs : Split c!"\\begin" c!"\\end" 0 (X ++ c!"\\endgroup" ++ Y) X (c!"group" ++ Y)) (a : List Item) (s : State) (ha : Reached cf X a s) (hn : NoErr a)
    (he : s.stack = []) :
    (∃ t c, Reached cf (k ++ c!"\\begingroup" ++ w ++ (X ++ c!"\\endgroup" ++ Y)) (.ok (.begin_ .normal) :: a ++ [.ok .end_]) t ∧ t.stack = [.sub c none] ∧
      c.cs = c!"group" ++ Y ∧ t.buf = [] ∧ t.macros = s.macros) ∨
    ∃ es ctx t, es <+: a ∧ Reached cf (k ++ c!"\\begingroup" ++ w ++ (X ++ c!"\\endgroup" ++ Y)) (.ok (.begin_ .normal) :: es ++ [.err .macroRecursionLimit ctx]) t := by
  have htok : token (k ++ c!"\\begingroup" ++ w ++ (X ++ c!"\\endgroup" ++ Y)) = .ok (.cs c!"begingroup") (X ++ c!"\\endgroup" ++ Y) := by
    have := token_cs_eq (k := k) (s := c!"begingroup" ++ (w ++ (X ++ c!"\\endgroup" ++ Y))) (name := c!"begingroup") (r := w ++ (X ++ c!"\\endgroup" ++ Y))
      hk (.word (by decide) (by decide) hu)
    rw [trimStart_ws_append hw, trimStart_eq_self hu2] at this
    simpa using this
  have e : trimStart (c!"group" ++ Y) = c!"group" ++ Y := trimStart_eq_self (by intro c r h; cases h; decide)
  have h := opens_of (cf := cf) htok (handle_begingroup hs) (by
    unfold NoScriptAfter
    rw [e]
    exact ⟨by simp, by simp⟩)
  simp only [reached_iff] at ha ⊢
  have h1 := h.passed ha hn he
  rw [show trimStart ({ src := (startOn (k ++ c!"\\begingroup" ++ w ++ (X ++ c!"\\endgroup" ++ Y)) (X ++ c!"\\endgroup" ++ Y)).content.src, stop := (startOn (k ++ c!"\\begingroup" ++ w ++ (X ++ c!"\\endgroup" ++ Y)) (X ++ c!"\\endgroup" ++ Y)).content.stop, cs := c!"group" ++ Y } : Sl).cs = c!"group" ++ Y from e] at h1
  exact h1

/-! ### Texts that lie as in the arena -/

theorem Opens.enter {inp : Str} {b : Event} {g c' : Sl} (h : Opens cf inp b g c') (hl : Stacked cf g.cs) (hl' : Stacked cf inp) {a : List Item} {s : State}
    (hs : Exec cf (State.init g.cs) a s) (ha : NoErr a) :
    ∃ t, Exec cf (State.init inp) (.ok b :: a) t ∧ Beside [.ev .end_, .sub { c' with cs := trimStart c'.cs } none] s t := by
  have h1 : Exec cf (State.init inp) [.ok b] ⟨[.sub g none, .ev .end_, .sub { c' with cs := trimStart c'.cs } none], [], [], .init inp⟩ :=
    (Exec.init.again h.step).item rfl
  have one : NoErr [.ok b] := by intro i hi; simp at hi; exact ⟨_, hi⟩
  have ht : Beside [.ev .end_, .sub { c' with cs := trimStart c'.cs } none] (State.init g.cs)
      ⟨[.sub g none, .ev .end_, .sub { c' with cs := trimStart c'.cs } none], [], [], .init inp⟩ :=
    ⟨⟨[.sub g none], rfl, by simp [State.init, Instr.pin, Sl.pin, src_zero h1 one]⟩, rfl, rfl, ⟨rfl, rfl, rfl⟩⟩
  obtain ⟨t, h2, h3⟩ := exec_beside hl hl' (.init (cf := cf) (s0 := State.init g.cs)) (by simp [NoErr]) h1 one ht hs ha
  exact ⟨t, by simpa using h1.trans h2, h3⟩

theorem noErr_cons {b : Event} {a : List Item} (ha : NoErr a) : NoErr (.ok b :: a) := by
  intro i hi
  rcases List.mem_cons.1 hi with rfl | hi
  exacts [⟨_, rfl⟩, ha i hi]

theorem Opens.leave {inp : Str} {b : Event} {g c' : Sl} (h : Opens cf inp b g c') (hl : Stacked cf g.cs) (hl' : Stacked cf inp) {a : List Item} {s : State}
    (hs : Exec cf (State.init g.cs) a s) (ha : NoErr a) (he : s.stack = []) :
    ∃ t c, Exec cf (State.init inp) (.ok b :: a ++ [.ok .end_]) t ∧ t.stack = [.sub c none] ∧ c.cs = trimStart c'.cs ∧ t.buf = [] ∧ t.macros = s.macros := by
  obtain ⟨t, h1, ⟨top, h2, h3⟩, h4, h5, -⟩ := h.enter hl hl' hs ha
  have h6 : top = [] := by rw [he] at h3; simpa using h3.symm
  subst h6
  have h7 : t.buf = [] := by
    rw [(hs.fine (st := false) ha (by simp)).1.buf] at h4
    simpa using h4.symm
  refine ⟨⟨[.sub { c' with cs := trimStart c'.cs } none], t.buf, t.macros, t.sp⟩, _, h1.item (i := .ok .end_) ?_, rfl, rfl, h7, h5.symm⟩
  unfold PL.step
  rw [h2]
  rfl

theorem Opens.err {inp : Str} {b : Event} {g c' : Sl} (h : Opens cf inp b g c') (hl : Stacked cf g.cs) (hl' : Stacked cf inp) {a : List Item} {s s' : State}
    (hs : Exec cf (State.init g.cs) a s) (ha : NoErr a) {k : ErrorKind} {ctx : Str} (hk : PL.step cf s = .item (.err k ctx) s') :
    ∃ ctx t, Exec cf (State.init inp) (.ok b :: a ++ [.err k ctx]) t := by
  obtain ⟨t, h1, h2⟩ := h.enter hl hl' hs ha
  have hne : s.stack ≠ [] := by intro h0; unfold PL.step at hk; rw [h0] at hk; cases hk
  have h4 := step_beside hl hl' hs ha h1 (noErr_cons ha) h2 hne
  rw [hk] at h4
  obtain ⟨c, u, h5⟩ := h4
  exact ⟨c, u, h1.item h5⟩

theorem Opens.breaks {inp : Str} {b : Event} {g c' : Sl} (h : Opens cf inp b g c') (hl : Stacked cf g.cs) (hl' : Stacked cf inp) {a : List Item} {p : Panic}
    (hp : Panics cf g.cs a p) (ha : NoErr a) : Panics cf inp (.ok b :: a) p := by
  obtain ⟨n, hp⟩ := hp
  obtain ⟨s, hs, hk⟩ := panics_exec hp
  obtain ⟨t, h1, h2⟩ := h.enter hl hl' hs ha
  have hne : s.stack ≠ [] := by intro h0; unfold PL.step at hk; rw [h0] at hk; cases hk
  have h4 := step_beside hl hl' hs ha h1 (noErr_cons ha) h2 hne
  rw [hk] at h4
  exact exec_panics h1 h4

/-- `{X}` with any definitions and calls of macros in `X`: the start of a group, then what `X` yields, then the end. -/
theorem C27_definitions (cf : Cfg) (X : Str) (hb : Split ['{'] ['}'] 0 (X ++ ['}']) X []) (hl : Stacked cf X) (hl' : Stacked cf ('{' :: X ++ ['}'])) (a : List Item)
    (hy : Yields cf X a) (hn : NoErr a) : Yields cf ('{' :: X ++ ['}']) (.ok (.begin_ .normal) :: a ++ [.ok .end_]) := by
  obtain ⟨g, rfl, h⟩ := opens_brace (cf := cf) (k := []) .nil hb (by unfold NoScriptAfter; decide)
  obtain ⟨n, hy⟩ := hy
  obtain ⟨s, h1, h2⟩ := yields_exec hy
  obtain ⟨t, c, h3, h4, h5, h6, h7⟩ := h.leave hl hl' h1 hn h2
  refine exec_yields (h3.again (s' := ⟨[], t.buf, t.macros, t.sp⟩) ?_) rfl
  unfold step
  rw [h4]
  simp only
  rw [if_pos (by rw [h5]; rfl)]

/-- In front of more text: the parser comes to that text with the macros that `X` leaves. -/
theorem C27_leaves (cf : Cfg) (k X Y : Str) (hk : Blank k) (hb : Split ['{'] ['}'] 0 (X ++ '}' :: Y) X Y) (hr : NoScriptAfter Y) (hl : Stacked cf X)
    (hl' : Stacked cf (k ++ '{' :: (X ++ '}' :: Y))) (a : List Item) (s : State) (ha : Reached cf X a s) (hn : NoErr a) (he : s.stack = []) :
    ∃ t c, Reached cf (k ++ '{' :: (X ++ '}' :: Y)) (.ok (.begin_ .normal) :: a ++ [.ok .end_]) t ∧ t.stack = [.sub c none] ∧ c.cs = trimStart Y ∧ t.buf = [] ∧
      t.macros = s.macros := by
  obtain ⟨g, rfl, h⟩ := opens_brace (cf := cf) hk hb hr
  simp only [reached_iff] at ha ⊢
  exact h.leave hl hl' ha hn he

/-- The first mistake in the content of a group is reported as that of the content alone, the limit for expansions included. -/
theorem C27_mistake (cf : Cfg) (k X Y : Str) (hk : Blank k) (hb : Split ['{'] ['}'] 0 (X ++ '}' :: Y) X Y) (hr : NoScriptAfter Y) (hl : Stacked cf X)
    (hl' : Stacked cf (k ++ '{' :: (X ++ '}' :: Y))) (a : List Item) (e : ErrorKind) (ctx : Str) (s : State) (ha : Reached cf X (a ++ [.err e ctx]) s) (hn : NoErr a) :
    ∃ ctx t, Reached cf (k ++ '{' :: (X ++ '}' :: Y)) (.ok (.begin_ .normal) :: a ++ [.err e ctx]) t := by
  obtain ⟨g, rfl, h⟩ := opens_brace (cf := cf) hk hb hr
  simp only [reached_iff] at ha ⊢
  obtain ⟨s1, s2, h1, h2⟩ := exec_last ha
  exact h.err hl hl' h1 hn h2

/-- If the content panics, then the group does. -/
theorem C27_panics_definitions (cf : Cfg) (k X Y : Str) (hk : Blank k) (hb : Split ['{'] ['}'] 0 (X ++ '}' :: Y) X Y) (hr : NoScriptAfter Y) (hl : Stacked cf X)
    (hl' : Stacked cf (k ++ '{' :: (X ++ '}' :: Y))) (a : List Item) (p : Panic) (ha : Panics cf X a p) (hn : NoErr a) :
    Panics cf (k ++ '{' :: (X ++ '}' :: Y)) (.ok (.begin_ .normal) :: a) p := by
  obtain ⟨g, rfl, h⟩ := opens_brace (cf := cf) hk hb hr
  exact h.breaks hl hl' ha hn

/-- The same between `\left` and `\right`. -/
theorem C23_definitions (cf : Cfg) (k w u t X v Y : Str) (l r : Option Char) (hk : Blank k) (hw : Spaces w) (hu : ∀ c u', w ++ u = c :: u' → isLetter c = false)
    (hu2 : ∀ c u', u = c :: u' → isWs c = false) (hd : DelimText u l t) (hs : Split c!"\\left" c!"\\right" 0 t X v) (hr : DelimText v r Y) (hY : NoScriptAfter Y)
    (hl : Stacked cf X) (hl' : Stacked cf (k ++ c!"\\left" ++ w ++ u)) (a : List Item) (s : State) (ha : Reached cf X a s) (hn : NoErr a) (he : s.stack = []) :
    ∃ t c, Reached cf (k ++ c!"\\left" ++ w ++ u) (.ok (.begin_ (.leftRight l r)) :: a ++ [.ok .end_]) t ∧ t.stack = [.sub c none] ∧ c.cs = trimStart Y ∧ t.buf = [] ∧
      t.macros = s.macros := by
  have htok : token (k ++ c!"\\left" ++ w ++ u) = .ok (.cs c!"left") u := by
    have := token_cs_eq (k := k) (s := c!"left" ++ (w ++ u)) (name := c!"left") (r := w ++ u) hk (.word (by decide) (by decide) hu)
    rw [trimStart_ws_append hw, trimStart_eq_self hu2] at this
    simpa using this
  have h := opens_of (cf := cf) htok (handle_left hd hs hr) hY
  simp only [reached_iff] at ha ⊢
  exact h.leave hl hl' ha hn he

/-- And between `\begingroup` and `\endgroup`, as far as these delimit a group. -/
theorem C24_definitions (cf : Cfg) (k w X Y : Str) (hk : Blank k) (hw : Spaces w)
    (hu : ∀ c u', w ++ (X ++ c!"\\endgroup" ++ Y) = c :: u' → isLetter c = false) (hu2 : ∀ c u', X ++ c!"\\endgroup" ++ Y = c :: u' → isWs c = false)
    (hs : Split c!"\\begin" c!"\\end" 0 (X ++ c!"\\endgroup" ++ Y) X (c!"group" ++ Y)) (hl : Stacked cf X)
    (hl' : Stacked cf (k ++ c!"\\begingroup" ++ w ++ (X ++ c!"\\endgroup" ++ Y))) (a : List Item) (s : State) (ha : Reached cf X a s) (hn : NoErr a) (he : s.stack = []) :
    ∃ t c, Reached cf (k ++ c!"\\begingroup" ++ w ++ (X ++ c!"\\endgroup" ++ Y)) (.ok (.begin_ .normal) :: a ++ [.ok .end_]) t ∧ t.stack = [.sub c none] ∧
      c.cs = c!"group" ++ Y ∧ t.buf = [] ∧ t.macros = s.macros := by
  have htok : token (k ++ c!"\\begingroup" ++ w ++ (X ++ c!"\\endgroup" ++ Y)) = .ok (.cs c!"begingroup") (X ++ c!"\\endgroup" ++ Y) := by
    have := token_cs_eq (k := k) (s := c!"begingroup" ++ (w ++ (X ++ c!"\\endgroup" ++ Y))) (name := c!"begingroup") (r := w ++ (X ++ c!"\\endgroup" ++ Y))
      hk (.word (by decide) (by decide) hu)
    rw [trimStart_ws_append hw, trimStart_eq_self hu2] at this
    simpa using this
  have e : trimStart (c!"group" ++ Y) = c!"group" ++ Y := trimStart_eq_self (by intro c r h; cases h; decide)
  have h := opens_of (cf := cf) htok (handle_begingroup hs) (by
    unfold NoScriptAfter
    rw [e]
    exact ⟨by simp, by simp⟩)
  simp only [reached_iff] at ha ⊢
  obtain ⟨t, c, h1, h2, h3, h4⟩ := h.leave hl hl' ha hn he
  exact ⟨t, c, h1, h2, h3.trans e, h4⟩

/-- After an error there is no such relation: it depends on the addresses whether the text after an expansion is found, even if the texts lie as in the arena. Here `X`
is parsed to its end, and `{X}` panics. -/
theorem C27_after_error_false : ∃ X cf cf', cf.overflowChecks = cf'.overflowChecks ∧ Split ['{'] ['}'] 0 (X ++ ['}']) X [] ∧ Stacked cf X ∧
    Stacked cf' ('{' :: X ++ ['}']) ∧ (run cf 40 (State.init X)).2 = .done ∧ (run cf' 40 (State.init ('{' :: X ++ ['}']))).2 = .panic .assertion :=
  ⟨c!"\\def\\m{\\frac{\\t}\\r}\\def\\k{{}}\\m\\r\\k\\r", ⟨false, fun k => match k with | 0 => 0 | 1 => 1000 | 2 => 996 | k => 1000000 * k⟩, cf1, rfl,
    groupContent_ok (k := .normal).1 (by decide +kernel), stacked_of 40 (by decide +kernel) (by decide +kernel), stacked_of 40 (by decide +kernel) (by decide +kernel),
    by decide +kernel, by decide +kernel⟩

/-- A text that defines `\\a` and uses it, twice. -/
def nestedDef : Str := c!"\\def\\a#1{#1#1}\\a x\\a{\\a y}"

example : Split ['{'] ['}'] 0 (nestedDef ++ ['}']) nestedDef [] := groupContent_ok (k := .normal).1 (by decide +kernel)
example : Yields cf0 nestedDef ([.ok (ordinary 'x'), .ok (ordinary 'x')] ++ ([0, 1].map fun (_ : Nat) =>
    [.ok (.begin_ .normal), .ok (ordinary 'y'), .ok (ordinary 'y'), .ok .end_]).flatten) := ⟨60, by decide +kernel⟩

/-- With room around the texts. -/
example : Stacked cf0 nestedDef ∧ Stacked cf0 ('{' :: nestedDef ++ ['}']) :=
  ⟨stacked_of 60 (by decide +kernel) (by decide +kernel), stacked_of 60 (by decide +kernel) (by decide +kernel)⟩

/-- The macro holds after the group: `\\a z` is expanded there. -/
example : Yields cf0 ('{' :: nestedDef ++ c!"}\\a z") (.ok (.begin_ .normal) :: [.ok (ordinary 'x'), .ok (ordinary 'x')] ++ ([0, 1].map fun (_ : Nat) =>
    [.ok (.begin_ .normal), .ok (ordinary 'y'), .ok (ordinary 'y'), .ok .end_]).flatten ++ [.ok .end_, .ok (ordinary 'z'), .ok (ordinary 'z')]) :=
  ⟨90, by decide +kernel⟩

/-- Content with a mistake after an expansion. -/
example : Split ['{'] ['}'] 0 (c!"\\def\\a{x}\\a\\b" ++ '}' :: c!"+") c!"\\def\\a{x}\\a\\b" c!"+" := groupContent_ok (k := .normal).1 (by decide +kernel)
example : ((run cf0 60 (State.init c!"\\def\\a{x}\\a\\b")).1.map Item.bare).take 2 = [.inl (ordinary 'x'), .inr .unknownPrimitive] := by decide +kernel
example : ((run cf0 60 (State.init c!"{\\def\\a{x}\\a\\b}+")).1.map Item.bare).take 3 = [.inl (.begin_ .normal), .inl (ordinary 'x'), .inr .unknownPrimitive] := by
  decide +kernel

/-- Content that panics after an expansion. -/
example : Panics cf0 c!"\\def\\a{x}\\a\\char99999999999999999999 " [.ok (ordinary 'x')] .overflow := ⟨60, by decide +kernel⟩
example : Panics cf0 c!"{\\def\\a{x}\\a\\char99999999999999999999 }+" [.ok (.begin_ .normal), .ok (ordinary 'x')] .overflow := ⟨60, by decide +kernel⟩

/-- Content of `\left…\right` and of `\begingroup…\endgroup` with a definition. -/
example : Split c!"\\left" c!"\\right" 0 (c!"\\def\\a{x}\\a" ++ c!"\\right)\\a") c!"\\def\\a{x}\\a" c!")\\a" := groupContent_ok (k := .leftRight).1 (by decide +kernel)
example : Split c!"\\begin" c!"\\end" 0 (c!"\\def\\a{x}\\a" ++ c!"\\endgroup" ++ c!"\\a") c!"\\def\\a{x}\\a" (c!"group" ++ c!"\\a") :=
  groupContent_ok (k := .beginEnd).1 (by decide +kernel)

end PL.Props
