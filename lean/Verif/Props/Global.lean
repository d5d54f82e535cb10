import Verif.Props.Nested
import Verif.Props.Exchange
set_option autoImplicit false
/-!
# C73: definitions are not local to the group in which they are made
-/
namespace PL.Props
open PL PL.Lex PL.Macros Spec PL.Formula

variable {cf : Cfg}

/-- Two parsers at the same text, with macros that mean the same, after as many expansions. -/
theorem resume {i j : Str} (hl : Stacked cf i) (hl' : Stacked cf j) {a b : List Item} {s t : State} (hs : Exec cf (State.init i) a s) (ha : NoErr a)
    (ht : Exec cf (State.init j) b t) (hb : NoErr b) {c c' : Sl} (h1 : s.stack = [.sub c none]) (h2 : t.stack = [.sub c' none]) (h3 : s.buf = []) (h4 : t.buf = [])
    (hS : Serves cf s.macros t.macros) (hL : Level s.sp t.sp) (hsrc : c'.src = c.src) (hcs : trimStart c'.cs = trimStart c.cs) {n : Nat} {es : List Item}
    (hr : run cf n s = (es, .done)) (hes : NoErr es) : ∃ t', Exec cf t es t' ∧ t'.stack = [] := by
  cases n with
  | zero => cases hr
  | succ k =>
    obtain ⟨_, _, m, sp⟩ := s
    obtain ⟨_, _, m', sp'⟩ := t
    subst h1 h2 h3 h4
    have e1 := step_trim (cf := cf) (s := ⟨[], [], m, sp⟩) (c := c) (A := none) (B := [])
    have e2 := step_trim (cf := cf) (s := ⟨[], [], m', sp'⟩) (c := c') (A := none) (B := [])
    dsimp only at e1 e2
    obtain ⟨s', hst⟩ := first_step hr hes (by simp)
    rw [← e1] at hst
    have hM : Marching cf ⟨[.sub { c with cs := trimStart c.cs } none], [], m, sp⟩ ⟨[.sub { c' with cs := trimStart c'.cs } none], [], m', sp'⟩ :=
      ⟨by simp [Instr.pin, Sl.pin, hsrc, hcs], rfl, hS, hL⟩
    have hO := step_marching hM hst (by
      intro d A rest d' rest' g1 g2 g3 g4
      injection g1 with g1 _
      injection g2 with g2 _
      injection g1 with g1 g5
      injection g2 with g2 _
      subst g1 g2 g5
      have n1 : trimStart c.cs ≠ [] := by intro h; rw [h] at g4; exact g4 rfl
      have n2 : trimStart c'.cs ≠ [] := by rw [hcs]; exact n1
      have h0 := abreast_start hl hl' hs ha ht hb hL rfl rfl hsrc n1 n2
      exact ⟨h0.level, fun a b ha hb => h0.found a b (Sub.trans ha ((Sub.refl c).suffix (trimStart_suffix _))) (Sub.trans hb ((Sub.refl c').suffix (trimStart_suffix _)))⟩)
    rw [e1, e2] at hO
    have h2 := run_onStep hO hr hes hs ha ht hb (run_marching hl hl' k)
    exact yields_exec h2

theorem src_input {i : Str} {its : List Item} {s : State} (h : Exec cf (State.init i) its s) (hn : NoErr its) (he : s.sp.exps = []) {c : Sl} {A : Option AlignCount}
    {B : List Instr} (hs : s.stack = .sub c A :: B) : c.src = 0 := by
  rcases (h.located hn).placed c (by rw [hs]; simp [texts]) with h1 | ⟨e, h1, -⟩
  · exact h1.1
  · rw [he] at h1; cases h1

/-- A group that only makes definitions. -/
theorem Opens.defs {inp : Str} {b : Event} {g c' : Sl} (h : Opens cf inp b g c') {Δ : Known} (hp : Preamble Known.none g.cs Δ []) :
    ∃ t c, Exec cf (State.init inp) [.ok b, .ok .end_] t ∧ t.stack = [.sub c none] ∧ c.cs = trimStart c'.cs ∧ c.src = 0 ∧ t.buf = [] ∧ Stores cf t.macros Δ ∧
      t.sp = Spans.init inp := by
  have h1 : Exec cf (State.init inp) [.ok b] ⟨[.sub g none, .ev .end_, .sub { c' with cs := trimStart c'.cs } none], [], [], .init inp⟩ :=
    (Exec.init.again h.step).item rfl
  have one : NoErr [.ok b] := by intro i hi; simp at hi; exact ⟨_, hi⟩
  obtain ⟨D, c, hS, hc, hx⟩ := exec_preamble (cf := cf) (c := g) stores_none hp none [.ev .end_, .sub { c' with cs := trimStart c'.cs } none] (Spans.init inp) rfl
  have h2 := h1.trans hx
  have h3 : PL.step cf ⟨.sub c none :: [.ev .end_, .sub { c' with cs := trimStart c'.cs } none], [], D, .init inp⟩ =
      .again ⟨[.ev .end_, .sub { c' with cs := trimStart c'.cs } none], [], D, .init inp⟩ := by
    unfold PL.step
    simp only
    rw [if_pos (by rw [hc]; rfl)]
  have h4 := (h2.again h3).item (i := .ok .end_) (s' := ⟨[.sub { c' with cs := trimStart c'.cs } none], [], D, .init inp⟩) rfl
  have two : NoErr [.ok b, .ok .end_] := by
    intro i hi
    simp at hi
    rcases hi with rfl | rfl <;> exact ⟨_, rfl⟩
  exact ⟨_, _, h4, rfl, rfl, src_input h4 two rfl rfl, rfl, hS, rfl⟩

/-- The text after a group of definitions, and the text after the definitions. -/
theorem Opens.global {inp D T : Str} {b : Event} {g c' : Sl} (h : Opens cf inp b g c') (ho : cf.overflowChecks = true) (hT : trimStart c'.cs = trimStart T) (hl : Stacked cf (D ++ T))
    (hl' : Stacked cf inp) {Δ : Known} (hp : Preamble Known.none g.cs Δ []) (hq : Preamble Known.none (D ++ T) Δ T) {its : List Item} (hn : NoErr its) :
    Yields cf (D ++ T) its ↔ Yields cf inp (.ok b :: .ok .end_ :: its) := by
  obtain ⟨t, c, h1, h2, h3, h4, h5, h6, h7⟩ := h.defs hp
  obtain ⟨M, d, hS, hc, hx⟩ := exec_preamble (cf := cf) (c := whole (D ++ T)) stores_none hq none [] (Spans.init (D ++ T)) rfl
  have hx : Exec cf (State.init (D ++ T)) [] ⟨[.sub d none], [], M, Spans.init (D ++ T)⟩ := hx
  have nil : NoErr [] := fun _ h => by cases h
  have two : NoErr [.ok b, .ok .end_] := by
    intro i hi
    simp at hi
    rcases hi with rfl | rfl <;> exact ⟨_, rfl⟩
  have z := src_zero hx nil
  have hcs : trimStart c.cs = trimStart d.cs := by rw [h3, trimStart_idem, hT, hc]
  constructor
  · rintro ⟨n, hy⟩
    obtain ⟨k, r, hk, hr⟩ := run_rest hx hy
    have hr : its = r := hr
    subst hr
    obtain ⟨t', h8, h9⟩ := resume hl hl' hx nil h1 two rfl h2 rfl h5 (serves_of ho hS h6 (covers_refl _)) (by rw [h7]; exact ⟨rfl, rfl, rfl⟩) (h4.trans z.symm) hcs hk hn
    exact exec_yields (h1.trans h8) h9
  · rintro ⟨n, hy⟩
    obtain ⟨k, r, hk, hr⟩ := run_rest h1 hy
    have hr : its = r := by simpa using hr
    subst hr
    obtain ⟨t', h8, h9⟩ := resume hl' hl h1 two hx nil h2 rfl h5 rfl (serves_of ho h6 hS (covers_refl _)) (by rw [h7]; exact ⟨rfl, rfl, rfl⟩) (z.trans h4.symm) hcs.symm hk hn
    exact exec_yields (hx.trans h8) h9

/-- Definitions in braces hold after the braces: what follows is parsed as after the definitions alone. -/
theorem C73_braces (cf : Cfg) (ho : cf.overflowChecks = true) (k D T : Str) (Δ : Known) (its : List Item) (hk : Blank k) (hb : Split ['{'] ['}'] 0 (D ++ '}' :: T) D T)
    (hr : NoScriptAfter T) (hl : Stacked cf (D ++ T)) (hl' : Stacked cf (k ++ '{' :: (D ++ '}' :: T))) (hp : Preamble Known.none D Δ [])
    (hq : Preamble Known.none (D ++ T) Δ T) (hn : NoErr its) :
    Yields cf (D ++ T) its ↔ Yields cf (k ++ '{' :: (D ++ '}' :: T)) (.ok (.begin_ .normal) :: .ok .end_ :: its) := by
  obtain ⟨g, rfl, h⟩ := opens_brace (cf := cf) hk hb hr
  exact h.global ho rfl hl hl' hp hq hn

/-- The same for definitions between `\left` and `\right`. -/
theorem C73_left_right (cf : Cfg) (ho : cf.overflowChecks = true) (k w u t D v T : Str) (l r : Option Char) (Δ : Known) (its : List Item) (hk : Blank k) (hw : Spaces w)
    (hu : ∀ c u', w ++ u = c :: u' → isLetter c = false) (hu2 : ∀ c u', u = c :: u' → isWs c = false) (hd : DelimText u l t)
    (hs : Split c!"\\left" c!"\\right" 0 t D v) (hr : DelimText v r T) (hY : NoScriptAfter T) (hl : Stacked cf (D ++ T)) (hl' : Stacked cf (k ++ c!"\\left" ++ w ++ u))
    (hp : Preamble Known.none D Δ []) (hq : Preamble Known.none (D ++ T) Δ T) (hn : NoErr its) :
    Yields cf (D ++ T) its ↔ Yields cf (k ++ c!"\\left" ++ w ++ u) (.ok (.begin_ (.leftRight l r)) :: .ok .end_ :: its) := by
  have htok : token (k ++ c!"\\left" ++ w ++ u) = .ok (.cs c!"left") u := by
    have := token_cs_eq (k := k) (s := c!"left" ++ (w ++ u)) (name := c!"left") (r := w ++ u) hk (.word (by decide) (by decide) hu)
    rw [trimStart_ws_append hw, trimStart_eq_self hu2] at this
    simpa using this
  have h := opens_of (cf := cf) htok (handle_left hd hs hr) hY
  exact h.global ho rfl hl hl' hp hq hn

/-! ### Cases -/

theorem square_alone : Preamble Known.none c!"\\def\\a#1{#1^2}" (Known.none.set c!"a" (.plain [] [[]] false c!"#1^2")) [] :=
  preamble_square (t := []) (by decide +kernel) (definition_iff.1 (by decide +kernel))

/-- `{\def\a#1{#1^2}}\a x`: a square after the group. -/
example : Yields cf0 c!"{\\def\\a#1{#1^2}}\\a x" (.ok (.begin_ .normal) :: .ok .end_ :: [.ok (.script .sup .right), .ok (ordinary 'x'), .ok (.content (.number c!"2"))]) :=
  (C73_braces cf0 rfl [] c!"\\def\\a#1{#1^2}" c!"\\a x" _ _ .nil (groupContent_ok (k := .normal).1 (by decide +kernel)) (by unfold NoScriptAfter; decide)
    (stacked_of 40 (by decide +kernel) (by decide +kernel)) (stacked_of 40 (by decide +kernel) (by decide +kernel)) square_alone
    (preamble_square (by decide +kernel) (definition_iff.1 (by decide +kernel))) (by intro i hi; simp at hi; rcases hi with rfl | rfl | rfl <;> exact ⟨_, rfl⟩)).1 ⟨40, by decide +kernel⟩

/-- `\left.\def\a#1{#1^2}\right.\a x`. -/
example : Yields cf0 c!"\\left.\\def\\a#1{#1^2}\\right.\\a x" (.ok (.begin_ (.leftRight none none)) :: .ok .end_ ::
    [.ok (.script .sup .right), .ok (ordinary 'x'), .ok (.content (.number c!"2"))]) :=
  (C73_left_right cf0 rfl [] [] c!".\\def\\a#1{#1^2}\\right.\\a x" _ c!"\\def\\a#1{#1^2}" c!".\\a x" c!"\\a x" none none _ _ .nil (by intro c h; cases h)
    (by intro c u h; cases h; decide) (by intro c u h; cases h; decide) .dot (groupContent_ok (k := .leftRight).1 (by decide +kernel)) .dot (by unfold NoScriptAfter; decide)
    (stacked_of 40 (by decide +kernel) (by decide +kernel)) (stacked_of 40 (by decide +kernel) (by decide +kernel)) square_alone
    (preamble_square (by decide +kernel) (definition_iff.1 (by decide +kernel))) (by intro i hi; simp at hi; rcases hi with rfl | rfl | rfl <;> exact ⟨_, rfl⟩)).1 ⟨40, by decide +kernel⟩

/-- In TeX such a definition ends with the group, so that the second `\a` is not defined, or has its meaning from before the group. -/
theorem C73_local_false : (run cf0 60 (State.init c!"{\\def\\a{x}\\a}\\a")).1 = ([.begin_ .normal, ordinary 'x', .end_, ordinary 'x'].map .ok) ∧
    (run cf0 60 (State.init c!"\\def\\a{y}{\\def\\a{x}\\a}\\a")).1 = ([.begin_ .normal, ordinary 'x', .end_, ordinary 'x'].map .ok) := by
  decide +kernel

end PL.Props
