import Verif.Lemmas.Formula.Steps
import Verif.Props.Mistakes
set_option autoImplicit false
/-!
# C62: what the parser does with any text

`Spec/Effect.lean` and `Spec/Call.lean` say what comes of the element at the start of a text, whatever the text and whatever macros there are: how much of the
text it takes and which macros there are afterwards, or which error it gives. The parser does this at every text it comes to, and in a build with overflow
checks there is no other possibility, apart from a panic and the limit for expansions.
-/
namespace PL.Props
open PL PL.Lex Spec PL.Formula

/-- `Traced cf inp its s Δ`: the parser has come to the state `s` on the input `inp`, has yielded the items `its` without an error, and the macros defined by
the elements it has read are `Δ`. -/
inductive Traced (cf : Cfg) (inp : Str) : List Item → State → Known → Prop
  | new : Traced cf inp [] (State.init inp) Known.none
  | item {its s e s' Δ} : Traced cf inp its s Δ → step cf s = .item (.ok e) s' → Traced cf inp (its ++ [.ok e]) s' Δ
  /-- a text with only white space -/
  | blank {its s s' Δ c A B} : Traced cf inp its s Δ → s.stack = .sub c A :: B → trimStart c.cs = [] → step cf s = .again s' → Traced cf inp its s' Δ
  | text {its s s' Δ c A B m r Δ'} : Traced cf inp its s Δ → s.stack = .sub c A :: B → trimStart c.cs ≠ [] →
      Acts (A.map fun a => a.max - a.count) Δ c.cs (.right m r Δ') → step cf s = .again s' → Traced cf inp its s' Δ'

theorem step_keeps {cf : Cfg} {s s' : State} {e : Event} (h : step cf s = .item (.ok e) s') : s'.macros = s.macros := by
  unfold step at h
  split at h
  · cases h
  · cases h; rfl
  · split at h
    · cases h
    · split at h
      · cases h
      · split at h <;> cases h
      · split at h <;> cases h

theorem blank_keeps {cf : Cfg} {s s' : State} {c : Sl} {A : Option AlignCount} {B : List Instr} (hs : s.stack = .sub c A :: B) (he : trimStart c.cs = [])
    (h : step cf s = .again s') : s'.macros = s.macros := by
  unfold step at h
  rw [hs] at h
  simp only at h
  rw [if_pos (by simp [he])] at h
  cases h
  rfl

theorem Traced.spec {cf : Cfg} {inp : Str} {its : List Item} {s : State} {Δ : Known} (h : Traced cf inp its s Δ) :
    Exec cf (State.init inp) its s ∧ NoErr its ∧ Stores cf s.macros Δ := by
  induction h with
  | new => exact ⟨.init, by simp [NoErr], stores_none⟩
  | item _ h ih =>
    obtain ⟨h1, h2, h3⟩ := ih
    refine ⟨h1.item h, ?_, by rw [step_keeps h]; exact h3⟩
    intro i hi
    rcases List.mem_append.1 hi with hi | hi
    · exact h2 i hi
    · simp at hi; exact ⟨_, hi⟩
  | blank _ hs he h ih =>
    obtain ⟨h1, h2, h3⟩ := ih
    exact ⟨h1.again h, h2, by rw [blank_keeps hs he h]; exact h3⟩
  | text _ hs hne ha h ih =>
    obtain ⟨h1, h2, h3⟩ := ih
    refine ⟨h1.again h, h2, ?_⟩
    rcases step_sound h1 h2 hs hne h3 ha with ⟨pre, c', A', D', sp', e, -, h4⟩ | ⟨ctx, s2, e⟩
    · rw [h] at e
      cases e
      exact h4
    · rw [h] at e
      cases e

/-- An element that gives an error: the parser yields it. Otherwise the limit for expansions is reached. -/
theorem C62_wrong (cf : Cfg) (inp : Str) (its : List Item) (s : State) (Δ : Known) (h : Traced cf inp its s Δ) (c : Sl) (A : Option AlignCount) (B : List Instr)
    (hs : s.stack = .sub c A :: B) (hne : trimStart c.cs ≠ []) (k : ErrorKind) (ha : Acts (A.map fun a => a.max - a.count) Δ c.cs (.wrong k)) :
    ∃ l ctx s', step cf s = .item (.err l ctx) s' ∧ (l = k ∨ l = .macroRecursionLimit) := by
  obtain ⟨h1, h2, h3⟩ := h.spec
  rcases step_sound h1 h2 hs hne h3 ha with ⟨ctx, s', e⟩ | ⟨ctx, s', e⟩
  · exact ⟨_, _, _, e, .inl rfl⟩
  · exact ⟨_, _, _, e, .inr rfl⟩

/-- An element that is right: the parser goes on with the text after it, once it is done with what the element stands for, and below it everything is as it
was. Otherwise the limit for expansions is reached. -/
theorem C62_right (cf : Cfg) (inp : Str) (its : List Item) (s : State) (Δ : Known) (h : Traced cf inp its s Δ) (c : Sl) (A : Option AlignCount) (B : List Instr)
    (hs : s.stack = .sub c A :: B) (hne : trimStart c.cs ≠ []) (m : Marks) (r : Str) (Δ' : Known)
    (ha : Acts (A.map fun a => a.max - a.count) Δ c.cs (.right m r Δ')) :
    (∃ s', step cf s = .again s' ∧ Traced cf inp its s' Δ' ∧ ∃ pre c' A', s'.stack = pre ++ .sub c' A' :: B ∧ c'.cs = r) ∨
    ∃ ctx s', step cf s = .item (.err .macroRecursionLimit ctx) s' := by
  obtain ⟨h1, h2, h3⟩ := h.spec
  rcases step_sound h1 h2 hs hne h3 ha with ⟨pre, c', A', D', sp', e, h4, -⟩ | h4
  · exact .inl ⟨_, e, .text h hs hne ha e, pre, c', A', rfl, h4⟩
  · exact .inr h4

/-- There is no other possibility: when the parser neither panics nor reaches the limit for expansions, what it does is what comes of the element. -/
theorem C62_either (cf : Cfg) (ho : cf.overflowChecks = true) (inp : Str) (its : List Item) (s : State) (Δ : Known) (h : Traced cf inp its s Δ) (c : Sl)
    (A : Option AlignCount) (B : List Instr) (hs : s.stack = .sub c A :: B) (hne : trimStart c.cs ≠ []) :
    (∃ p, step cf s = .panic p) ∨ (∃ ctx s', step cf s = .item (.err .macroRecursionLimit ctx) s') ∨
    (∃ k ctx s', step cf s = .item (.err k ctx) s' ∧ Acts (A.map fun a => a.max - a.count) Δ c.cs (.wrong k)) ∨
    ∃ m r Δ' s' pre c' A', step cf s = .again s' ∧ Acts (A.map fun a => a.max - a.count) Δ c.cs (.right m r Δ') ∧
      s'.stack = pre ++ .sub c' A' :: B ∧ c'.cs = r := by
  obtain ⟨h1, h2, h3⟩ := h.spec
  by_cases hp : ∃ p, step cf s = .panic p
  · exact .inl hp
  · rcases step_total h1 h2 hs hne h3 ho (fun p e => hp ⟨p, e⟩) with ⟨e, ha, hd⟩ | hl
    · cases e with
      | wrong k =>
        obtain ⟨ctx, s', e⟩ := hd
        exact .inr (.inr (.inl ⟨k, ctx, s', e, ha⟩))
      | right m r Δ' =>
        obtain ⟨pre, c', A', D', sp', e, h4, -⟩ := hd
        exact .inr (.inr (.inr ⟨m, r, Δ', _, pre, c', A', e, ha, rfl, h4⟩))
    · exact .inr (.inl hl)

/-- Every run without an error is made of such steps. -/
theorem C62_run (cf : Cfg) (ho : cf.overflowChecks = true) (inp : Str) (its : List Item) (s : State) (h : Reached cf inp its s) (hn : NoErr its) :
    ∃ Δ, Traced cf inp its s Δ := by
  induction h with
  | new => exact ⟨_, .new⟩
  | @item its s i s' h e ih =>
    obtain ⟨Δ, h1⟩ := ih fun j hj => hn j (by simp [hj])
    obtain ⟨ev, rfl⟩ := hn i (by simp)
    exact ⟨Δ, h1.item e⟩
  | @again its s s' h e ih =>
    obtain ⟨Δ, h1⟩ := ih hn
    cases hs : s.stack with
    | nil => unfold step at e; rw [hs] at e; cases e
    | cons x B =>
      cases x with
      | ev x => unfold step at e; rw [hs] at e; cases e
      | sub c A =>
        by_cases hne : trimStart c.cs = []
        · exact ⟨Δ, h1.blank hs hne e⟩
        · rcases C62_either cf ho inp its s Δ h1 c A B hs hne with ⟨p, e'⟩ | ⟨ctx, s2, e'⟩ | ⟨k, ctx, s2, e', -⟩ | ⟨m, r, Δ', s2, pre, c', A', e', ha, -⟩
          · rw [e] at e'; cases e'
          · rw [e] at e'; cases e'
          · rw [e] at e'; cases e'
          · exact ⟨Δ', h1.text hs hne ha e⟩

/-- The first error of any input is the limit for expansions, or the one that the element at hand gives. -/
theorem C62_first (cf : Cfg) (ho : cf.overflowChecks = true) (inp : Str) (its : List Item) (s s' : State) (h : Reached cf inp its s) (hn : NoErr its)
    (k : ErrorKind) (ctx : Str) (e : step cf s = .item (.err k ctx) s') : k = .macroRecursionLimit ∨
    ∃ Δ c A B, Traced cf inp its s Δ ∧ s.stack = .sub c A :: B ∧ Acts (A.map fun a => a.max - a.count) Δ c.cs (.wrong k) := by
  obtain ⟨Δ, h1⟩ := C62_run cf ho inp its s h hn
  cases hs : s.stack with
  | nil => unfold step at e; rw [hs] at e; cases e
  | cons x B =>
    cases x with
    | ev x => unfold step at e; rw [hs] at e; cases e
    | sub c A =>
      by_cases hne : trimStart c.cs = []
      · unfold step at e
        rw [hs] at e
        simp only at e
        rw [if_pos (by simp [hne])] at e
        cases e
      · rcases C62_either cf ho inp its s Δ h1 c A B hs hne with ⟨p, e'⟩ | ⟨ctx, s2, e'⟩ | ⟨k, ctx, s2, e', ha⟩ | ⟨m, r, Δ', s2, pre, c', A', e', ha, -⟩
        · rw [e] at e'; cases e'
        · rw [e] at e'; cases e'; exact .inl rfl
        · rw [e] at e'; cases e'; exact .inr ⟨Δ, c, A, B, h1, rfl, ha⟩
        · rw [e] at e'; cases e'

/-- Two effects of the same kind. -/
def Same : Effect → Effect → Prop
  | .right _ r _, .right _ r' _ => r = r'
  | .wrong k, .wrong k' => k = k'
  | _, _ => False

/-- One thing comes of an element, unless the limit for expansions is reached. -/
theorem C62_unique (cf : Cfg) (inp : Str) (its : List Item) (s : State) (Δ : Known) (h : Traced cf inp its s Δ) (c : Sl) (A : Option AlignCount) (B : List Instr)
    (hs : s.stack = .sub c A :: B) (hne : trimStart c.cs ≠ []) (hl : ∀ ctx s', step cf s ≠ .item (.err .macroRecursionLimit ctx) s') (e e' : Effect)
    (he : Acts (A.map fun a => a.max - a.count) Δ c.cs e) (he' : Acts (A.map fun a => a.max - a.count) Δ c.cs e') : Same e e' := by
  obtain ⟨h1, h2, h3⟩ := h.spec
  have hl : ¬ Limit cf s := by rintro ⟨ctx, s', e⟩; exact hl _ _ e
  have d := (step_sound h1 h2 hs hne h3 he).resolve_right hl
  have d' := (step_sound h1 h2 hs hne h3 he').resolve_right hl
  cases e with
  | wrong k =>
    obtain ⟨ctx, s1, e1⟩ := d
    cases e' with
    | wrong k' =>
      obtain ⟨ctx, s1, e2⟩ := d'
      rw [e1] at e2; cases e2
      rfl
    | right m r Δ' =>
      obtain ⟨pre, c', A', D', sp', e2, -⟩ := d'
      rw [e1] at e2; cases e2
  | right m r Δ1 =>
    obtain ⟨pre, c1, A1, D1, sp1, e1, h4, -⟩ := d
    cases e' with
    | wrong k' =>
      obtain ⟨ctx, s1, e2⟩ := d'
      rw [e1] at e2; cases e2
    | right m r Δ' =>
      obtain ⟨pre', c', A', D', sp', e2, h5, -⟩ := d'
      rw [e1] at e2
      simp only [Step.again.injEq, State.mk.injEq] at e2
      have h6 := List.append_inj_right' e2.1 (by simp)
      cases h6
      exact h4.symm.trans h5

/-- After a text that is right, an element that gives an error: the events of the text, then the error. The only other thing that can happen is that the limit for
expansions is reached. -/
theorem C62_after (cf : Cfg) (inp t : Str) (ns : Nodes) (Δ : Known) (k : ErrorKind) (h : Upto Known.none inp ns Δ t) (hw : Acts none Δ t (.wrong k)) :
    (∃ ctx s, Reached cf inp (ns.events.map .ok ++ [.err k ctx]) s) ∨
    ∃ es ctx s, es <+: ns.events ∧ Reached cf inp (es.map .ok ++ [.err .macroRecursionLimit ctx]) s := by
  simp only [reached_iff]
  exact upto_wrong cf h hw

/-! ### Cases -/

theorem chr_free {Δ : Known} (c : Char) : Δ.Free (.chr c) := fun n h => by cases h

/-- `\def\a#1{#1^2}` before `t`. -/
theorem upto_square {t : Str} (h : token (c!"\\def\\a#1{#1^2}" ++ t) = .ok (.cs c!"def") (c!"\\a#1{#1^2}" ++ t))
    (hd : DefCommand (c!"\\a#1{#1^2}" ++ t) c!"a" c!"#1" c!"#1^2" t) :
    Upto Known.none (c!"\\def\\a#1{#1^2}" ++ t) .nil (Known.none.set c!"a" (.plain [] [[]] false c!"#1^2")) t :=
  .define (ns := .nil) (ms := .nil) .nil (.def_ (name := c!"a") (pt := c!"#1") (rt := c!"#1^2") (pre := []) (ds := [[]]) (b := false) (nextTok_cs h) rfl hd
    (.plain (pre := []) (by simp) (.cons (d := []) (s := []) (by omega) (by simp) .nil))
    (.param (i := 1) (by omega) (by decide) (by omega) (.char (by decide) (.char (by decide) .nil)))) (.elements .nil)

theorem square_a : Known.none.set c!"a" (.plain [] [[]] false c!"#1^2") c!"a" = some (.plain [] [[]] false c!"#1^2") := by simp [Known.set]

/-- The call of a macro without its argument. -/
example (cf : Cfg) : (∃ ctx s, Reached cf c!"\\def\\a#1{#1^2}\\a " [.err .token ctx] s) ∨
    ∃ es ctx s, es <+: [] ∧ Reached cf c!"\\def\\a#1{#1^2}\\a " (es.map .ok ++ [.err .macroRecursionLimit ctx]) s :=
  C62_after cf _ c!"\\a " .nil _ _ (upto_square (by decide +kernel) (definition_iff.1 (by decide +kernel)))
    (.badCall (name := c!"a") (t := []) (nextTok_cs (by decide +kernel)) square_a (.plain (pre := []) (.plain (fun _ => rfl) (.nothing (.blank .nil)))))

/-- A mistake made by the replacement of a macro and the text after it: two superscripts. -/
example (cf : Cfg) : (∃ ctx s, Reached cf c!"\\def\\a#1{#1^2}\\a y^2" [.err .doubleSuperscript ctx] s) ∨
    ∃ es ctx s, es <+: [] ∧ Reached cf c!"\\def\\a#1{#1^2}\\a y^2" (es.map .ok ++ [.err .macroRecursionLimit ctx]) s :=
  C62_after cf _ c!"\\a y^2" .nil _ _ (upto_square (by decide +kernel) (definition_iff.1 (by decide +kernel)))
    (.call (name := c!"a") (t := c!"y^2") (u := c!"y^2^2") (nextTok_cs (by decide +kernel)) square_a
      (.plain (pre := []) (s := c!"y^2") (args := [c!"y"]) (body := c!"y^2") (r := c!"^2")
        (.plain (fun _ => rfl) (.char (k := []) .nil (by decide) (by decide) (by decide) (by intro h; revert h; decide)) .nil)
        (.param (i := 1) (a := c!"y") (by omega) (by omega) rfl (.char (by decide) (.char (by decide) .nil))))
      (.here (.double (x := .chr 'y') (t := c!"^2^2") (m := {}) (r := c!"^2^2") (vs := []) (r' := c!"^2^2") (c := '^') (v := c!"2^2") (m' := {}) (v' := c!"2")
        (nextTok_chr (by decide +kernel)) (chr_free _) (.plain (by decide)) rfl .no ⟨[], by simp [Spaces], rfl, .inl rfl⟩
        (.operandToken (x := .chr '2') (t := c!"^2") ⟨nextTok_chr (by decide +kernel), noBrace (by decide)⟩ (.digit (by decide))))))

/-- A fraction takes two arguments, and `c` comes next. -/
theorem acts_frac : Acts none Known.none c!"\\frac{a}b c" (.right {} c!"c" Known.none) :=
  .here (.plain (x := .cs c!"frac") (t := c!"{a}b c") (m := {}) (r := c!" c") (vs := []) (w := c!" ") (u := c!"c") (nextTok_cs (by decide +kernel)) (free _)
    (.command (m := {}) (ns := [.operand, .operand]) (e := .right {} c!" c" Known.none)
      (by rw [show primOf c!"frac" = .frac none none none none from by decide +kernel]; rfl)
      (.cons (m := {}) (e := .right {} c!" c" Known.none) (.operandGroup (g := c!"a") (r := c!"b c") (braceArgument_iff.1 (by decide +kernel)))
        (.cons (m := {}) (e := .right {} c!" c" Known.none) (.operandToken (x := .chr 'b') (t := c!" c") ⟨nextTok_chr (by decide +kernel), noBrace (by decide)⟩ (.plain (by decide)))
          .nil))) rfl .no (by unfold Spaces; decide) (by intro c v h; cases h; decide))

example : (∃ s', step cf0 (State.init c!"\\frac{a}b c") = .again s' ∧ Traced cf0 c!"\\frac{a}b c" [] s' Known.none ∧
      ∃ pre c' A', s'.stack = pre ++ [.sub c' A'] ∧ c'.cs = c!"c") ∨
    ∃ ctx s', step cf0 (State.init c!"\\frac{a}b c") = .item (.err .macroRecursionLimit ctx) s' :=
  C62_right cf0 _ [] _ Known.none .new _ none [] rfl (by decide +kernel) _ _ _ acts_frac

/-- Nothing else comes of it. -/
example (e : Effect) (h : Acts none Known.none c!"\\frac{a}b c" e) : Same (.right {} c!"c" Known.none) e :=
  C62_unique cf0 _ [] _ Known.none .new ⟨0, blen c!"\\frac{a}b c", c!"\\frac{a}b c"⟩ none [] rfl (by decide +kernel)
    (by intro ctx s' h; have : (match step cf0 (State.init c!"\\frac{a}b c") with | .again _ => true | _ => false) = true := by decide +kernel
        rw [h] at this; cases this) _ _ acts_frac h

/-- A run with an error and the effect behind it. -/
example : ∃ k ctx s', step cf0 (State.init c!"\\frac}") = .item (.err k ctx) s' ∧ Acts none Known.none c!"\\frac}" (.wrong k) := by
  rcases C62_either cf0 rfl c!"\\frac}" [] _ _ .new ⟨0, blen c!"\\frac}", c!"\\frac}"⟩ none [] rfl (by decide +kernel) with ⟨p, e⟩ | ⟨ctx, s', e⟩ | h | ⟨m, r, Δ', s', pre, c', A', e, -⟩
  · have : (match step cf0 (State.init c!"\\frac}") with | .item (.err (.unbalancedGroup none) _) _ => true | _ => false) = true := by decide +kernel
    rw [e] at this; cases this
  · have : (match step cf0 (State.init c!"\\frac}") with | .item (.err (.unbalancedGroup none) _) _ => true | _ => false) = true := by decide +kernel
    rw [e] at this; cases this
  · exact h
  · have : (match step cf0 (State.init c!"\\frac}") with | .item (.err (.unbalancedGroup none) _) _ => true | _ => false) = true := by decide +kernel
    rw [e] at this; cases this

end PL.Props
