import Verif.Lemmas.Formula.Mistakes
import Verif.Props.Formula
set_option autoImplicit false
/-!
# C60: the first mistake of a text is reported

`Spec/Mistakes.lean` says which mistakes there are and how each is named, next to the grammar of formulas. A text that is right up to a mistake yields the
events of what is right, and then the error that names the mistake.
-/
namespace PL.Props
open PL PL.Lex Spec PL.Formula

theorem reached_iff {cf : Cfg} {inp : Str} {its : List Item} {s : State} : Reached cf inp its s ↔ Exec cf (State.init inp) its s := by
  constructor
  · intro h
    induction h with
    | new => exact .init
    | item _ h ih => exact ih.item h
    | again _ h ih => exact ih.again h
  · intro h
    induction h with
    | init => exact .new
    | item _ h ih => exact ih.item h
    | again _ h ih => exact ih.again h

/-- The first mistake of a document is reported after the events of what stands before it. The only other thing that can happen is that the limit for
expansions is reached before. -/
theorem C60_first (cf : Cfg) (inp t : Str) (ns : Nodes) (Δ : Known) (k : ErrorKind) (h : Upto Known.none inp ns Δ t) (hw : Wrong Δ none (.element t) k) :
    (∃ ctx s, Reached cf inp (ns.events.map .ok ++ [.err k ctx]) s) ∨
    ∃ es ctx s, es <+: ns.events ∧ Reached cf inp (es.map .ok ++ [.err .macroRecursionLimit ctx]) s := by
  simp only [reached_iff]
  exact mistake cf h hw

/-- Wherever the parser begins to read a text, at the start of the input or of a group or cell at any depth, and whatever errors there were before: it yields
the events of what is right in the text, and then the error for the first mistake. -/
theorem C60_anywhere (cf : Cfg) (inp : Str) (hn : ¬ Defines inp) (its : List Item) (s : State) (h : Reached cf inp its s) (c : Sl)
    (A : Option AlignCount) (B : List Instr) (hs : s.stack = .sub c A :: B) (hb : s.buf = []) (ns : Nodes) (t : Str) (k : ErrorKind)
    (hr : Reads Known.none (.elements c.cs ns t)) (hw : Wrong Known.none (A.map fun a => a.max - a.count) (.element t) k) :
    ∃ ctx s', Reached cf inp (its ++ ns.events.map .ok ++ [.err k ctx]) s' := by
  rw [reached_iff] at h
  simp only [reached_iff]
  obtain ⟨stack, buf, macros, sp⟩ := s
  obtain rfl : stack = .sub c A :: B := hs
  obtain rfl : buf = [] := hb
  obtain rfl : macros = [] := (h.base.nodef hn).1
  rcases sound stores_none hr c A B sp rfl with ⟨_, h1, c1, sp1, hc1, rfl⟩ | ⟨h1, -⟩
  · obtain ⟨s1, h3, h4⟩ := h1.exec
    obtain ⟨hne, h', he⟩ := wrong_bad (cf := cf) stores_none hw c1 A B sp1 hc1 rfl
    have h5 := h.trans h3
    obtain ⟨ctx, s', h6⟩ := parse_error h5 (.inr hn) h4 hne he
    exact ⟨ctx, s', h5.item h6⟩
  · exact absurd rfl h1

/-- Without definitions, what stands before the mistake is read completely. -/
theorem C60_plain (cf : Cfg) (inp t : Str) (ns : Nodes) (k : ErrorKind) (h : Reads Known.none (.elements inp ns t)) (hw : Wrong Known.none none (.element t) k) :
    ∃ ctx s, Reached cf inp (ns.events.map .ok ++ [.err k ctx]) s := by
  simp only [reached_iff]
  rcases sound (cf := cf) stores_none h ⟨0, blen inp, inp⟩ none [] (.init inp) rfl with ⟨_, h1, c1, sp1, hc1, rfl⟩ | ⟨h1, -⟩
  · obtain ⟨s1, h3, h4⟩ := h1.exec
    obtain ⟨hne, h', he⟩ := wrong_bad (cf := cf) stores_none hw c1 none [] sp1 hc1 rfl
    obtain ⟨ctx, s', h6⟩ := parse_error h3 (.inl (noErr_ok _)) h4 hne he
    exact ⟨ctx, s', h3.item h6⟩
  · exact absurd rfl h1

/-! ### What is wrong is not right, and no other mistake comes first -/

theorem exec_head {cf : Cfg} {s s' : State} {c : List Item} (h : Exec cf s c s') : (c = [] ∧ s' = s) ∨
    (∃ i s1 c', step cf s = .item i s1 ∧ c = i :: c' ∧ Exec cf s1 c' s') ∨ ∃ s1, step cf s = .again s1 ∧ Exec cf s1 c s' := by
  induction h with
  | init => exact .inl ⟨rfl, rfl⟩
  | @item its s1 i s2 h e ih =>
    rcases ih with ⟨rfl, rfl⟩ | ⟨j, s3, c', h1, rfl, h2⟩ | ⟨s3, h1, h2⟩
    · exact .inr (.inl ⟨i, s2, [], e, rfl, .init⟩)
    · exact .inr (.inl ⟨j, s3, _, h1, rfl, h2.item e⟩)
    · exact .inr (.inr ⟨s3, h1, h2.item e⟩)
  | @again its s1 s2 h e ih =>
    rcases ih with ⟨rfl, rfl⟩ | ⟨j, s3, c', h1, rfl, h2⟩ | ⟨s3, h1, h2⟩
    · exact .inr (.inr ⟨s2, e, .init⟩)
    · exact .inr (.inl ⟨j, s3, _, h1, rfl, h2.again e⟩)
    · exact .inr (.inr ⟨s3, h1, h2.again e⟩)

theorem exec_compare {cf : Cfg} {s s1 s2 : State} {a b : List Item} (h1 : Exec cf s a s1) (h2 : Exec cf s b s2) :
    (∃ c, b = a ++ c ∧ Exec cf s1 c s2) ∨ ∃ c, a = b ++ c ∧ Exec cf s2 c s1 := by
  induction h2 with
  | init => exact .inr ⟨a, rfl, h1⟩
  | @item its s3 i s4 h e ih =>
    rcases ih with ⟨c, rfl, h3⟩ | ⟨c, rfl, h3⟩
    · exact .inl ⟨c ++ [i], by simp, h3.item e⟩
    · rcases exec_head h3 with ⟨rfl, rfl⟩ | ⟨j, s5, c', h4, rfl, h5⟩ | ⟨s5, h4, h5⟩
      · exact .inl ⟨[i], by simp, Exec.init.item e⟩
      · rw [h4] at e
        cases e
        exact .inr ⟨c', by simp, h5⟩
      · rw [h4] at e
        cases e
  | @again its s3 s4 h e ih =>
    rcases ih with ⟨c, rfl, h3⟩ | ⟨c, rfl, h3⟩
    · exact .inl ⟨c, rfl, h3.again e⟩
    · rcases exec_head h3 with ⟨rfl, rfl⟩ | ⟨j, s5, c', h4, rfl, h5⟩ | ⟨s5, h4, h5⟩
      · exact .inl ⟨[], by simp, Exec.init.again e⟩
      · rw [h4] at e
        cases e
      · rw [h4] at e
        cases e
        exact .inr ⟨c, rfl, h5⟩

theorem ok_err_prefix {es fs : List Event} {k l : ErrorKind} {x y : Str} {c : List Item}
    (h : es.map Item.ok ++ [.err k x] = fs.map Item.ok ++ [.err l y] ++ c) : k = l ∧ es = fs := by
  induction es generalizing fs with
  | nil =>
    cases fs with
    | nil => simp at h; exact ⟨h.1.1, rfl⟩
    | cons f fs => simp at h
  | cons e es ih =>
    cases fs with
    | nil => simp at h
    | cons f fs =>
      simp only [List.map_cons, List.cons_append, List.cons.injEq, Item.ok.injEq] at h
      obtain ⟨rfl, h⟩ := h
      obtain ⟨h1, rfl⟩ := ih h
      exact ⟨h1, rfl⟩

/-- A text has one first mistake at most. -/
theorem C60_unique (inp t u : Str) (ns ms : Nodes) (k l : ErrorKind) (h : Reads Known.none (.elements inp ns t)) (hw : Wrong Known.none none (.element t) k)
    (h' : Reads Known.none (.elements inp ms u)) (hw' : Wrong Known.none none (.element u) l) : k = l ∧ ns.events = ms.events := by
  obtain ⟨x, s1, h1⟩ := C60_plain ⟨true, fun _ => 0⟩ inp t ns k h hw
  obtain ⟨y, s2, h2⟩ := C60_plain ⟨true, fun _ => 0⟩ inp u ms l h' hw'
  rw [reached_iff] at h1 h2
  rcases exec_compare h1 h2 with ⟨c, e, -⟩ | ⟨c, e, -⟩
  · obtain ⟨h3, h4⟩ := ok_err_prefix e
    exact ⟨h3.symm, h4.symm⟩
  · exact ok_err_prefix e

/-- A text with a mistake does not stand for a tree. -/
theorem C60_wrong (inp t : Str) (ns ms : Nodes) (k : ErrorKind) (h : Reads Known.none (.elements inp ns t)) (hw : Wrong Known.none none (.element t) k) :
    ¬ Formula inp ms := by
  intro hf
  obtain ⟨x, s1, h1⟩ := C60_plain ⟨true, fun _ => 0⟩ inp t ns k h hw
  rw [reached_iff] at h1
  obtain ⟨n, hn⟩ := C55_meaning ⟨true, fun _ => 0⟩ inp ms hf
  obtain ⟨s2, h2, h3⟩ := run_exec (cf := ⟨true, fun _ => 0⟩) n (State.init inp)
  rw [hn] at h2 h3
  dsimp only at h2 h3
  rcases exec_compare h1 h2 with ⟨c, e, -⟩ | ⟨c, e, h4⟩
  · have : Item.err k x ∈ ms.events.map Item.ok := by rw [e]; simp
    simp at this
  · rcases exec_head h4 with ⟨rfl, rfl⟩ | ⟨j, s5, c', h5, rfl, h6⟩ | ⟨s5, h5, h6⟩
    · have : Item.err k x ∈ ms.events.map Item.ok := by rw [List.append_nil] at e; rw [← e]; simp
      simp at this
    · rw [h3] at h5; cases h5
    · rw [h3] at h5; cases h5

/-! ### Cases -/

/-- `x` before `t`. -/
theorem one_x {t : Str} (h : token ('x' :: t) = .ok (.chr 'x' t) t) (hn : NoScriptAfter t) :
    Reads Known.none (.elements ('x' :: t) (.one (.content (.ordinary 'x' false))) t) :=
  .plain (ns := .one _) (x := .chr 'x') (pl := {}) (vs := []) (nextTok_chr h) (free _) (.single (.chr (by decide))) rfl .no (noScripts hn) .nil

/-- An unknown command after `x`. -/
example (cf : Cfg) : ∃ ctx s, Reached cf c!"x\\foo y" [.ok (.content (.ordinary 'x' false)), .err .unknownPrimitive ctx] s :=
  C60_plain cf _ c!"\\foo y" (.one (.content (.ordinary 'x' false))) _ (one_x (by decide +kernel) (by decide))
    (.here (x := .cs c!"foo") (t := c!"y") (nextTok_cs (by decide +kernel)) (free _) (.unknown (by decide +kernel)))

/-- A fraction without a denominator. -/
example (cf : Cfg) : ∃ ctx s, Reached cf c!"x\\frac{a}" [.ok (.content (.ordinary 'x' false)), .err .token ctx] s :=
  C60_plain cf _ c!"\\frac{a}" (.one (.content (.ordinary 'x' false))) _ (one_x (by decide +kernel) (by decide))
    (.here (x := .cs c!"frac") (t := c!"{a}") (nextTok_cs (by decide +kernel)) (free _) (.second (t := []) (pl := {}) (by decide +kernel)
      (.groupArg (g := c!"a") (braceArgument_iff.1 (by decide +kernel)) (.whole (ns := .one (.content (.ordinary 'a' false)))
        (.plain (ns := .one _) (x := .chr 'a') (t := []) (pl := {}) (vs := []) (nextTok_chr (by decide +kernel)) (free _) (.single (.chr (by decide))) rfl .no
          (noScripts (by decide)) .nil) (.blank .nil)))
      (.noArgument (.nothing (.blank .nil)))))

/-- Two superscripts. -/
example (cf : Cfg) : ∃ ctx s, Reached cf c!"x^x^x" [.err .doubleSuperscript ctx] s :=
  C60_plain cf _ c!"x^x^x" .nil _ .nil
    (.double (x := .chr 'x') (t := c!"^x^x") (n := .one (.content (.ordinary 'x' false))) (r := c!"^x^x") (pl := {}) (vs := []) (w := []) (c := '^') (v := c!"x^x")
      (m := .one (.content (.ordinary 'x' false))) (v' := c!"x") (pl' := {}) (nextTok_chr (by decide +kernel)) (free _) (.single (.chr (by decide))) rfl .no (by simp [Spaces])
      (.inl rfl) (.tokenArg (x := .chr 'x') (t := c!"^x") ⟨nextTok_chr (by decide +kernel), noBrace (by decide)⟩ (free _) (.single (.chr (by decide)))))

/-- An alignment outside of a table, a length without a unit, an environment that does not exist, and a group that is not closed. -/
example (cf : Cfg) : ∃ ctx s, Reached cf c!"x&x" [.ok (.content (.ordinary 'x' false)), .err .alignment ctx] s :=
  C60_plain cf _ c!"&x" (.one (.content (.ordinary 'x' false))) _ (one_x (by decide +kernel) (by decide))
    (.here (x := .chr '&') (t := c!"x") (nextTok_chr (by decide +kernel)) (free _) (.alignment (.inr (.inl rfl))))
example (cf : Cfg) : ∃ ctx s, Reached cf c!"x\\begin{foo}" [.ok (.content (.ordinary 'x' false)), .err .environment ctx] s :=
  C60_plain cf _ c!"\\begin{foo}" (.one (.content (.ordinary 'x' false))) _ (one_x (by decide +kernel) (by decide))
    (.here (x := .cs c!"begin") (t := c!"{foo}") (nextTok_cs (by decide +kernel)) (free _)
      (.environment (name := c!"foo") (r := []) (braceArgument_iff.1 (by decide +kernel)) (by decide +kernel)))
example (cf : Cfg) : ∃ ctx s, Reached cf c!"x\\left(x" [.ok (.content (.ordinary 'x' false)), .err (.unbalancedGroup (some .leftRight)) ctx] s :=
  C60_plain cf _ c!"\\left(x" (.one (.content (.ordinary 'x' false))) _ (one_x (by decide +kernel) (by decide))
    (.here (x := .cs c!"left") (t := c!"(x") (nextTok_cs (by decide +kernel)) (free _)
      (.leftUnclosed (l := some '(') (t := c!"x") (by decide +kernel) (.chr (c := '(') (by decide) (nextTok_chr (by decide +kernel)) rfl)
        ((C12_fail .leftRight c!"x").1 ⟨_, rfl⟩)))

/-- The same inside of a group: the group is opened, then its content is read up to the mistake. -/
example : ∃ ctx s, Reached cf0 c!"{x\\foo}" [.ok (.begin_ .normal), .ok (.content (.ordinary 'x' false)), .err .unknownPrimitive ctx] s := by
  obtain ⟨s, h1, h2, h3⟩ : ∃ s, Reached cf0 c!"{x\\foo}" [.ok (.begin_ .normal)] s ∧
      s.stack = [.sub ⟨0, 6, c!"x\\foo"⟩ none, .ev .end_, .sub ⟨0, 7, []⟩ none] ∧ s.buf = [] :=
    ⟨_, .item (.again .new rfl) rfl, by decide +kernel, by decide +kernel⟩
  exact C60_anywhere cf0 _ (by unfold Defines; decide +kernel) _ s h1 _ none _ h2 h3 (.one (.content (.ordinary 'x' false))) c!"\\foo" _
    (one_x (by decide +kernel) (by decide)) (.here (x := .cs c!"foo") (t := []) (nextTok_cs (by decide +kernel)) (free _) (.unknown (by decide +kernel)))

end PL.Props
