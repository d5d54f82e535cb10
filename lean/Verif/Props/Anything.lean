import Verif.Lemmas.Render.Any
import Verif.Model.Display
import Verif.Props.Balanced
set_option autoImplicit false
/-!
# Rendering any items (C29, C33)
-/
namespace PL.Props
open PL PL.Mathml Spec

/-- Everything up to the end of the formula. -/
theorem inner_any (cfg : RCfg) (items : List RItem) (ha : ∀ cols, .ok (.begin_ (.array cols)) ∈ items → cols.any isColumn = true) :
    pw (Allowed cfg items) (inner cfg) (fun _ s' => SafeAll cfg items → markB s'.out = true) (core (initSt items [] none)) := by
  unfold inner
  refine pw_bind (.inl ((wp_get ..).2 ?_))
  refine pw_bind ?_
  refine pw_mono (any_mainLoop ha _ _ (by simp [core, initSt]) ⟨rfl, ?_⟩) ?_
  · refine ⟨?_, fun _ => rfl, rfl, ?_⟩
    · intro i hi; simpa [core, initSt] using hi
    · intro e he; cases he
  rintro _ ⟨p, r, o, b, env, sts, pv, rc⟩ ⟨hb, h⟩
  cases hb
  dsimp only at h
  have fin : ∀ s : RSt, s.budget = none → (SafeAll cfg items → markB s.out = true) → wp (do
      let s ← W.get
      if !s.env.isEmpty || s.sts.length ≠ 1 then
        cleanup s.env
        W.modify fun s => { s with sts := s.sts.drop (s.sts.length - 1) }) (fun _ s' => SafeAll cfg items → markB s'.out = true) s := by
    intro s hs hm
    rw [wp_bind, wp_get]
    split
    · rw [wp_bind]
      refine wp_mono (any_cleanup s.env s hs) ?_
      rintro _ s' ⟨-, t, h1, h2⟩
      rw [wp_modify]
      intro hx
      rw [show (_ : RSt).out = s'.out from rfl, h2]
      exact markB_append (hm hx) h1.starts h1.mark
    · exact (wp_pure _ _ _).2 hm
  refine .inl ?_
  rw [wp_bind, wp_get]
  split
  · rw [wp_bind, wp_get, wp_bind]
    refine wp_mono (any_cleanup env _ rfl) ?_
    rintro _ s' ⟨h0, t, h1, h2⟩
    refine fin s' h0 fun hx => ?_
    rw [h2]
    exact markB_append (h.out hx) h1.starts h1.mark
  · exact fin _ rfl h.out

/-- The whole output. -/
theorem push_any (cfg : RCfg) (items : List RItem) (ha : ∀ cols, .ok (.begin_ (.array cols)) ∈ items → ∃ c ∈ cols, isColumn c = true)
    (target : Str) : (∃ body, pushMathml cfg items target = .ok (target ++ (frameStart cfg ++ body ++ frameEnd cfg)) ∧ (SafeAll cfg items → markB body = true)) ∨
      ∃ p, pushMathml cfg items target = .panic p ∧ Allowed cfg items p := by
  have e : core (initSt items target none) = core (initSt items [] none) := rfl
  rcases inner_any cfg items (fun cols h => by simpa using ha cols h) with ⟨a, s', h1, h2⟩ | ⟨p, h1, h2⟩
  · refine .inl ⟨s'.out, ?_, h2⟩
    rw [pushMathml, render, write_none cfg (initSt items target none) rfl, e, h1]
    simp [initSt]
  · refine .inr ⟨p, ?_, h2⟩
    rw [pushMathml, render, write_none cfg (initSt items target none) rfl, e, h1]

/-! ## C29: rendering any parse -/

/-- Rendering any items, errors included, returns, except that an alignment in an array may panic, and with overflow
checks an alignment in an `alignat` of at least 32767 pairs. Missing: that the first of these does not happen, which is
false, see `C29_false`. -/
theorem C29_items_partial (cfg : RCfg) (items : List RItem)
    (ha : ∀ cols, .ok (.begin_ (.array cols)) ∈ items → ∃ c ∈ cols, isColumn c = true) (target : Str) :
    (∃ text, pushMathml cfg items target = .ok text) ∨
    (pushMathml cfg items target = .panic .index ∧ (∃ cols, .ok (.begin_ (.array cols)) ∈ items) ∧ .ok (.flow .alignment) ∈ items) ∨
    (pushMathml cfg items target = .panic .overflow ∧ cfg.checks = true ∧
      ∃ k ≥ 32767, (∃ b, .ok (.begin_ (.alignat k b)) ∈ items) ∨ .ok (.begin_ (.alignedat k)) ∈ items) := by
  rcases push_any cfg items ha target with ⟨body, h, -⟩ | ⟨p, h, ⟨rfl, h1⟩ | ⟨rfl, h1⟩⟩
  · exact .inl ⟨_, h⟩
  · exact .inr (.inl ⟨h, h1⟩)
  · exact .inr (.inr ⟨h, h1⟩)

theorem shown_ok {its : List Item} {e : Event} : .ok e ∈ its.map Item.shown ↔ .ok e ∈ its := by
  constructor
  · intro h
    obtain ⟨i, hi, e'⟩ := List.mem_map.1 h
    cases i with
    | ok e'' => cases e'; exact hi
    | err a b => cases e'
  · intro h; exact List.mem_map.2 ⟨_, h, rfl⟩

/-- Rendering any parse, also one that is cut short, with whatever errors: only alignments in arrays, and with overflow
checks those in a very wide `alignat`, can panic. So parses without arrays do not panic in builds without overflow checks. -/
theorem C29_parse_partial (cf : Cfg) (cfg : RCfg) (inp : Str) (n : Nat) (target : Str) :
    let its := (run cf n (State.init inp)).1
    (∃ text, pushMathml cfg (its.map Item.shown) target = .ok text) ∨
    (pushMathml cfg (its.map Item.shown) target = .panic .index ∧ (∃ cols, .ok (.begin_ (.array cols)) ∈ its) ∧ .ok (.flow .alignment) ∈ its) ∨
    (pushMathml cfg (its.map Item.shown) target = .panic .overflow ∧ cfg.checks = true ∧
      ∃ k ≥ 32767, (∃ b, .ok (.begin_ (.alignat k b)) ∈ its) ∨ .ok (.begin_ (.alignedat k)) ∈ its) := by
  dsimp only
  have := C29_items_partial cfg ((run cf n (State.init inp)).1.map Item.shown)
    (fun cols h => C11_array_column cf inp n cols (shown_ok.1 h)) target
  simpa only [shown_ok] using this

/-- A parse with an error and an open group. -/
example : (match pushMathml rc0 ((run cf0 60 (State.init c!"\\left( a & \\frac{b}{\\unknown")).1.map Item.shown) [] with
      | .ok _ => true
      | _ => false) = true ∧
    (run cf0 60 (State.init c!"\\left( a & \\frac{b}{\\unknown")).1.any (fun i => match i with | .err _ _ => true | _ => false) = true := by
  decide +kernel

/-- Not every parse: after an error in a nested array the renderer goes on in the inner array, and the alignment of
the outer one has no column there. -/
theorem C29_false : ∃ its, Yields cf0 c!"\\begin{array}{ccc}\\begin{array}{c}\\mathbf\\unknown x\\end{array}& \\end{array}" its ∧
    pushMathml rc0 (its.map Item.shown) [] = .panic .index := by
  refine ⟨(run cf0 60 (State.init c!"\\begin{array}{ccc}\\begin{array}{c}\\mathbf\\unknown x\\end{array}& \\end{array}")).1,
    ⟨60, by decide +kernel⟩, by decide +kernel⟩

/-! ## C33: markup in the input -/

theorem frame_pc {cfg : RCfg} (hc : SafeCfg cfg) : (∃ a, frameStart cfg = a ++ ['>'] ∧ markB a = true) ∧ Pc (frameEnd cfg) := by
  constructor
  · refine ⟨(frameStart cfg).dropLast, ?_⟩
    unfold frameStart
    cases cfg.block <;> cases cfg.xml <;> cases cfg.annotation <;> exact ⟨rfl, rfl⟩
  · unfold frameEnd
    refine .append ?_ (.lit (by decide))
    cases hx : cfg.annotation with
    | none => exact .nil
    | some a =>
      have e : c!"</mrow><annotation encoding=\"application/x-tex\">" ++ a ++ c!"</annotation></semantics>" =
        c!"</mrow><annotation encoding=\"application/x-tex\"" ++ ((c!">" ++ a) ++ c!"</annotation></semantics>") := by simp
      dsimp only
      rw [e]
      refine .append (.lit (by decide)) (.append (.plain rfl ?_) (.lit (by decide)))
      intro h
      rcases List.mem_cons.1 h with h | h
      · revert h; decide
      · exact hc.annotation a hx h

/-- The message of an error has a `<` only in its context. -/
theorem C33_message (e : ErrorKind) (context : Str) : '<' ∈ errorText e context ↔ '<' ∈ context := by
  have key : '<' ∉ e.message := by
    have d := fun n => (decStr_safe n).1
    cases e with
    | unbalancedGroup k =>
      cases k with
      | none => decide
      | some k =>
        rw [ErrorKind.message]
        have : '<' ∉ k.closingStr := by
          cases k with
          | matrix ty b => cases ty <;> cases b <;> decide
          | cases l b => cases l <;> cases b <;> decide
          | array b => cases b <;> decide
          | equation b => cases b <;> decide
          | align b => cases b <;> decide
          | alignat b => cases b <;> decide
          | gather b => cases b <;> decide
          | _ => decide
        simp only [List.mem_append, not_or]
        exact ⟨⟨by decide, this⟩, by decide⟩
    | incorrectMacroParams a b =>
      simp only [ErrorKind.message, List.mem_append, not_or]
      exact ⟨⟨⟨by decide, d a⟩, by decide⟩, d b⟩
    | incorrectReplacementParams a b =>
      simp only [ErrorKind.message, List.mem_append, not_or]
      exact ⟨⟨⟨⟨by decide, d a⟩, by decide⟩, d b⟩, by decide⟩
    | _ => decide
  constructor
  · intro h
    rw [errorText] at h
    rcases List.mem_append.1 h with h | h
    · rcases List.mem_append.1 h with h | h
      · rcases List.mem_append.1 h with h | h
        · exact absurd h (by decide)
        · exact absurd h key
      · exact absurd h (by decide)
    · exact h
  · intro h; rw [errorText]; exact List.mem_append_right _ h

/-- The annotation, the error messages and all but the text contents of events being without `<`, every `<` in the output
is written by the renderer: it begins a start or end tag of one of its elements. Text contents are arbitrary. Missing:
that the other parts need not be without `<`, which is false, see `C33_false`. -/
theorem C33_marked_partial (cfg : RCfg) (hc : SafeCfg cfg) (items : List RItem)
    (ha : ∀ cols, .ok (.begin_ (.array cols)) ∈ items → ∃ c ∈ cols, isColumn c = true)
    (hs : ∀ e, .ok e ∈ items → SafeEvent e) (he : ∀ m, .err m ∈ items → '<' ∉ m) (target all : Str)
    (h : pushMathml cfg items target = .ok all) : ∃ text, all = target ++ text ∧ Marked text := by
  rcases push_any cfg items ha target with ⟨body, h1, h2⟩ | ⟨p, h1, -⟩
  · rw [h] at h1
    cases h1
    refine ⟨_, rfl, markB_marked ?_⟩
    obtain ⟨⟨a, h3, h6⟩, h4⟩ := frame_pc hc
    have h5 : markB body = true := h2 ⟨hc.numbers, fun i hi => by cases i with | ok e => exact hs e hi | err m => exact he m hi⟩
    rw [h3, List.append_assoc, List.append_assoc]
    refine markB_append h6 (fun c r e => by cases e; rfl) ?_
    exact markB_append (s := '>' :: body) (by rw [markB, h5]; rfl) h4.starts h4.mark
  · rw [h] at h1; cases h1

/-- A case of it, with arbitrary text, an unfinished group and an error. -/
example : (∀ e, .ok e ∈ [RItem.ok (.content (.text c!"<b>&")), .ok (.begin_ .normal), .err c!"oops"] → SafeEvent e) ∧
    pushMathml rc0 [.ok (.content (.text c!"<b>&")), .ok (.begin_ .normal), .err c!"oops"] [] =
      .ok c!"<math display=\"inline\"><mtext>&lt;b&gt;&amp;</mtext><mrow><merror style=\"border-color: #b22222\"><mtext>oops</mtext></merror></math>" := by
  refine ⟨?_, by decide +kernel⟩
  intro e he
  simp only [List.mem_cons, RItem.ok.injEq, List.not_mem_nil, or_false, reduceCtorEq] at he
  rcases he with rfl | rfl <;> trivial

theorem marked_markB {t : Str} (h : Marked t) : markB t = true := by
  refine (markB_iff t).2 fun pre post e => ?_
  obtain ⟨n, hn, rest, h1, h2⟩ := h pre post e
  obtain ⟨ha, hne⟩ := names_alpha n hn
  have et := takeWhile_name ha (r := rest) h2
  rcases h1 with rfl | rfl
  · unfold nameOk
    cases n with
    | nil => exact absurd rfl hne
    | cons c n =>
      have : c ≠ '/' := by rintro rfl; simp at ha
      split
      · rename_i hs'; cases hs'; exact absurd rfl this
      · dsimp only; rw [et]; exact decide_eq_true hn
  · show decide ((n ++ rest).takeWhile Char.isAlpha ∈ elementNames) = true
    rw [et]; exact decide_eq_true hn

/-- Whether the output is not as claimed. -/
def injected : Out → Bool
  | .ok text => !markB text
  | _ => false

theorem injected_spec {r : Out} (h : injected r = true) : ∃ text, r = .ok text ∧ ¬ Marked text := by
  cases r with
  | ok t =>
    refine ⟨t, rfl, fun hm => ?_⟩
    rw [injected, marked_markB hm] at h; cases h
  | _ => cases h

/-- Not for all inputs: the name of an operator, relations, the context in error messages and the annotation are not
escaped. -/
theorem C33_false :
    (∃ its text, Yields cf0 c!"\\operatorname{<b>}" its ∧ pushMathml rc0 (its.map Item.shown) [] = .ok text ∧ ¬ Marked text) ∧
    (∃ its text, Yields cf0 c!"a<b" its ∧ pushMathml rc0 (its.map Item.shown) [] = .ok text ∧ ¬ Marked text) ∧
    (∃ its text, Yields cf0 c!"\\unknown\\text{<b>}" its ∧ pushMathml rc0 (its.map Item.shown) [] = .ok text ∧ ¬ Marked text) ∧
    (∃ its text, Yields cf0 c!"\\text{<b>}" its ∧ pushMathml { rc0 with annotation := some c!"\\text{<b>}" } (its.map Item.shown) [] = .ok text ∧
      ¬ Marked text) := by
  have key : ∀ (inp : Str) (cfg : RCfg), (run cf0 60 (State.init inp)).2 = .done →
      injected (pushMathml cfg ((run cf0 60 (State.init inp)).1.map Item.shown) []) = true →
      ∃ its text, Yields cf0 inp its ∧ pushMathml cfg (its.map Item.shown) [] = .ok text ∧ ¬ Marked text := by
    intro inp cfg h1 h2
    obtain ⟨text, h3, h4⟩ := injected_spec h2
    exact ⟨_, text, ⟨60, by rw [← h1]⟩, h3, h4⟩
  refine ⟨key _ _ ?_ ?_, key _ _ ?_ ?_, key _ _ ?_ ?_, key _ _ ?_ ?_⟩ <;> decide +kernel

end PL.Props
