import Verif.Spec.Report
import Verif.Lemmas.Report
import Verif.Lemmas.Sim
import Verif.Props.Stream
import Verif.Model.Display
set_option autoImplicit false
/-! # What error reports show -/
namespace PL.Props
open PL PL.Lex Spec

/-! ### Helpers -/

theorem linesOf_go {f : Str → Str} (hf : ∀ l : Str, f l = if l.getLast? = some '\r' then l.dropLast else l) :
    ∀ (s acc : Str), '\n' ∉ acc → ∃ ls, linesOf.go f acc s = ls ∧ Lines (acc.reverse ++ s) ls
  | [], acc, h => by
    unfold linesOf.go
    split
    · rename_i he
      have : acc = [] := by simpa using he
      subst this
      exact ⟨_, rfl, .nil⟩
    · rename_i he
      exact ⟨_, rfl, by simpa using .last (by simpa using he) (by simpa using h)⟩
  | c :: s, acc, h => by
    unfold linesOf.go
    split
    · rename_i hc
      subst hc
      obtain ⟨ls, e, hl⟩ := linesOf_go hf s [] (by simp)
      refine ⟨_, rfl, ?_⟩
      rw [e, hf]
      split
      · rename_i hcr
        cases acc with
        | nil => simp at hcr
        | cons d acc =>
          simp at hcr
          subst hcr
          simp at h
          have := Lines.crlf (l := acc.reverse) (by simpa using h) (by simpa using hl)
          simpa using this
      · rename_i hcr
        refine .lf (by simpa using h) ?_ (by simpa using hl)
        intro m hm
        rw [hm] at hcr
        simp at hcr
    · rename_i hc
      obtain ⟨ls, e, hl⟩ := linesOf_go hf s (c :: acc) (by simp; exact ⟨fun h => hc h.symm, h⟩)
      exact ⟨ls, e, by simpa using hl⟩

theorem linesOf_lines (s : Str) : Lines s (linesOf s) := by
  obtain ⟨ls, e, h⟩ := linesOf_go (fun _ => rfl) s [] (by simp)
  unfold linesOf
  simp only
  rw [e]
  simpa using h

theorem lastWidth_of (ls : List Str) : lastWidth ls (blen (ls.getLast?.getD [])) := by
  by_cases h : ls = []
  · subst h; exact .inl ⟨rfl, rfl⟩
  · exact .inr ⟨ls.dropLast, ls.getLast h, (List.dropLast_concat_getLast h).symm, by rw [List.getLast?_eq_some_getLast h]; rfl⟩

theorem longest_floor {p r : Str} {i : Nat} (h : floorCharBoundary (p ++ r) i = some (blen p)) : Longest i p r := by
  obtain ⟨k, e, _, h1, h2⟩ := floorCharBoundary_spec (p ++ r) i
  rw [h] at e
  cases e
  refine ⟨h1, ?_⟩
  rintro c r' rfl
  apply Classical.byContradiction
  intro hn
  have := h2 (blen (p ++ [c])) ⟨p ++ [c], r', by simp, rfl⟩ (by omega)
  have hp := c.utf8Size_pos
  simp [blen] at this
  omega

theorem window_of {text t : Str} {a b lo up : Nat} (h1 : floorCharBoundary text a = some lo)
    (h2 : floorCharBoundary text b = some up) (ht : sliceBytes text lo up = some t) :
    ∃ p, Window text a b p t ∧ blen p = lo := by
  unfold sliceBytes at ht
  split at ht
  · split at ht
    · cases ht
    · rename_i pre q hs
      obtain ⟨rfl, rfl⟩ := splitBytes_spec hs
      cases hp : splitBytes pre lo with
      | none => rw [hp] at ht; cases ht
      | some x =>
        obtain ⟨p, t'⟩ := x
        rw [hp] at ht
        cases ht
        obtain ⟨rfl, rfl⟩ := splitBytes_spec hp
        exact ⟨p, ⟨q, rfl, longest_floor (by simpa using h1), longest_floor h2⟩, rfl⟩
  · cases ht

theorem writeContextStr_eq (t p : Str) (last : Bool) :
    writeContextStr t last (decide (blen p > 0)) = c!"│\n" ++ bordered (!p.isEmpty) (linesOf t) ++ c!"│ " ++
      List.replicate (blen ((linesOf t).getLast?.getD [])) '^' ++ c!"\n" ++
      (if last then c!"╰─" ++ List.replicate (blen ((linesOf t).getLast?.getD [])) '─' else c!"├") := by
  have : decide (blen p > 0) = !p.isEmpty := by
    cases p with
    | nil => rfl
    | cons c p =>
      have := c.utf8Size_pos
      simp [blen]
      omega
  rw [this]
  unfold writeContextStr
  cases linesOf t <;> rfl

theorem contextLoop_reports (input : Str) : ∀ (es : List ExpSpan) (a b lo up : Nat) (ctx out : Str),
    floorCharBoundary (topText input es) a = some lo → floorCharBoundary (topText input es) b = some up →
    (∀ e t, es = e :: t → a ≤ e.expLen ∧ Nested t e.callStart) →
    contextLoop input es lo up ctx = .ok out → ∃ r, out = ctx ++ r ∧ Reports input es a b r
  | [], a, b, lo, up, ctx, out, h1, h2, _, h => by
    unfold contextLoop at h
    split at h
    · cases h
    · rename_i t ht
      cases h
      obtain ⟨p, hw, rfl⟩ := window_of h1 h2 ht
      refine ⟨_, rfl, ?_⟩
      rw [writeContextStr_eq]
      simpa using Reports.input (input := input) hw (linesOf_lines t) (lastWidth_of _)
  | e :: es, a, b, lo, up, ctx, out, h1, h2, hn, h => by
    obtain ⟨hn1, hn2⟩ := hn e es rfl
    rw [contextLoop_cons] at h
    have hlo : lo ≤ a := by
      obtain ⟨k, e', _, hk, _⟩ := floorCharBoundary_spec (topText input (e :: es)) a
      rw [h1] at e'
      cases e'
      exact hk
    rw [if_neg (by omega)] at h
    split at h
    · cases h
    · rename_i t ht
      split at h
      · rename_i lo' up' f1 f2
        obtain ⟨r, rfl, hr⟩ := contextLoop_reports input es _ _ lo' up' _ out f1 f2 (by
          rintro e' t' rfl
          have := hn2
          unfold Nested at this
          exact ⟨by unfold contextSize; omega, this.2⟩) h
        obtain ⟨p, hw, rfl⟩ := window_of (text := e.full) h1 h2 ht
        refine ⟨_, by rw [List.append_assoc, List.append_assoc], ?_⟩
        rw [writeContextStr_eq]
        have := Reports.call hw (linesOf_lines t) (lastWidth_of _) hr
        simpa using this
      · cases h

theorem errorContext_reports {cf : Cfg} {sp sp' : Spans} {place i : Nat} {ctx : Str} (hr : sp.reach cf place = some (i, sp'))
    (h : ∃ x, errorContext cf sp place = .ok (ctx, x)) (hn : Nested sp'.exps i) :
    ∃ r, ctx = c!"╭─► context:\n" ++ r ∧ Reports sp'.input sp'.exps (i - 12) (i + 12) r := by
  obtain ⟨x, h⟩ := h
  rw [errorContext_eq hr] at h
  split at h
  · rename_i lo up f1 f2
    split at h
    · rename_i ctx' hl
      cases h
      refine contextLoop_reports sp'.input sp'.exps _ _ lo up _ _ f1 f2 ?_ hl
      intro e t he
      rw [he] at hn
      unfold Nested at hn
      exact ⟨by omega, hn.2⟩
    · cases h
  · cases h

/-- An error item comes from a failing activation. -/
theorem step_err {cf : Cfg} {s s' : State} {e : ErrorKind} {ctx : Str} (h : step cf s = .item (.err e ctx) s') :
    ∃ (st : PSt) (rest : List Instr), errorContext cf st.sp (st.h.content.ptr cf) = .ok (ctx, s'.sp) ∧ s'.stack = .sub st.h.content st.h.align :: rest := by
  unfold step at h
  split at h
  · cases h
  · cases h
  · split at h
    · cases h
    · split at h
      · cases h
      · rename_i st _
        split at h
        · cases h
        · rename_i hctx
          cases h
          exact ⟨st, _, hctx, rfl⟩
      · split at h <;> cases h

/-! ## C59 -/

/-- Every report shows windows of twenty-four bytes around the place at which parsing goes on, and around the calls of
macros that lead there, as long as these are nested (each place is inside of the replacement text, or at most twelve bytes
behind). `i` is the offset of the place in the innermost text. -/
theorem C59_nested_partial (cf : Cfg) (s s' : State) (e : ErrorKind) (ctx : Str) (h : step cf s = .item (.err e ctx) s') :
    ∃ x A rest i, s'.stack = .sub x A :: rest ∧
      x.ptr cf = (match s'.sp.exps with | [] => cf.addr 0 | e :: _ => cf.addr e.id) + i ∧
      (Nested s'.sp.exps i → ∃ r, ctx = c!"╭─► context:\n" ++ r ∧ Reports s'.sp.input s'.sp.exps (i - 12) (i + 12) r) := by
  obtain ⟨st, rest, hctx, hst⟩ := step_err h
  cases hr : st.sp.reach cf (st.h.content.ptr cf) with
  | none => rw [errorContext_none hr] at hctx; cases hctx
  | some y =>
    obtain ⟨i, sp'⟩ := y
    have hsp : sp' = s'.sp := by
      have := hctx
      rw [errorContext_eq hr] at this
      split at this
      · split at this
        · cases this; rfl
        · cases this
      · cases this
    subst hsp
    refine ⟨_, _, rest, i, hst, ?_, fun hn => errorContext_reports hr ⟨_, hctx⟩ hn⟩
    unfold Spans.reach at hr
    cases hl : reachLoop cf st.sp.input (st.h.content.ptr cf) st.sp.exps with
    | none => rw [hl] at hr; cases hr
    | some x =>
      obtain ⟨k, es⟩ := x
      rw [hl] at hr
      simp at hr
      obtain ⟨rfl, e2⟩ := hr
      rw [← e2]
      exact (reachLoop_some hl).2.2

/-- A text without macro definitions: the report shows the part of the input around the place at which parsing goes on. -/
theorem C59_window (cf : Cfg) (inp : Str) (its : List Item) (s s' : State) (h : Reached cf inp its s) (hn : ¬ Defines inp)
    (e : ErrorKind) (ctx : Str) (hs : step cf s = .item (.err e ctx) s') :
    ∃ x A rest u v p t ls n, s'.stack = .sub x A :: rest ∧ inp = u ++ x.cs ++ v ∧
      Window inp (blen u - 12) (blen u + 12) p t ∧ Lines t ls ∧ lastWidth ls n ∧
      ctx = c!"╭─► context:\n│\n" ++ bordered (!p.isEmpty) ls ++ c!"│ " ++ List.replicate n '^' ++ c!"\n╰─" ++ List.replicate n '─' := by
  have hb := ((reached_exec h).item hs).base
  obtain ⟨x, A, rest, i, h1, h2, h3⟩ := C59_nested_partial cf s s' e ctx hs
  obtain ⟨_, hex, hsub⟩ := hb.nodef hn
  rw [hex] at h2 h3
  obtain ⟨r, hr, hrep⟩ := h3 trivial
  have hx := hsub x A (by simp [h1])
  obtain ⟨e1, u, v, e2, e3⟩ := hx
  have hi : s'.sp.input = inp := hb.input
  simp only [whole] at e1 e2 e3
  have hiu : i = blen u := by
    simp only [Sl.ptr, Sl.start, e1] at h2
    rw [e2] at e3
    simp at e3
    omega
  subst hiu
  rw [hi] at hrep
  generalize hes : ([] : List ExpSpan) = es at hrep
  cases hrep with
  | call => cases hes
  | input hw hl hn' => exact ⟨x, A, rest, u, v, _, _, _, _, h1, e2, hw, hl, hn', by rw [hr]; simp⟩

/-- Two places one after the other are not nested: a place more than twelve bytes behind the replacement text. The window is then moved on
by the place of the call although the replacement text is longer than the call: the report shows nothing of what failed. -/
theorem C59_false : (run cf0 400 (State.init c!"\\def\\m{aaaaaaaaaaaaaaaaaaaaaaaaaaaaaa}\\m bbbbbbbbbbbbbbbbbb\\err c d e f g h i j k")).1.find? (fun
      | .err _ _ => true
      | .ok _ => false) = some (.err .unknownPrimitive c!"╭─► context:\n│\n│… k\n│ ^^\n╰───") := by decide +kernel

/-- The underline is as long as the number of bytes, not of characters: here nine characters and thirteen marks. -/
theorem C59_false_width : (run cf0 400 (State.init c!"éé\\err éé")).1.find? (fun
      | .err _ _ => true
      | .ok _ => false) = some (.err .unknownPrimitive c!"╭─► context:\n│\n│ éé\\err éé\n│ ^^^^^^^^^^^^^\n╰──────────────") := by decide +kernel

/-- A case of `C59_window`: three lines, and the text goes on after the window. -/
example : ¬ Defines c!"a\nb\n\\err c d e f g h i j k" ∧
    (run cf0 400 (State.init c!"a\nb\n\\err c d e f g h i j k")).1.find? (fun
      | .err _ _ => true
      | .ok _ => false) = some (.err .unknownPrimitive c!"╭─► context:\n│\n│ a\n│ b\n│ \\err c d e f g h \n│ ^^^^^^^^^^^^^^^^^\n╰──────────────────") := by
  constructor
  · unfold Defines; decide
  · decide +kernel

/-- A case of `C59_nested_partial`: a mistake in a macro used in another one. -/
example : (run cf0 400 (State.init c!"\\def\\n{\\err.}\\def\\m{q\\n.}ab\\m c")).1.find? (fun
      | .err _ _ => true
      | .ok _ => false) = some (.err .unknownPrimitive (c!"╭─► context:\n│\n│ \\err..c\n│ ^^^^^^^\n├─► which was expanded from:\n" ++
        c!"│\n│ q\\n.c\n│ ^^^^^\n├─► which was expanded from:\n│\n│…ef\\m{q\\n.}ab\\m c\n│ ^^^^^^^^^^^^^^^^\n╰─────────────────")) := by decide +kernel

/-! ### Messages -/

/-- The displayed text of an error: its message on the first line, then the report. -/
theorem C59_text (e : ErrorKind) (context : Str) : errorText e context = c!"parsing error: " ++ e.message ++ '\n' :: context ∧ '\n' ∉ e.message := by
  constructor
  · simp [errorText]
  · have dec : ∀ n, '\n' ∉ Mathml.decStr n := by
      intro n h
      have := Nat.isDigit_of_mem_toDigits (by omega) (by omega) (n := n) (c := '\n') (b := 10) (by simpa [Mathml.decStr] using h)
      revert this; decide
    cases e with
    | unbalancedGroup k =>
      cases k with
      | none => decide
      | some k =>
        have : '\n' ∉ k.closingStr := by
          cases k with
          | matrix ty b => cases ty <;> cases b <;> decide
          | cases l b => cases l <;> cases b <;> decide
          | array b => cases b <;> decide
          | equation b => cases b <;> decide
          | align b => cases b <;> decide
          | alignat b => cases b <;> decide
          | gather b => cases b <;> decide
          | _ => decide
        simp only [ErrorKind.message, List.mem_append, not_or]
        exact ⟨⟨by decide, this⟩, by decide⟩
    | incorrectMacroParams f x =>
      simp only [ErrorKind.message, List.mem_append, not_or]
      exact ⟨⟨⟨by decide, dec _⟩, by decide⟩, dec _⟩
    | incorrectReplacementParams f x =>
      simp only [ErrorKind.message, List.mem_append, not_or]
      exact ⟨⟨⟨⟨by decide, dec _⟩, by decide⟩, dec _⟩, by decide⟩
    | _ => decide

/-- The message names the mistake. -/
theorem C59_words (e : ErrorKind) : ∀ w ∈ words e, w <:+: e.message := by
  cases e with
  | unbalancedGroup k =>
    cases k with
    | none => decide
    | some k =>
      intro w hw
      simp only [words, List.mem_singleton] at hw
      subst hw
      exact ⟨c!"unbalanced group found, expected it to be ", [], by simp [ErrorKind.message]⟩
  | incorrectMacroParams f x =>
    intro w hw
    simp only [words, List.mem_singleton] at hw
    subst hw
    exact ⟨c!"macro definition ", [], by simp [ErrorKind.message, Mathml.decStr]⟩
  | incorrectReplacementParams f x =>
    intro w hw
    simp only [words, List.mem_singleton] at hw
    subst hw
    exact ⟨c!"macro definition ", [], by simp [ErrorKind.message, Mathml.decStr]⟩
  | _ => decide

/-- Two messages show format strings instead of the text that was meant. -/
theorem C59_false_braces : ErrorKind.groupArgument.message = c!"expected an argument delimited by `{{}}`" ∧
    ErrorKind.bracesInParamText.message = c!"macro definition of parameters contains '{{' or '}}'" := ⟨rfl, rfl⟩

end PL.Props
