import Verif.Lemmas.NoTagStep
import Verif.Props.Anything
import Verif.Props.EndToEnd
set_option autoImplicit false
/-!
# Texts without the character that begins a tag (C33)
-/
namespace PL.Props
open PL PL.Mathml Spec

/-- Neither the character that begins a tag nor one of the two commands that write it. -/
structure Tagless (t : Str) : Prop where
  free : '<' ∉ t
  lt : ¬ c!"\\lt" <:+: t
  char : ¬ c!"\\char" <:+: t

instance : NoTag Tagless where
  cut a b c h := by
    have hb : b <:+: a ++ b ++ c := ⟨a, c, rfl⟩
    refine ⟨fun hm => h.free (by simp [hm]), fun hm => h.lt (hm.trans hb), fun hm => h.char (hm.trans hb)⟩
  free _ h := h.free
  lt h := h.lt (List.infix_refl _)
  char h := h.char (List.infix_refl _)

theorem lines_mem {t : Str} {ls : List Str} (h : Lines t ls) : ∀ l ∈ ls, ∀ x ∈ l, x ∈ t := by
  induction h with
  | nil => intro l hl; cases hl
  | last _ _ => intro l' hl x hx; simp at hl; subst hl; exact hx
  | lf _ _ _ ih =>
    intro l' hl x hx
    rcases List.mem_cons.1 hl with rfl | hl
    · simp [hx]
    · simp [ih l' hl x hx]
  | crlf _ _ ih =>
    intro l' hl x hx
    rcases List.mem_cons.1 hl with rfl | hl
    · simp [hx]
    · simp [ih l' hl x hx]

theorem bordered_mem {b : Bool} {ls : List Str} {x : Char} (h : x ∈ bordered b ls) : x ∈ c!"│… \n" ∨ ∃ l ∈ ls, x ∈ l := by
  have key : ∀ ls : List Str, x ∈ (ls.map fun l => c!"│ " ++ l ++ c!"\n").flatten → x ∈ c!"│… \n" ∨ ∃ l ∈ ls, x ∈ l := by
    intro ls h
    obtain ⟨m, hm, hx⟩ := List.mem_flatten.1 h
    obtain ⟨l, hl, rfl⟩ := List.mem_map.1 hm
    simp only [List.mem_append] at hx
    rcases hx with (hx | hx) | hx
    · left; simp at hx ⊢; rcases hx with rfl | rfl <;> simp
    · exact .inr ⟨l, hl, hx⟩
    · left; simp at hx ⊢; subst hx; simp
  cases ls with
  | nil => cases h
  | cons l ls =>
    rw [bordered] at h
    simp only [List.cons_append, List.mem_cons, List.mem_append] at h
    rcases h with rfl | h | (h | h) | h
    · left; simp
    · left; cases b <;> subst h <;> decide
    · exact .inr ⟨l, by simp, h⟩
    · left; simp at h; subst h; decide
    · rcases key ls h with h | ⟨m, hm, hx⟩
      · exact .inl h
      · exact .inr ⟨m, by simp [hm], hx⟩

/-- The report of an error in a text without definitions has the character only if the text has it. -/
theorem context_tagless {cf : Cfg} {inp : Str} {its : List Item} {s s' : State} (h : Reached cf inp its s) (hn : ¬ Defines inp) {e : ErrorKind} {ctx : Str}
    (hs : step cf s = .item (.err e ctx) s') (hx : '<' ∈ ctx) : '<' ∈ inp := by
  obtain ⟨x, A, rest, u, v, p, t, ls, n, -, -, ⟨q, hw, -⟩, hl, -, rfl⟩ := C59_window cf inp its s s' h hn e ctx hs
  simp only [List.mem_append] at hx
  rcases hx with ((((hx | hx) | hx) | hx) | hx) | hx
  · exact absurd hx (by decide)
  · rcases bordered_mem hx with hx | ⟨l, h1, h2⟩
    · exact absurd hx (by decide)
    · rw [hw]; simp [lines_mem hl l h1 _ h2]
  · exact absurd hx (by decide)
  · exact absurd (List.eq_of_mem_replicate hx) (by decide)
  · exact absurd hx (by decide)
  · exact absurd (List.eq_of_mem_replicate hx) (by decide)

theorem err_tagless {cf : Cfg} {inp : Str} (hn : ¬ Defines inp) {its : List Item} {s : State} (h : Reached cf inp its s) :
    ∀ e ctx, .err e ctx ∈ its → '<' ∈ ctx → '<' ∈ inp := by
  induction h with
  | new => intro e ctx he; cases he
  | @item its s i s' h0 hst ih =>
    intro e ctx he hx
    rcases List.mem_append.1 he with he | he
    · exact ih e ctx he hx
    · simp at he
      subst he
      exact context_tagless h0 hn hst hx
  | again _ _ ih => exact ih

/-- The text being without `<`, without the two commands that write it and without definitions, and the configuration as well, every `<` in the
output is written by the renderer: whatever the text is, whether it parses or not, wherever parsing is broken off. Missing: that this need not be
asked of the text, which is false, see `C33_false` and `C33_input_false`. -/
theorem C33_input_partial (cf : Cfg) (cfg : RCfg) (hc : SafeCfg cfg) (inp : Str) (hd : ¬ Defines inp) (hf : '<' ∉ inp)
    (hl : ¬ c!"\\lt" <:+: inp) (hh : ¬ c!"\\char" <:+: inp) (n : Nat) (target all : Str)
    (h : pushMathml cfg ((run cf n (State.init inp)).1.map Item.shown) target = .ok all) :
    ∃ text, all = target ++ text ∧ Marked text := by
  obtain ⟨s, hr, -⟩ := run_reached cf n inp
  refine C33_marked_partial cfg hc _ (fun cols h => C11_array_column cf inp n cols (shown_ok.1 h)) ?_ ?_ target all h
  · intro e he
    refine (exec_safe (Q := Tagless) ⟨hf, hl, hh⟩ ?_ (reached_exec hr)).2.2 e (shown_ok.1 he)
    intro s hb hs hm c A rest q hst hx
    rw [(hb.onText hst hx).nodef hd |>.1]
    exact hs (.sub c A) (by rw [hst]; simp)
  · intro m hm hx
    obtain ⟨i, hi, e⟩ := List.mem_map.1 hm
    cases i with
    | ok e' => cases e
    | err k ctx =>
      cases e
      exact hf (err_tagless hd hr k ctx hi ((C33_message k ctx).1 hx))

/-- A text with other characters that XML treats specially, with text contents, an error and a group left open. -/
example : ¬ Defines c!"a>b&\\text{\"&amp;>}\\left(\\unknown" ∧ '<' ∉ c!"a>b&\\text{\"&amp;>}\\left(\\unknown" ∧
    ¬ c!"\\lt" <:+: c!"a>b&\\text{\"&amp;>}\\left(\\unknown" ∧ ¬ c!"\\char" <:+: c!"a>b&\\text{\"&amp;>}\\left(\\unknown" ∧
    (match pushMathml rc0 ((run cf0 60 (State.init c!"a>b&\\text{\"&amp;>}\\left(\\unknown")).1.map Item.shown) [] with
      | .ok _ => true
      | _ => false) = true := by
  unfold Defines
  decide +kernel

/-- Each of the two commands writes the character, and so does a definition that puts the name of the first together: none of the
hypotheses on the text can be left out. -/
theorem C33_input_false :
    (∃ its text, Yields cf0 c!"a\\lt b" its ∧ pushMathml rc0 (its.map Item.shown) [] = .ok text ∧ ¬ Marked text) ∧
    (∃ its text, Yields cf0 c!"a\\char 60 b" its ∧ pushMathml rc0 (its.map Item.shown) [] = .ok text ∧ ¬ Marked text) ∧
    (∃ its text, Yields cf0 c!"\\def\\a#1{\\l#1}\\a t b" its ∧ pushMathml rc0 (its.map Item.shown) [] = .ok text ∧ ¬ Marked text) := by
  have key : ∀ (inp : Str) (cfg : RCfg), (run cf0 60 (State.init inp)).2 = .done →
      injected (pushMathml cfg ((run cf0 60 (State.init inp)).1.map Item.shown) []) = true →
      ∃ its text, Yields cf0 inp its ∧ pushMathml cfg (its.map Item.shown) [] = .ok text ∧ ¬ Marked text := by
    intro inp cfg h1 h2
    obtain ⟨text, h3, h4⟩ := injected_spec h2
    exact ⟨_, text, ⟨60, by rw [← h1]⟩, h3, h4⟩
  refine ⟨key _ _ ?_ ?_, key _ _ ?_ ?_, key _ _ ?_ ?_⟩ <;> decide +kernel

end PL.Props
