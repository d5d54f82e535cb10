import Verif.Lemmas.FitsStep
import Verif.Props.Linear
import Verif.Props.Report
import Verif.Props.Size
set_option autoImplicit false
/-!
# How long the rendering of a text is (C64)

From the text to the markup: what the parser makes of a text fits its length, so the rendering is at most quadratic in it. C64_false shows that it is not
linear.
-/
namespace PL.Props
open PL PL.Lex PL.Mathml Spec

variable {cf : Cfg}

/-! ### Messages -/

theorem decStr_short {n : Nat} (h : n < 1000) : (decStr n).length ≤ 3 := by
  have : ∀ n < 1000, (decStr n).length ≤ 3 := by decide +kernel
  exact this n h

theorem message_short {e : ErrorKind} (h : ErrFits e) : e.message.length ≤ 140 := by
  cases e with
  | unbalancedGroup m =>
    cases m with
    | none => decide
    | some k =>
      have : ∀ k : GroupingKind, k.closingStr.length ≤ 20 := by
        intro k
        cases k with
        | array b => cases b <;> decide
        | matrix t b => cases t <;> cases b <;> decide
        | cases b d => cases b <;> cases d <;> decide
        | align b => cases b <;> decide
        | aligned => decide
        | alignat b => cases b <;> decide
        | alignedat => decide
        | gather b => cases b <;> decide
        | equation b => cases b <;> decide
        | _ => decide
      have := this k
      simp only [ErrorKind.message, List.length_append, List.length_cons, List.length_nil]
      omega
  | incorrectMacroParams a b =>
    have h1 := decStr_short h.1
    have h2 := decStr_short h.2
    simp only [ErrorKind.message, List.length_append, List.length_cons, List.length_nil]
    omega
  | incorrectReplacementParams a b =>
    have h1 := decStr_short h.1
    have h2 := decStr_short h.2
    simp only [ErrorKind.message, List.length_append, List.length_cons, List.length_nil]
    omega
  | _ => decide

/-! ### Contexts -/

theorem lines_length {t : Str} {ls : List Str} (h : Lines t ls) : ls.length ≤ t.length ∧ ls.flatten.length ≤ t.length ∧ ∀ l ∈ ls, blen l ≤ blen t := by
  induction h with
  | nil => simp
  | @last l h1 _ => cases l with
    | nil => exact absurd rfl h1
    | cons c l => simp
  | lf _ _ _ ih =>
    refine ⟨by simp; omega, by simp; have := ih.2.1; simp at this; omega, ?_⟩
    intro l hl
    rcases List.mem_cons.1 hl with rfl | hl
    · simp
    · have := ih.2.2 l hl
      simp; omega
  | crlf _ _ ih =>
    refine ⟨by simp; omega, by simp; have := ih.2.1; simp at this; omega, ?_⟩
    intro l hl
    rcases List.mem_cons.1 hl with rfl | hl
    · simp
    · have := ih.2.2 l hl
      simp; omega

theorem bordered_length (b : Bool) (ls : List Str) : (bordered b ls).length = 3 * ls.length + ls.flatten.length := by
  have h : ∀ ls : List Str, ((ls.map fun l => c!"│ " ++ l ++ c!"\n").flatten).length = 3 * ls.length + ls.flatten.length := by
    intro ls
    induction ls with
    | nil => rfl
    | cons l ls ih =>
      have h1 : (c!"│ ").length = 2 := by decide
      have h2 : (c!"\n").length = 1 := by decide
      simp only [List.map_cons, List.flatten_cons, List.length_append, List.length_cons, ih, h1, h2]
      omega
  cases ls with
  | nil => rfl
  | cons l ls =>
    have h2 : (c!"\n").length = 1 := by decide
    have h3 := h ls
    cases b <;> simp only [bordered, List.length_append, List.length_cons, List.flatten_cons, h2, h3] <;> omega

theorem window_length {text p t : Str} {a b : Nat} (h : Window text a b p t) : blen t ≤ b - a + 3 := by
  obtain ⟨q, -, ⟨h1, h2⟩, ⟨h3, -⟩⟩ := h
  cases t with
  | nil => simp
  | cons c t =>
    have h4 := h2 c (t ++ q) rfl
    have h5 := utf8Size_le c
    simp only [blen_append, blen_cons, blen_nil] at h3 h4 ⊢
    omega

/-- The report of an error in a text without definitions. -/
theorem context_short {inp : Str} {its : List Item} {s s' : State} (h : Reached cf inp its s) (hn : ¬ Defines inp) {e : ErrorKind} {ctx : Str}
    (hs : step cf s = .item (.err e ctx) s') : ctx.length ≤ 200 := by
  obtain ⟨x, A, rest, u, v, p, t, ls, n, -, -, hw, hl, hn', rfl⟩ := C59_window cf inp its s s' h hn e ctx hs
  have h1 := window_length hw
  obtain ⟨h2, h3, h4⟩ := lines_length hl
  have h5 : t.length ≤ blen t := length_le_blen t
  have h6 : n ≤ blen t := by
    rcases hn' with ⟨-, rfl⟩ | ⟨ls', l, rfl, rfl⟩
    · exact Nat.zero_le _
    · exact h4 l (by simp)
  have h7 := bordered_length (!p.isEmpty) ls
  simp only [List.length_append, List.length_replicate, h7]
  have h8 : (c!"╭─► context:\n│\n").length = 15 := by decide
  have h9 : (c!"│ ").length = 2 := by decide
  have h10 : (c!"\n╰─").length = 3 := by decide
  omega

/-! ### Runs -/

/-- The size of an event that fits. -/
theorem fits_size {B : Nat} {e : Event} (h : EventFits B e) : itemSize (.ok e) ≤ B + 17 ∧ Spec.Within B (.ok e) := by
  cases e with
  | content c => cases c <;> refine ⟨?_, ?_⟩ <;> simp only [EventFits, itemSize, Spec.Within] at h ⊢ <;> omega
  | begin_ g => cases g <;> refine ⟨?_, ?_⟩ <;> simp only [EventFits, itemSize, Spec.Within] at h ⊢ <;> omega
  | flow f => cases f <;> refine ⟨?_, ?_⟩ <;> simp only [EventFits, itemSize, Spec.Within] at h ⊢ <;> omega
  | stateChange c => cases c <;> refine ⟨?_, ?_⟩ <;> simp only [EventFits, itemSize, Spec.Within] at h ⊢ <;> omega
  | _ => exact ⟨by simp only [itemSize]; omega, trivial⟩

theorem error_size {e : ErrorKind} {ctx : Str} (h : ErrFits e) (hc : ctx.length ≤ 200) : itemSize (.err (errorText e ctx)) ≤ 400 := by
  have := message_short h
  simp only [itemSize, errorText, List.length_append, List.length_cons, List.length_nil]
  omega

/-- Every item of a run over a text without definitions. -/
theorem item_size {inp : Str} {its : List Item} {s : State} (hd : ¬ Defines inp) (h : Reached cf inp its s) :
    ∀ i ∈ its, itemSize i.shown ≤ inp.length + 400 ∧ Spec.Within inp.length i.shown := by
  have hf := (exec_fits (reached_exec h)).2
  rw [no_expansions hd (reached_exec h)] at hf
  have hc : ∀ e ctx, Item.err e ctx ∈ its → ctx.length ≤ 200 := by
    clear hf
    induction h with
    | new => intro e ctx h; cases h
    | item h1 h2 ih =>
      intro e ctx h
      rcases List.mem_append.1 h with h | h
      · exact ih e ctx h
      · simp only [List.mem_singleton] at h
        subst h
        exact context_short h1 hd h2
    | again _ _ ih => exact ih
  intro i hi
  cases i with
  | ok e =>
    have := fits_size (hf _ hi)
    exact ⟨Nat.le_trans this.1 (by omega), this.2⟩
  | err e ctx => exact ⟨Nat.le_trans (error_size (hf _ hi) (hc e ctx hi)) (by omega), trivial⟩

theorem totalSize_le {items : List RItem} {B : Nat} (h : ∀ i ∈ items, itemSize i ≤ B) : totalSize items ≤ items.length * B := by
  induction items with
  | nil => exact Nat.zero_le _
  | cons i items ih =>
    have h1 := h i (by simp)
    have h2 := ih fun j hj => h j (by simp [hj])
    simp only [totalSize, List.map_cons, List.sum_cons, List.length_cons, Nat.add_mul, Nat.one_mul] at h2 ⊢
    omega

/-- What the parser makes of a text is not larger than the text, expansions included. -/
theorem C64_events (cf : Cfg) (inp : Str) (its : List Item) (s : State) (h : Reached cf inp its s) (e : Event) (he : .ok e ∈ its) :
    EventFits (inp.length + s.sp.total) e := (exec_fits (reached_exec h)).2 _ he

/-- From the text to the markup, errors included: the rendering of a text without definitions is at most quadratic in its length, wherever the run is
stopped. -/
theorem C64_document (cf : Cfg) (cfg : RCfg) (inp : Str) (hd : ¬ Defines inp) (hf : ShortNumbers cfg) (hc : ByteColour cfg.errorColor)
    (its : List Item) (s : State) (h : Reached cf inp its s) (target : Str) (budget : Option Nat) (text : Str)
    (hr : render cfg (its.map Item.shown) target budget = .ok text) :
    text.length ≤ target.length + 1024 * ((16 * inp.length + 1) * (2 * inp.length + 400)) + 256 + (cfg.annotation.getD []).length := by
  obtain ⟨n, hn⟩ := reached_steps h
  have h1 := C63_linear cf inp hd n its s hn
  have h2 := item_size hd h
  have h3 := C64_bound cfg (its.map Item.shown) inp.length hf hc (by simpa using fun i hi => (h2 i hi).2) target budget text hr
  have h4 := totalSize_le (items := its.map Item.shown) (B := inp.length + 400) (by simpa using fun i hi => (h2 i hi).1)
  rw [List.length_map] at h3 h4
  have h5 : inp.length * its.length + its.length * (inp.length + 400) = its.length * (2 * inp.length + 400) := by
    rw [Nat.mul_comm inp.length, ← Nat.mul_add, show inp.length + (inp.length + 400) = 2 * inp.length + 400 by omega]
  have h6 : its.length * (2 * inp.length + 400) ≤ (16 * inp.length + 1) * (2 * inp.length + 400) := Nat.mul_le_mul_right _ (by omega)
  omega

/-- A case with an error: seven characters. -/
example (text : Str) (h : pushMathml short ((run cf0 40 (State.init c!"a\\foo b")).1.map Item.shown) [] = .ok text) : text.length ≤ 47905024 := by
  obtain ⟨s, hs, -⟩ := run_reached cf0 40 c!"a\\foo b"
  have := C64_document cf0 short c!"a\\foo b" (by unfold Defines; decide) (fun _ => (by decide : (['1'] : Str).length ≤ 64)) ⟨by decide, by decide, by decide⟩
    _ s hs [] none text h
  exact Nat.le_trans this (by decide)

/-- It is rendered, with the report of the unknown command. -/
example : (match pushMathml short ((run cf0 40 (State.init c!"a\\foo b")).1.map Item.shown) [] with | .ok t => t.length | _ => 0) = 203 := by decide +kernel

/-- With definitions, as long as there are no errors, the same holds with the length of the expansions added to the one of the text. -/
theorem C64_expanded (cf : Cfg) (cfg : RCfg) (inp : Str) (hf : ShortNumbers cfg) (hc : ByteColour cfg.errorColor)
    (es : List Event) (s : State) (h : Reached cf inp (es.map .ok) s) (target : Str) (budget : Option Nat) (text : Str)
    (hr : render cfg (es.map .ok) target budget = .ok text) :
    text.length ≤ target.length + 1024 * ((16 * (inp.length + s.sp.total) + 1) * (2 * (inp.length + s.sp.total) + 17)) + 256 +
      (cfg.annotation.getD []).length := by
  obtain ⟨n, hn⟩ := reached_steps h
  have h1 := C63_steps cf inp n _ s hn
  generalize hN : inp.length + s.sp.total = N at h1
  have h2 : ∀ e ∈ es, itemSize (.ok e) ≤ N + 17 ∧ Spec.Within N (.ok e) := fun e he =>
    fits_size (by rw [← hN]; exact C64_events cf inp _ s h e (List.mem_map_of_mem he))
  have h3 := C64_bound cfg (es.map .ok) N hf hc (by simpa using fun i hi => (h2 i hi).2) target budget text hr
  have h4 := totalSize_le (items := es.map .ok) (B := N + 17) (by simpa using fun i hi => (h2 i hi).1)
  rw [List.length_map] at h3 h4 h1
  have h5 : N * es.length + es.length * (N + 17) = es.length * (2 * N + 17) := by
    rw [Nat.mul_comm N, ← Nat.mul_add, show N + (N + 17) = 2 * N + 17 by omega]
  have h6 : es.length * (2 * N + 17) ≤ (16 * N + 1) * (2 * N + 17) := Nat.mul_le_mul_right _ (by omega)
  omega

end PL.Props
