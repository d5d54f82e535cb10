import Verif.Lemmas.Render.Writer
import Verif.Spec.Utf8
set_option autoImplicit false
/-!
# The text handed to the writer (C39, C40, C41)
-/
namespace PL.Props
open PL PL.Mathml Spec

/-! ## C39: frame -/

theorem w_assoc {α β γ : Type} (m : W α) (f : α → W β) (g : β → W γ) :
    m >>= f >>= g = m >>= fun a => f a >>= g := by
  funext s
  show W.bind (W.bind m f) g s = W.bind m _ s
  simp only [W.bind]
  cases m s <;> rfl

/-- What is rendered between the frame. -/
def inner (cfg : RCfg) : W PUnit := do
  let s ← W.get
  mainLoop cfg (s.peeked.length + s.rest.length + 1)
  if (← W.get).recov then cleanup (← W.get).env
  let s ← W.get
  if !s.env.isEmpty || s.sts.length ≠ 1 then
    cleanup s.env
    W.modify fun s => { s with sts := s.sts.drop (s.sts.length - 1) }

theorem good_inner (cfg : RCfg) : Good (inner cfg) := by
  have h1 := good_mainLoop cfg
  have h2 := good_cleanup
  unfold inner
  repeat' with_reducible first | exact h1 _ | exact h2 _ | good1

/-- The start of the `math` element, and of the elements around the formula when there is an annotation. -/
def frameStart (cfg : RCfg) : Str :=
  c!"<math display=\"" ++ (if cfg.block then c!"block" else c!"inline") ++ c!"\"" ++
  (if cfg.xml then c!" xmlns=\"http://www.w3.org/1998/Math/MathML\"" else []) ++ c!">" ++
  (if cfg.annotation.isSome then c!"<semantics><mrow>" else [])

/-- The end of these elements. -/
def frameEnd (cfg : RCfg) : Str :=
  (match cfg.annotation with
    | some a => c!"</mrow><annotation encoding=\"application/x-tex\">" ++ a ++ c!"</annotation></semantics>"
    | none => []) ++ c!"</math>"

theorem out_none (t : Str) (s : RSt) (h : s.budget = none) : W.out t s = .ok ⟨⟩ { s with out := s.out ++ t } := by
  simp [W.out, h]

theorem ite_bind {α β : Type} (c : Bool) (m : W α) (f : α → W β) (a : α) :
    (if c = true then m >>= f else f a) = (if c = true then m else pure a) >>= f := by
  cases c <;> rfl

/-- Everything up to the end of the formula. -/
def front (cfg : RCfg) : W PUnit := do
  W.out (c!"<math display=\"" ++ (if cfg.block then c!"block" else c!"inline") ++ c!"\"")
  if cfg.xml then W.out c!" xmlns=\"http://www.w3.org/1998/Math/MathML\""
  W.out c!">"
  if cfg.annotation.isSome then W.out c!"<semantics><mrow>"

def back (cfg : RCfg) : W PUnit := do
  match cfg.annotation with
  | some a =>
    W.out c!"</mrow>"
    W.out (c!"<annotation encoding=\"application/x-tex\">" ++ a ++ c!"</annotation>")
    W.out c!"</semantics>"
  | none => pure ⟨⟩
  W.out c!"</math>"

theorem write_eq (cfg : RCfg) : write cfg = front cfg >>= fun _ => inner cfg >>= fun _ => back cfg := by
  have h1 : ∀ (k : W PUnit), (do
      let s ← W.get
      mainLoop cfg (s.peeked.length + s.rest.length + 1)
      if (← W.get).recov then cleanup (← W.get).env
      let s ← W.get
      if !s.env.isEmpty || s.sts.length ≠ 1 then
        cleanup s.env
        W.modify fun s => { s with sts := s.sts.drop (s.sts.length - 1) }
      k) = inner cfg >>= fun _ => k := by
    intro k
    unfold inner
    simp only [w_assoc]
    congr 1; funext s; congr 1; funext _; congr 1; funext s1
    cases s1.recov
    · simp only [Bool.false_eq_true, if_false, w_assoc]
      congr 1; funext s2
      split
      · simp only [w_assoc]
      · rfl
    · simp only [if_true, w_assoc]
      congr 1; funext s2; congr 1; funext _; congr 1; funext s3
      split
      · simp only [w_assoc]
      · rfl
  cases hx : cfg.xml <;> cases ha : cfg.annotation <;>
    simp only [write, front, back, hx, ha, Option.isSome, Bool.false_eq_true, if_false, if_true, w_assoc] <;>
    (congr 1; funext _; first | exact h1 _ | (congr 1; funext _; first | exact h1 _ | (congr 1; funext _; first | exact h1 _ | (congr 1; funext _; exact h1 _))))

/-- Rendering to a target that accepts everything. -/
theorem write_none (cfg : RCfg) (s : RSt) (h : s.budget = none) : write cfg s = match inner cfg (core s) with
    | .ok _ d => .ok ⟨⟩ { d with out := s.out ++ frameStart cfg ++ d.out ++ frameEnd cfg }
    | r => r := by
  have hf : front cfg s = .ok ⟨⟩ { s with out := s.out ++ frameStart cfg } := by
    unfold front frameStart
    cases cfg.xml <;> cases cfg.annotation <;>
      simp [run_bind, out_none, h, pure, W.pure]
  have hbk : ∀ d : RSt, d.budget = none → back cfg d = .ok ⟨⟩ { d with out := d.out ++ frameEnd cfg } := by
    intro d hd
    unfold back frameEnd
    cases cfg.annotation <;> simp [run_bind, out_none, hd]
  rw [write_eq, bind_ok hf]
  rcases (good_inner cfg).run (core s) rfl with ⟨a, d, h1, h2⟩ | ⟨p, t, h2⟩
  · rw [h1]
    have : inner cfg { s with out := s.out ++ frameStart cfg } =
        .ok a { d with out := s.out ++ frameStart cfg ++ d.out, budget := none } := by
      exact (h2 { s with out := s.out ++ frameStart cfg } rfl).trans (by simp only [h, lift])
    rw [run_bind, this]
    simp only
    rw [hbk _ rfl]
    have h3 := h2 (core s) rfl
    rw [h1] at h3
    simp only [lift, core] at h3
    injection h3 with _ h3
    have : d.budget = none := congrArg RSt.budget h3
    rw [this]
  · have e1 : inner cfg { s with out := s.out ++ frameStart cfg } = .panic p := by
      exact (h2 { s with out := s.out ++ frameStart cfg } rfl).trans (by simp only [h, liftPanic])
    have e2 : inner cfg (core s) = .panic p := h2 (core s) rfl
    rw [run_bind, e1, e2]

/-- Whenever rendering returns: the target is kept, and what follows it is the frame around a text that does not
depend on the target. -/
theorem C39_frame (cfg : RCfg) (items : List RItem) : (∃ p, ∀ target, pushMathml cfg items target = .panic p) ∨
    ∃ body, ∀ target, pushMathml cfg items target = .ok (target ++ (frameStart cfg ++ body ++ frameEnd cfg)) := by
  have key : ∀ target, pushMathml cfg items target = match inner cfg (core (initSt items [] none)) with
      | .ok _ d => .ok (target ++ (frameStart cfg ++ d.out ++ frameEnd cfg))
      | .io w => .io w
      | .panic p => .panic p := by
    intro target
    have e : core (initSt items target none) = core (initSt items [] none) := rfl
    simp only [pushMathml, render, write_none cfg (initSt items target none) rfl, e]
    cases inner cfg (core (initSt items [] none)) <;> simp [initSt]
  rcases (good_inner cfg).run (core (initSt items [] none)) rfl with ⟨a, d, h1, -⟩ | ⟨p, t, h2⟩
  · exact .inr ⟨d.out, fun target => by rw [key, h1]⟩
  · exact .inl ⟨p, fun target => by rw [key, h2 (core (initSt items [] none)) rfl]; rfl⟩

/-- The frame is a `math` element with the documented attribute. -/
theorem C39_math (cfg : RCfg) : (c!"<math display=\"" ++ (if cfg.block then c!"block" else c!"inline") ++ c!"\"") <+: frameStart cfg ∧
    c!"</math>" <:+ frameEnd cfg := by
  refine ⟨?_, List.suffix_append _ _⟩
  refine ⟨(if cfg.xml then c!" xmlns=\"http://www.w3.org/1998/Math/MathML\"" else []) ++ c!">" ++
    (if cfg.annotation.isSome then c!"<semantics><mrow>" else []), ?_⟩
  unfold frameStart
  simp only [List.append_assoc]

/-- A configuration for examples. -/
def rc0 : RCfg := ⟨false, none, (178, 34, 34), false, .tex, fun n => decStr n.num.natAbs, fun _ => false, true⟩

/-- A case with an error and an unfinished group. -/
example : pushMathml rc0 [.ok (.begin_ .normal), .ok (.content (.ordinary 'x' false)), .err c!"oops"] c!"A" =
    .ok c!"A<math display=\"inline\"><mrow><mi>x</mi><merror style=\"border-color: #b22222\"><mtext>oops</mtext></merror></math>" := by
  decide +kernel

/-! ## C40: failing writers -/

/-- A writer that accepts `k` bytes and then fails receives the first `k` bytes of the sequence a writer that never
fails receives, and the error is returned unless everything was accepted. `all` is what is written until the end or
the panic. -/
theorem C40_prefix (cfg : RCfg) (items : List RItem) : ∃ (all : Str) (end_ : Out),
    (end_ = .ok all ∨ ∃ p, end_ = .panic p) ∧ pushMathml cfg items [] = end_ ∧
    ∀ k, writeMathml cfg items k = if blen all ≤ k then end_ else .io ((utf8 all).take k) := by
  rcases (good_write cfg).run (core (initSt items [] none)) rfl with ⟨a, d, h1, h2⟩ | ⟨p, t, h2⟩
  · refine ⟨d.out, .ok d.out, .inl rfl, ?_, fun k => ?_⟩
    · have : write cfg (initSt items [] none) = .ok a d := h1
      simp only [pushMathml, render, this]
    · have := h2 (initSt items [] (some k)) rfl
      simp only [writeMathml, render, this]
      simp only [lift, initSt]
      by_cases hk : blen d.out ≤ k
      · rw [if_pos hk, if_pos hk]; simp
      · rw [if_neg hk, if_neg hk]; simp [utf8]
  · refine ⟨t, .panic p, .inr ⟨p, rfl⟩, ?_, fun k => ?_⟩
    · have := h2 (initSt items [] none) rfl
      simp only [pushMathml, render, this]
      simp only [liftPanic, initSt]
    · have := h2 (initSt items [] (some k)) rfl
      simp only [writeMathml, render, this]
      simp only [liftPanic, initSt]
      by_cases hk : blen t ≤ k
      · rw [if_pos hk, if_pos hk]
      · rw [if_neg hk, if_neg hk]; simp [utf8]

/-- A case: the writer fails inside a character of three bytes. -/
example : writeMathml rc0 [.ok (.content (.ordinary '∞' false))] 30 =
    .io ((utf8 c!"<math display=\"inline\"><mi>∞</mi></math>").take 30) := by decide +kernel

/-! ## C41: UTF-8 -/

theorem utf8Char_valid (c : Char) : Utf8Char (utf8Char c) := by
  have hv : c.toNat < 0xD800 ∨ 0xDFFF < c.toNat ∧ c.toNat < 0x110000 := c.valid
  unfold utf8Char
  generalize c.toNat = n at *
  simp only
  split
  · exact .one (by omega)
  · split
    · exact .two (by omega) (by omega) ⟨by omega, by omega⟩
    · split
      · exact .three (by omega) (by omega) ⟨by omega, by omega⟩ (by omega) (by omega) ⟨by omega, by omega⟩
      · exact .four (by omega) (by omega) ⟨by omega, by omega⟩ (by omega) (by omega) ⟨by omega, by omega⟩ ⟨by omega, by omega⟩

theorem utf8_valid (s : Str) : Utf8 (utf8 s) := by
  induction s with
  | nil => exact .nil
  | cons c s ih => exact .cons (utf8Char_valid c) ih

/-- No byte of a character of several bytes is `&`, `<` or `>`. -/
theorem utf8Char_bytes (c : Char) (b : Nat) (hb : b ∈ utf8Char c) : b < 128 → utf8Char c = [b] := by
  unfold utf8Char at *
  generalize c.toNat = n at *
  simp only at *
  intro h
  split at hb
  · rename_i h1
    rw [if_pos h1]
    simp only [List.mem_singleton] at hb; rw [hb]
  · split at hb
    · simp only [List.mem_cons, List.not_mem_nil, or_false] at hb; omega
    · split at hb
      · simp only [List.mem_cons, List.not_mem_nil, or_false] at hb; omega
      · simp only [List.mem_cons, List.not_mem_nil, or_false] at hb; omega

theorem utf8Char_ascii {c : Char} (h : c.toNat < 128) : utf8Char c = [c.toNat] := by
  unfold utf8Char; simp only; rw [if_pos h]

theorem escapeLoop_plain (x : List Nat) (h : ∀ b ∈ x, b ≠ 38 ∧ b ≠ 60 ∧ b ≠ 62) (acc bs : List Nat) :
    escapeBytesLoop acc (x ++ bs) = escapeBytesLoop (x.reverse ++ acc) bs := by
  induction x generalizing acc with
  | nil => rfl
  | cons b x ih =>
    obtain ⟨h1, h2, h3⟩ := h b (by simp)
    rw [List.cons_append, escapeBytesLoop]
    simp only [h1, h2, h3, if_false]
    rw [ih (fun b hb => h b (by simp [hb])), List.reverse_cons, List.append_assoc]; rfl

/-- The bytes of a text, escaped with pending bytes of `pre`. -/
theorem escapeLoop_utf8 (t pre : Str) : (∀ chunk ∈ escapeBytesLoop (utf8 pre).reverse (utf8 t), Utf8 chunk) ∧
    (escapeBytesLoop (utf8 pre).reverse (utf8 t)).flatten = utf8 pre ++ utf8 (escape t) := by
  induction t generalizing pre with
  | nil =>
    simp only [utf8, escapeBytesLoop, escape, List.flatMap_nil]
    cases h : (utf8 pre).reverse with
    | nil =>
      have := congrArg List.reverse h
      simp only [List.reverse_reverse, List.reverse_nil] at this
      simp [this]
    | cons b bs =>
      rw [← h, List.isEmpty_reverse]
      have : (utf8 pre).isEmpty = false := by
        cases hu : utf8 pre with
        | nil => rw [hu] at h; cases h
        | cons => rfl
      simp only [this, Bool.false_eq_true, if_false, List.reverse_reverse]
      refine ⟨?_, by simp⟩
      intro c hc
      simp only [List.mem_singleton] at hc
      rw [hc]; exact utf8_valid pre
  | cons c t ih =>
    have special : ∀ (r : Str) (m : Nat), utf8Char c = [m] → escapeChar c = r →
        (∀ acc bs, escapeBytesLoop acc (m :: bs) =
          (if acc.isEmpty then [] else [acc.reverse]) ++ [utf8 r] ++ escapeBytesLoop [] bs) →
        (∀ chunk ∈ escapeBytesLoop (utf8 pre).reverse (utf8 (c :: t)), Utf8 chunk) ∧
        (escapeBytesLoop (utf8 pre).reverse (utf8 (c :: t))).flatten = utf8 pre ++ utf8 (escape (c :: t)) := by
      intro r m hm hr hl
      have e : utf8 (c :: t) = m :: utf8 t := by rw [utf8, hm]; rfl
      have i := ih []
      simp only [utf8, List.reverse_nil, List.nil_append] at i
      rw [e, hl, List.isEmpty_reverse, List.reverse_reverse]
      constructor
      · intro x hx
        simp only [List.mem_append] at hx
        rcases hx with (hx | hx) | hx
        · cases hu : (utf8 pre).isEmpty with
          | true => rw [hu] at hx; cases hx
          | false =>
            rw [hu] at hx
            simp only [Bool.false_eq_true, if_false, List.mem_singleton] at hx
            rw [hx]; exact utf8_valid pre
        · simp only [List.mem_singleton] at hx
          rw [hx]; exact utf8_valid r
        · exact i.1 x hx
      · rw [List.flatten_append, List.flatten_append, i.2]
        have : (if (utf8 pre).isEmpty = true then [] else [utf8 pre]).flatten = utf8 pre := by
          cases hu : utf8 pre <;> simp
        rw [this]
        simp [escape, hr]
    by_cases h1 : c = '&'
    · subst h1
      exact special c!"&amp;" 38 rfl rfl (fun _ _ => rfl)
    by_cases h2 : c = '<'
    · subst h2
      exact special c!"&lt;" 60 rfl rfl (fun _ _ => rfl)
    by_cases h3 : c = '>'
    · subst h3
      exact special c!"&gt;" 62 rfl rfl (fun _ _ => rfl)
    · have hb : ∀ b ∈ utf8Char c, b ≠ 38 ∧ b ≠ 60 ∧ b ≠ 62 := by
        intro b hb
        have key : ∀ d : Char, d.toNat < 128 → b = d.toNat → c = d := by
          intro d hd hbd
          have e := utf8Char_bytes c b hb (by omega)
          have : c.toNat < 128 := by
            unfold utf8Char at e
            simp only at e
            split at e
            · assumption
            · split at e
              · cases e
              · split at e <;> cases e
          rw [utf8Char_ascii this] at e
          have : c.toNat = d.toNat := by rw [← hbd]; exact (List.cons.inj e).1
          exact Char.toNat_inj.1 this
        exact ⟨fun h => h1 (key '&' (by decide) h), fun h => h2 (key '<' (by decide) h), fun h => h3 (key '>' (by decide) h)⟩
      have i := ih (pre ++ [c])
      have e : (utf8 (pre ++ [c])).reverse = (utf8Char c).reverse ++ (utf8 pre).reverse := by
        rw [utf8_append, List.reverse_append]; simp [utf8]
      rw [e] at i
      rw [utf8, escapeLoop_plain _ hb]
      refine ⟨i.1, ?_⟩
      rw [i.2]
      have : escapeChar c = [c] := by unfold escapeChar; rw [if_neg h1, if_neg h2, if_neg h3]
      simp [escape, this, utf8]

/-- The loop that escapes bytes hands only well-formed UTF-8 to the writer, and all in all the text in which the
characters `&`, `<` and `>` are replaced. -/
theorem C41_escape (t : Str) : (∀ chunk ∈ escapeBytes (utf8 t), Utf8 chunk) ∧
    (escapeBytes (utf8 t)).flatten = utf8 (escape t) := by
  have := escapeLoop_utf8 t []
  simpa [utf8, escapeBytes] using this

/-- A case: the text is cut at `<`, next to characters of several bytes. -/
example : escapeBytes (utf8 c!"é<ü") = [[195, 169], [38, 108, 116, 59], [195, 188]] := by decide +kernel

/-- All the renderer writes to a target of well-formed UTF-8 leaves it so, for every item and configuration. -/
theorem C41_output (cfg : RCfg) (items : List RItem) (target text : Str) (_ : pushMathml cfg items target = .ok text) :
    Utf8 (utf8 text) := utf8_valid text

end PL.Props
