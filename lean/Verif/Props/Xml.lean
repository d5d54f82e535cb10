import Verif.Lemmas.XmlScan
import Verif.Props.Document
import Verif.Props.Formula
set_option autoImplicit false
/-!
# The document is well-formed XML (C65)
-/
namespace PL.Props
open PL PL.Mathml Spec Spec.Xml

/-- Numbers are shown without special characters, and so is the annotation. -/
structure XmlCfg (E : List Str) (cfg : RCfg) : Prop where
  annotation : ∀ a, cfg.annotation = some a → Text E a
  numbers : ∀ n, ∀ c ∈ cfg.fmt n, isChar c = true ∧ c ≠ '<' ∧ c ≠ '&' ∧ c ≠ '"'

theorem mapChar_far {f : Font} {c e : Char} (h : f.mapChar c = some e) :
    e = c ∨ (0x2000 ≤ e.toNat ∧ e.toNat ≤ 0xD7FF) ∨ (0x10000 ≤ e.toNat ∧ e.toNat ≤ 0x10FFFF) := by
  unfold Font.mapChar at h
  simp only at h
  split at h
  · rename_i hv
    injection h with h
    have e0 : e.toNat = fontCode f c := by
      rw [← h]
      exact congrArg (fun o : Option Char => (o.map Char.toNat).getD 0) (show some (Char.ofNatAux _ hv) = some (Char.ofNatAux _ hv) from rfl)
    unfold fontCode at e0
    have key : ∀ (n : Nat) (arms : List (Font × Nat × Nat × Nat)), (∀ a ∈ arms, (0x2000 ≤ a.2.1 + a.2.2.2 ∧ a.2.2.1 + a.2.2.2 ≤ 0xD7FF) ∨
        (0x10000 ≤ a.2.1 + a.2.2.2 ∧ a.2.2.1 + a.2.2.2 ≤ 0x10FFFF)) → fontOffset f n arms = 0 ∨
        (0x2000 ≤ n + fontOffset f n arms ∧ n + fontOffset f n arms ≤ 0xD7FF) ∨ (0x10000 ≤ n + fontOffset f n arms ∧ n + fontOffset f n arms ≤ 0x10FFFF) := by
      intro n arms
      induction arms with
      | nil => intro _; exact .inl rfl
      | cons a arms ih =>
        obtain ⟨g, lo, hi, off⟩ := a
        intro ha
        unfold fontOffset
        split
        · rename_i hc
          simp only [Bool.and_eq_true, decide_eq_true_eq] at hc
          have := ha _ (List.mem_cons_self ..)
          dsimp only at this
          omega
        · exact ih fun a h => ha a (by simp [h])
    rcases key c.toNat fontArms (by decide +kernel) with h1 | h1 | h1
    · exact .inl (Char.toNat_inj.1 (by rw [e0, h1, Nat.add_zero]))
    · exact .inr (.inl (by rw [e0]; exact h1))
    · exact .inr (.inr (by rw [e0]; exact h1))
  · cases h

theorem faithful {E : List Str} {cfg : RCfg} (hc : XmlCfg E cfg) (hE : ∀ n ∈ [c!"amp", c!"lt", c!"gt"], n ∈ E) : Faithful E (printing cfg) := by
  refine ⟨fun f c => ?_, fun d => ?_, hE _ (by decide), hE _ (by decide), hE _ (by decide)⟩
  · show (_ → isChar ((f.mapChar c).getD c) = true) ∧ _
    cases h : f.mapChar c with
    | none => refine ⟨id, ?_, ?_, ?_⟩ <;> (intro hn; show (f.mapChar c).getD c ≠ _; rw [h]; exact hn)
    | some e =>
      have e0 : (printing cfg).mapped f c = e := by show (f.mapChar c).getD c = e; rw [h]; rfl
      rw [e0]
      rcases mapChar_far h with rfl | h1
      · exact ⟨id, id, id, id⟩
      · have big : ∀ x : Char, x.toNat < 0x2000 → e ≠ x := by
          rintro x hx rfl
          omega
        refine ⟨fun _ => ?_, fun _ => big _ (by decide), fun _ => big _ (by decide), fun _ => big _ (by decide)⟩
        show isChar e = true
        simp only [isChar, Bool.or_eq_true, Bool.and_eq_true, decide_eq_true_eq]
        omega
  · show (dimStr cfg d).all good = true
    unfold dimStr
    rw [List.all_append, Bool.and_eq_true]
    refine ⟨List.all_eq_true.2 fun c hc' => ?_, ?_⟩
    · obtain ⟨h1, h2, h3, h4⟩ := hc.numbers _ c hc'
      simp [good, h1, h2, h3, h4]
    · obtain ⟨v, u⟩ := d
      cases u <;> (simp only [dimShown]; decide)

/-- The document of a tree without the excluded events is well-formed XML, with text only in token elements, rows only in tables and
cells only in rows. -/
theorem C65_tree_partial (E : List Str) (cfg : RCfg) (hc : XmlCfg E cfg) (hE : ∀ n ∈ [c!"amp", c!"lt", c!"gt"], n ∈ E) (doc : Nodes)
    (h : doc.regular = true) (hp : ∀ e ∈ doc.events, plainEvent E e = true) (target : Str) :
    ∃ out, pushMathml cfg (doc.events.map .ok) target = .ok (target ++ out) ∧ Xml.Document E out :=
  ⟨_, C53_tree_partial cfg doc h target, document_xml (faithful hc hE) (List.all_eq_true.2 hp) hc.annotation⟩

/-- The rendering of a well-formed sequence of events is well-formed XML. Missing: the events that `plainEvent` excludes, for which it is false (see
the theorems below). -/
theorem C65_partial (E : List Str) (cfg : RCfg) (hc : XmlCfg E cfg) (hE : ∀ n ∈ [c!"amp", c!"lt", c!"gt"], n ∈ E) (es : List Event)
    (h : WellFormed es) (hp : ∀ e ∈ es, plainEvent E e = true) (target : Str) :
    ∃ out, pushMathml cfg (es.map .ok) target = .ok (target ++ out) ∧ Xml.Document E out := by
  obtain ⟨doc, rfl, h1⟩ := C53_covers es h
  exact C65_tree_partial E cfg hc hE doc h1 hp target

/-- The rendering of a clean input that is parsed without errors is well-formed XML. Missing: as before, and the inputs that `Clean` excludes. -/
theorem C65_parsed_partial (E : List Str) (cf : Cfg) (cfg : RCfg) (hc : XmlCfg E cfg) (hE : ∀ n ∈ [c!"amp", c!"lt", c!"gt"], n ∈ E)
    (inp : Str) (es : List Event) (hcl : Clean inp) (h : Yields cf inp (es.map .ok))
    (hp : ∀ e ∈ es, plainEvent E e = true) (target : Str) :
    ∃ out, pushMathml cfg (es.map .ok) target = .ok (target ++ out) ∧ Xml.Document E out :=
  C65_partial E cfg hc hE es (clean_wellFormed cf inp es hcl h) hp target

/-! ### Cases -/

/-- Digits for numbers. -/
def rcx : RCfg := { rc0 with xml := true, annotation := some c!"a &amp; b", fmt := fun n => Nat.toDigits 10 n.num.natAbs }

theorem rcx_xml (E : List Str) (h : c!"amp" ∈ E) : XmlCfg E rcx := by
  refine ⟨?_, fun n c hc => ?_⟩
  · intro a ha
    injection ha with ha
    subst ha
    refine ⟨?_, not_cdata (by decide)⟩
    exact Chars.append (s := c!"a ") (chars_plain (by decide)) (.entity h (chars_plain (s := c!" b") (by decide)))
  · have := List.all_eq_true.1 (goodDigits n.num.natAbs) c hc
    simp only [good, Bool.and_eq_true, bne_iff_ne, ne_eq] at this
    exact ⟨this.1.1.1, this.1.1.2, this.1.2, this.2⟩

example : (∀ e ∈ sample.events, plainEvent xmlEntities e = true) ∧
    ∃ out, pushMathml rcx (sample.events.map .ok) [] = .ok ([] ++ out) ∧ Xml.Document xmlEntities out :=
  ⟨by decide +kernel, C65_tree_partial _ rcx (rcx_xml _ (by decide)) (by decide) sample (by decide +kernel) (by decide +kernel) []⟩

/-- A text with `<`, `&` and a space at the end. -/
example : ∃ es : List Event, Yields cf0 c!"\\text{a<b&c }\\ge\\frac{x}{y}" (es.map .ok) ∧
    ∃ out, pushMathml rcx (es.map .ok) [] = .ok ([] ++ out) ∧ Xml.Document htmlEntities out := by
  have h : Yields cf0 c!"\\text{a<b&c }\\ge\\frac{x}{y}" ((events (run cf0 60 (State.init c!"\\text{a<b&c }\\ge\\frac{x}{y}")).1).map .ok) :=
    ⟨60, by decide +kernel⟩
  exact ⟨_, h, C65_parsed_partial _ cf0 rcx (rcx_xml _ (by decide)) (by decide) _ _ (tableB_clean (by decide +kernel)) h
    (by decide +kernel) []⟩

/-! ### What is not well-formed -/

/-- `\&`: a bare ampersand. -/
theorem C65_false_ampersand : ∃ es : List Event, Yields cf0 c!"\\&" (es.map .ok) ∧
    pushMathml rc0 (es.map .ok) [] = .ok c!"<math display=\"inline\"><mi>&</mi></math>" ∧
    ¬ Xml.Document htmlEntities c!"<math display=\"inline\"><mi>&</mi></math>" :=
  ⟨[.content (.ordinary '&' false)], ⟨20, by decide +kernel⟩, by decide +kernel,
    fun h => absurd (refs_document (by decide) h) (by decide +kernel)⟩

/-- `a<b`: a bare less-than sign. -/
theorem C65_false_less : ∃ es : List Event, Yields cf0 c!"a<b" (es.map .ok) ∧
    pushMathml rc0 (es.map .ok) [] = .ok c!"<math display=\"inline\"><mi>a</mi><mo><</mo><mi>b</mi></math>" ∧
    ¬ Xml.Document htmlEntities c!"<math display=\"inline\"><mi>a</mi><mo><</mo><mi>b</mi></math>" :=
  ⟨[.content (.ordinary 'a' false), .content (.relation '<' none false), .content (.ordinary 'b' false)], ⟨20, by decide +kernel⟩, by decide +kernel,
    fun h => absurd (reads_document (by decide) h) (by decide +kernel)⟩

/-- `\big(`: no white space between two attributes. -/
theorem C65_false_sized : ∃ es : List Event, Yields cf0 c!"\\big(" (es.map .ok) ∧
    pushMathml rc0 (es.map .ok) [] = .ok c!"<math display=\"inline\"><mo symmetric=\"true\" stretchy=\"true\"minsize=\"1.2em\" maxsize=\"1.2em\">(</mo></math>" ∧
    ¬ Xml.Document htmlEntities c!"<math display=\"inline\"><mo symmetric=\"true\" stretchy=\"true\"minsize=\"1.2em\" maxsize=\"1.2em\">(</mo></math>" :=
  ⟨[.content (.delimiter '(' (some .big) .open_)], ⟨20, by decide +kernel⟩, by decide +kernel,
    fun h => absurd (reads_document (by decide) h) (by decide +kernel)⟩

/-- `\mathstrut`: text in the `math` element instead of an empty element. -/
theorem C65_false_space : ∃ es : List Event, Yields cf0 c!"\\mathstrut" (es.map .ok) ∧
    pushMathml rc0 (es.map .ok) [] = .ok c!"<math display=\"inline\"> height=\"7em\" /></math>" ∧
    ¬ Xml.Document htmlEntities c!"<math display=\"inline\"> height=\"7em\" /></math>" :=
  ⟨[.space none (some ⟨⟨7, 10⟩, .em⟩) none], ⟨20, by decide +kernel⟩, by decide +kernel,
    fun h => absurd (reads_document (by decide) h) (by decide +kernel)⟩

/-- `\text{ a}` in an XML document: a reference to an entity that is not declared. -/
theorem C65_false_entity : ∃ es : List Event, Yields cf0 c!"\\text{ a}" (es.map .ok) ∧
    pushMathml { rc0 with xml := true } (es.map .ok) [] =
      .ok c!"<math display=\"inline\" xmlns=\"http://www.w3.org/1998/Math/MathML\"><mtext>&nbsp;a</mtext></math>" ∧
    ¬ Xml.Document xmlEntities c!"<math display=\"inline\" xmlns=\"http://www.w3.org/1998/Math/MathML\"><mtext>&nbsp;a</mtext></math>" :=
  ⟨[.content (.text c!" a")], ⟨20, by decide +kernel⟩, by decide +kernel, fun h => absurd (refs_document (by decide) h) (by decide +kernel)⟩

/-- `\char0`: a character that XML does not allow. -/
theorem C65_false_char : ∃ es : List Event, Yields cf0 c!"\\char0" (es.map .ok) ∧
    ∃ out, pushMathml rc0 (es.map .ok) [] = .ok out ∧ ¬ Xml.Document htmlEntities out :=
  ⟨[.content (.ordinary '\x00' false)], ⟨20, by decide +kernel⟩, c!"<math display=\"inline\"><mi>\x00</mi></math>", by decide +kernel,
    fun h => absurd (reads_document (by decide) h) (by decide +kernel)⟩

end PL.Props
