import Verif.Lemmas.Render.Scan
import Verif.Lemmas.Render.Wp
import Verif.Spec.Safe
import Verif.Props.Fonts
set_option autoImplicit false
/-! # Scanning the pieces that the renderer writes -/
namespace PL.Mathml
open Spec
variable {d : Bool} {S : Open}

/-- Scan piece by piece. -/
syntax "sc" ("[" term,* "]")? : tactic
macro_rules
  | `(tactic| sc) => `(tactic| sc [])
  | `(tactic| sc [$ts,*]) => do
    let alts ← ts.getElems.mapM fun t => `(tactic| with_reducible apply $t)
    let mut r ← `(tactic| exact rfl)
    for a in alts.reverse do
      r ← `(tactic| first | $a:tactic | $r:tactic)
    `(tactic| repeat (first | with_reducible assumption | with_reducible apply Sc.append | $r:tactic))

theorem Sc.plain {t : Str} (h : '<' ∉ t) : Sc d .text S t .text S := by
  induction t with
  | nil => rfl
  | cons c t ih =>
    have hc : c ≠ '<' := fun e => h (by simp [e])
    show scan d .text S (c :: t) = _
    simp only [scan, scan1, hc, if_false]
    exact ih fun h' => h (by simp [h'])

theorem Sc.quoted {n t : Str} (h : '<' ∉ t) (h' : '"' ∉ t) : Sc d (.attrs n true) S t (.attrs n true) S := by
  induction t with
  | nil => rfl
  | cons c t ih =>
    have hc : c ≠ '<' := fun e => h (by simp [e])
    have hc' : c ≠ '"' := fun e => h' (by simp [e])
    show scan d (.attrs n true) S (c :: t) = _
    simp only [scan, scan1, hc, hc', if_false]
    exact ih (fun h1 => h (by simp [h1])) (fun h1 => h' (by simp [h1]))

theorem decStr_safe (n : Nat) : '<' ∉ decStr n ∧ '"' ∉ decStr n := by
  constructor <;> intro h <;> have := Nat.isDigit_of_mem_toDigits (by decide) (by decide) h <;> revert this <;> decide

theorem rgbStr_quoted {n : Str} (c : Nat × Nat × Nat) : Sc d (.attrs n true) S (rgbStr c) (.attrs n true) S := by
  unfold rgbStr
  have h (k : Nat) : Sc d (.attrs n true) S (decStr k) (.attrs n true) S := .quoted (decStr_safe k).1 (decStr_safe k).2
  sc [h _]

/-- Inside a start tag, after the name or an attribute. -/
def InTag (n : Str) (m : Mode) : Prop := n ∈ elementNames ∧ (m = .name n.reverse ∨ m = .attrs n false)

theorem InTag.close {n : Str} {m : Mode} (h : InTag n m) : Sc d m S c!">" .text ((n, 0) :: S) := by
  obtain ⟨hn, rfl | rfl⟩ := h
  · show scan _ _ _ _ = _
    simp [scan, scan1, hn]
  · rfl

theorem InTag.space {n : Str} {m : Mode} (h : InTag n m) : Sc d m S c!" " (.attrs n false) S := by
  obtain ⟨hn, rfl | rfl⟩ := h
  · show scan _ _ _ _ = _
    simp [scan, scan1, hn]
  · rfl

/-- An attribute with its space. -/
theorem InTag.attr {n t : Str} {m m' : Mode} {S' : Open} (h : InTag n m) (ht : Sc d (.attrs n false) S t m' S') :
    Sc d m S (' ' :: t) m' S' := h.space.append ht

theorem InTag.attrs {n : Str} (hn : n ∈ elementNames) : InTag n (.attrs n false) := ⟨hn, .inr rfl⟩

theorem styleAttr_sc {n : Str} {m : Mode} (h : InTag n m) (y : Style) : Sc d m S (styleAttr y) (.attrs n false) S := by
  cases y <;> exact h.attr rfl

theorem colorAttr_sc {n : Str} {m : Mode} (h : InTag n m) (st : RState) :
    ∃ m', InTag n m' ∧ Sc d m S (colorAttr st) m' S := by
  unfold colorAttr
  have q := fun c => rgbStr_quoted (d := d) (S := S) (n := n) c
  cases h1 : st.text <;> cases h2 : st.border <;> cases h3 : st.background <;>
    simp only [Option.isSome, Bool.or_true, Bool.or_self, List.nil_append, List.append_nil, if_true,
      Bool.false_eq_true, if_false, Bool.or_false]
  · exact ⟨m, h, rfl⟩
  all_goals refine ⟨_, .attrs h.1, ?_⟩
  all_goals sc [h.attr, q _]

/-- The classes that are used. -/
def ClassOk (cl : Option Str) : Prop := ∀ c, cl = some c → '<' ∉ c ∧ '"' ∉ c

theorem openTag_sc {tag : Str} {cl : Option Str} (ht : tag ∈ elementNames) (hc : ClassOk cl) (st : RState)
    (env : List EnvR) : ∃ m, InTag tag m ∧ Sc d .text S (openTagStr st env tag cl) m S := by
  unfold openTagStr
  have h0 : Sc d .text S (c!"<" ++ tag) (.name tag.reverse) S := by
    simp only [elementNames, List.mem_cons, List.not_mem_nil, or_false] at ht
    rcases ht with rfl | rfl | rfl | rfl | rfl | rfl | rfl | rfl | rfl | rfl | rfl | rfl | rfl | rfl | rfl | rfl | rfl |
      rfl | rfl | rfl | rfl | rfl <;> rfl
  obtain ⟨m1, t1, h1⟩ : ∃ m, InTag tag m ∧ Sc d (.name tag.reverse) S (match st.style with
    | some s => if inScriptOperand env then [] else styleAttr s
    | none => []) m S := by
    cases st.style with
    | none => exact ⟨_, ⟨ht, .inl rfl⟩, rfl⟩
    | some y =>
      dsimp only
      split
      · exact ⟨_, ⟨ht, .inl rfl⟩, rfl⟩
      · exact ⟨_, .attrs ht, styleAttr_sc ⟨ht, .inl rfl⟩ y⟩
  obtain ⟨m2, t2, h2⟩ := colorAttr_sc (d := d) (S := S) t1 st
  cases cl with
  | none => exact ⟨m2, t2, ((h0.append h1).append h2).append rfl⟩
  | some c =>
    have := hc c rfl
    refine ⟨_, .attrs ht, ((h0.append h1).append h2).append ?_⟩
    sc [t2.attr, Sc.quoted this.1 this.2]

theorem mapChar_lt {f : Font} {c e : Char} (hc : c ≠ '<') (h : f.mapChar c = some e) : e ≠ '<' := by
  rintro rfl
  unfold Font.mapChar at h
  simp only at h
  split at h
  · rename_i hv
    have e : fontCode f c = 60 := congrArg (fun o : Option Char => (o.map Char.toNat).getD 0) h
    unfold fontCode at e
    have key : ∀ arms : List (Font × Nat × Nat × Nat), (∀ a ∈ arms, a.2.2.2 = 0 ∨ 60 < a.2.2.2) →
        fontOffset f c.toNat arms = 0 ∨ 60 < fontOffset f c.toNat arms := by
      intro arms
      induction arms with
      | nil => intro _; exact .inl rfl
      | cons a arms ih =>
        intro ha
        unfold fontOffset
        split
        · exact ha a (by simp)
        · exact ih fun a h => ha a (by simp [h])
    have := key fontArms (by decide +kernel)
    have e0 : c.toNat = '<'.toNat := by
      show c.toNat = 60
      omega
    exact hc (Char.toNat_inj.1 e0)
  · cases h

end PL.Mathml
