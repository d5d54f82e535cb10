import Verif.Props.Output
import Verif.Lemmas.Render.Wp
import Verif.Props.Fonts
import Verif.Props.Stream
import Verif.Spec.Markup
set_option autoImplicit false
/-!
# Text in the output (C32, C33)
-/
namespace PL.Props
open PL PL.Mathml Spec

/-! ## C32: text -/

theorem escape_spec (t : Str) : Escaped (escape t) t := by
  induction t with
  | nil => exact .nil
  | cons c t ih =>
    show Escaped (escapeChar c ++ escape t) (c :: t)
    unfold escapeChar
    split
    · rename_i h; subst h; exact .amp ih
    · rename_i h1
      split
      · rename_i h; subst h; exact .lt ih
      · rename_i h2
        split
        · rename_i h; subst h; exact .gt ih
        · rename_i h3; exact .plain h1 h2 h3 ih

/-- Escaped characters contain no tags and only the three entities, and determine the text. -/
theorem C32_escape (t : Str) : Escaped (escape t) t ∧ '<' ∉ escape t ∧ '>' ∉ escape t ∧
    (∀ a b, escape t = a ++ '&' :: b → c!"amp;" <+: b ∨ c!"lt;" <+: b ∨ c!"gt;" <+: b) ∧
    (∀ t', escape t = escape t' → t = t') := by
  have h := escape_spec t
  refine ⟨h, h.no_tag.1, h.no_tag.2, fun a b hb => h.entity hb, fun t' ht => h.unique (ht ▸ escape_spec t')⟩

example : escape c!"a<&b" = c!"a&lt;&amp;b" := by decide

/-- The characters of `x` in the font. -/
inductive InFont (f : Option Font) : Str → Str → Prop
  | nil : InFont f [] []
  | cons {c d x y} : (match f with | none => d = c | some f => f.mapChar c = some d) → InFont f x y →
      InFont f (c :: x) (d :: y)

/-- No white space at the ends. -/
def Trimmed (x : Str) : Prop := (∀ c r, x = c :: r → isWs c = false) ∧ (∀ r c, x = r ++ [c] → isWs c = false)

theorem dropWhile_parts (p : Char → Bool) (t : Str) : ∃ w, t = w ++ t.dropWhile p ∧ (∀ c ∈ w, p c = true) ∧
    ∀ c r, t.dropWhile p = c :: r → p c = false := by
  induction t with
  | nil => exact ⟨[], rfl, by simp, by simp⟩
  | cons c t ih =>
    obtain ⟨w, h1, h2, h3⟩ := ih
    cases hc : p c with
    | true =>
      refine ⟨c :: w, ?_, ?_, ?_⟩
      · rw [List.dropWhile_cons_of_pos hc, List.cons_append, ← h1]
      · intro x hx
        rcases List.mem_cons.1 hx with rfl | hx
        · exact hc
        · exact h2 x hx
      · rw [List.dropWhile_cons_of_pos hc]; exact h3
    | false =>
      refine ⟨[], ?_, by simp, ?_⟩
      · rw [List.dropWhile_cons_of_neg (by simp [hc])]; rfl
      · rw [List.dropWhile_cons_of_neg (by simp [hc])]
        rintro _ _ ⟨⟩; exact hc

theorem trim_parts (t : Str) : ∃ w w', t = w ++ trim t ++ w' ∧ Spaces w ∧ Spaces w' ∧ Trimmed (trim t) := by
  obtain ⟨w, h1, h2, h3⟩ := dropWhile_parts isWs t
  obtain ⟨w', g1, g2, g3⟩ := dropWhile_parts isWs (trimStart t).reverse
  have e : trimStart t = trim t ++ w'.reverse := by
    have := congrArg List.reverse g1
    rw [List.reverse_reverse, List.reverse_append] at this
    exact this
  refine ⟨w, w'.reverse, ?_, h2, fun c hc => g2 c (List.mem_reverse.1 hc), ?_, ?_⟩
  · rw [List.append_assoc, ← e]; exact h1
  · intro c r hc
    have : trimStart t = c :: (r ++ w'.reverse) := by rw [e, hc]; rfl
    exact h3 c _ this
  · intro r c hc
    apply g3 c r.reverse
    have : trim t = ((trimStart t).reverse.dropWhile isWs).reverse := rfl
    rw [this] at hc
    have := congrArg List.reverse hc
    rw [List.reverse_reverse, List.reverse_append] at this
    exact this

theorem forChars_font (f : Font) (x : Str) : ∃ y, InFont (some f) x y ∧ ∀ pk rt o env ss pv rc Q,
    wp (forChars (fun c => do W.out (escapeChar (← mapChar f c))) x) Q ⟨pk, rt, o, none, env, ss, pv, rc⟩ ↔
      Q ⟨⟩ ⟨pk, rt, o ++ escape y, none, env, ss, pv, rc⟩ := by
  induction x with
  | nil => exact ⟨[], .nil, fun _ _ _ _ _ _ _ _ => by simp [forChars, wp_pure, escape]⟩
  | cons c x ih =>
    obtain ⟨d, hd⟩ := C37_total f c
    obtain ⟨y, hy, he⟩ := ih
    refine ⟨d :: y, .cons hd hy, fun _ _ _ _ _ _ _ _ => ?_⟩
    have hm : mapChar f c = pure d := by rw [mapChar, hd]
    simp only [forChars, hm, wp_bind, wp_pure, wp_out', he]
    simp [escape]

theorem inFont_none (x : Str) : InFont none x x := by
  induction x with
  | nil => exact .nil
  | cons c x ih => exact .cons rfl ih

/-- The entity for removed white space is written exactly if there was some. -/
def Pad (p : Prop) (n : Str) : Prop := p ∧ n = c!"&nbsp;" ∨ ¬ p ∧ n = []

theorem text_front (t : Str) : (t.head?.map isWs).getD false = true ↔ ∃ c r, t = c :: r ∧ isWs c = true := by
  cases t with
  | nil => simp
  | cons c t => simp

theorem text_back (t : Str) : (t.getLast?.map isWs).getD false = true ↔ ∃ r c, t = r ++ [c] ∧ isWs c = true := by
  rcases List.eq_nil_or_concat t with rfl | ⟨r, c, rfl⟩
  · simp
  · constructor
    · intro h
      exact ⟨r, c, by simp, by simpa using h⟩
    · rintro ⟨r', c', h, hc'⟩
      have h' := congrArg List.getLast? h
      simp at h'
      simp [h', hc']

/-- What a text event writes, in every state: inside an `mtext` element, the characters of the text without the white
space at its ends, in the current font, escaped; and an entity for the white space removed at each end. -/
theorem C32_text (cfg : RCfg) (neg : Bool) (t : Str) (s : RSt) (st : RState) (r : List RState) (hs : s.sts = st :: r)
    (hb : s.budget = none) : ∃ w x w' y e n n' s', t = w ++ x ++ w' ∧ Spaces w ∧ Spaces w' ∧ Trimmed x ∧
      InFont st.font x y ∧ Escaped e y ∧
      Pad (∃ c r, t = c :: r ∧ isWs c = true) n ∧ Pad (∃ r c, t = r ++ [c] ∧ isWs c = true) n' ∧
      writeContent cfg neg (.text t) s = .ok ⟨⟩ s' ∧
      s'.out = s.out ++ (openTagStr st s.env c!"mtext" none ++ c!">" ++ n ++ e ++ n' ++ c!"</mtext>") := by
  obtain ⟨pk, rt, o, b, env, ss, pv, rc⟩ := s
  cases hs; cases hb
  obtain ⟨w, w', h1, h2, h3, h4⟩ := trim_parts t
  have pad : ∀ (p : Prop) (b : Bool), (b = true ↔ p) → ∃ n, Pad p n ∧ n = bif b then c!"&nbsp;" else [] := by
    intro p b h
    cases b with
    | true => exact ⟨_, .inl ⟨h.1 rfl, rfl⟩, rfl⟩
    | false => exact ⟨_, .inr ⟨fun hp => (Bool.false_ne_true (h.2 hp)).elim, rfl⟩, rfl⟩
  obtain ⟨n, hn, en⟩ := pad _ _ (text_front t)
  obtain ⟨n', hn', en'⟩ := pad _ _ (text_back t)
  obtain ⟨y, hy, e⟩ : ∃ y, InFont st.font (trim t) y ∧ wp (writeContent cfg neg (.text t)) (fun _ s' => s'.out = o ++
      (openTagStr st env c!"mtext" none ++ c!">" ++ n ++ escape y ++ n' ++ c!"</mtext>"))
      ⟨pk, rt, o, none, env, st :: r, pv, rc⟩ := by
    rw [writeContent]
    cases hf : st.font with
    | none =>
      refine ⟨_, inFont_none _, ?_⟩
      wps
      cases g : (t.head?.map isWs).getD false <;> cases g' : (t.getLast?.map isWs).getD false <;> rw [g] at en <;>
        rw [g'] at en' <;> subst en <;> subst en' <;>
        simp [wp_out', wp_bind, wp_setPrev, wp_state, hf, List.append_assoc]
    | some f =>
      obtain ⟨y, hy, he⟩ := forChars_font f (trim t)
      refine ⟨y, hy, ?_⟩
      wps
      cases g : (t.head?.map isWs).getD false <;> cases g' : (t.getLast?.map isWs).getD false <;> rw [g] at en <;>
        rw [g'] at en' <;> subst en <;> subst en' <;>
        simp [wp_out', wp_bind, wp_setPrev, wp_state, hf, he, List.append_assoc]
  obtain ⟨a, s', e, h⟩ := e
  exact ⟨w, _, w', y, _, n, n', _, h1, h2, h3, h4, hy, escape_spec y, hn, hn', e, h⟩

/-- A case: bold text with white space at both ends. -/
example : ∃ s', writeContent rc0 false (.text c!" a<1 ") { initSt [] [] none with sts := [{ font := some .bold }] } =
    .ok ⟨⟩ s' ∧ s'.out = c!"<mtext>&nbsp;𝐚&lt;𝟏&nbsp;</mtext>" := ⟨_, rfl, by decide +kernel⟩

end PL.Props
