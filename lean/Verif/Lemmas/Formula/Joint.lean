import Verif.Spec.Joint
import Verif.Lemmas.Formula.Complete
import Verif.Lemmas.Formula.Converse
set_option autoImplicit false
/-! # Reading a text that has something after it -/
namespace PL.Formula
open PL PL.Lex Spec PL.Props

/-! ### Texts and what starts them -/

/-- Where a text that does not consist of spaces starts does not depend on what comes after it. -/
theorem lead_more {s z : Str} {P : Char → Prop} (hs : ¬ Spaces s) (h : ∀ w c u, Spaces w → s = w ++ c :: u → isWs c = false → ¬ P c) :
    ∀ w c u, Spaces w → s ++ z = w ++ c :: u → isWs c = false → ¬ P c := by
  intro w c u hw e hc
  rcases List.append_eq_append_iff.1 e with ⟨x, h1, h2⟩ | ⟨x, h1, h2⟩
  · exact absurd (fun d hd => hw d (by rw [h1]; simp [hd])) hs
  · cases x with
    | nil => simp only [List.append_nil] at h1; exact absurd (h1 ▸ hw) hs
    | cons d x => injection h2 with h2 h3; subst h2; exact h w c x hw h1 hc

theorem no_char_more {s z : Str} {a : Char} (ha : isWs a = false) (hs : ¬ Spaces s) (h : ∀ w u, Spaces w → s ≠ w ++ a :: u) :
    ∀ w u, Spaces w → s ++ z ≠ w ++ a :: u := by
  intro w u hw e
  exact lead_more (P := fun c => c = a) (z := z) hs (fun w c u hw e _ hc => h w u hw (by rw [e, hc])) w a u hw e ha rfl

theorem spaces_or {s : Str} : Spaces s ∨ ∃ c ∈ s, isWs c = false := by
  by_cases h : ∃ c ∈ s, isWs c = false
  · exact .inr h
  · exact .inl fun c hc => by
      cases e : isWs c with
      | true => rfl
      | false => exact absurd ⟨c, hc, e⟩ h

theorem not_spaces {s : Str} {c : Char} (h : c ∈ s) (hc : isWs c = false) : ¬ Spaces s := fun hs => by rw [hs c h] at hc; cases hc

theorem not_spaces_suffix {s t : Str} (h : s <:+ t) (hs : ¬ Spaces s) : ¬ Spaces t := fun ht => hs fun c hc => ht c (h.subset hc)

/-! ### Groups -/

theorem not_prefix_more {a s z : Str} (hl : a.length ≤ s.length) (h : ¬ a <+: s) : ¬ a <+: s ++ z :=
  fun h1 => h (List.prefix_of_prefix_length_le h1 (List.prefix_append s z) hl)

/-- A text that contains `cl` does not become the start of `op`. -/
theorem not_opener_more {op cl s z : Str} (hoc : ¬ cl <:+: op) (hc : cl <:+: s) (h : ¬ op <+: s) : ¬ op <+: s ++ z := by
  by_cases hl : op.length ≤ s.length
  · exact not_prefix_more hl h
  · intro h1
    exact hoc (hc.trans (List.prefix_of_prefix_length_le (List.prefix_append s z) h1 (by omega)).isInfix)

theorem split_closer {op cl s g r : Str} {d : Nat} (h : Split op cl d s g r) : cl <:+: s := by
  rw [split_text h]
  exact ⟨g, r, by simp⟩

theorem not_closer_more {op cl s x g r z : Str} {d : Nat} (h : Split op cl d s g r) (hx : s <:+: x) (hn : ¬ cl <+: x) : ¬ cl <+: x ++ z :=
  not_prefix_more ((split_closer h).trans hx).length_le hn

theorem split_more {op cl s g r : Str} {d : Nat} (z : Str) (hoc : ¬ cl <:+: op) (h : Split op cl d s g r) : Split op cl d (s ++ z) g (r ++ z) := by
  induction h with
  | @done r => rw [List.append_assoc]; exact .done
  | @opener d s g r h0 h1 ih =>
    rw [List.append_assoc]
    refine .opener (fun hd => ?_) ih
    have := not_closer_more (z := z) h1 (x := op ++ s) ⟨op, [], by simp⟩ (h0 hd)
    rwa [List.append_assoc] at this
  | @closer d s g r h0 h1 ih =>
    rw [List.append_assoc]
    refine .closer ?_ ih
    have := not_opener_more (z := z) hoc (s := cl ++ s) ⟨[], s, by simp⟩ h0
    rwa [List.append_assoc] at this
  | @comment d line s g r h0 h1 h2 h3 ih =>
    have e : ('%' :: (line ++ '\n' :: s)) ++ z = '%' :: (line ++ '\n' :: (s ++ z)) := by simp
    have hx : s <:+: '%' :: (line ++ '\n' :: s) := ⟨'%' :: (line ++ ['\n']), [], by simp⟩
    rw [e]
    refine .comment ?_ ?_ h2 ih
    · rw [← e]; exact not_opener_more hoc ((split_closer h3).trans hx) h0
    · rw [← e]; exact not_closer_more h3 hx h1
  | @escaped d c s g r h0 h1 h3 ih =>
    have hx : s <:+: '\\' :: c :: s := ⟨['\\', c], [], by simp⟩
    exact .escaped (not_opener_more (s := '\\' :: c :: s) hoc ((split_closer h3).trans hx) h0) (not_closer_more (x := '\\' :: c :: s) h3 hx h1) ih
  | @char d c s g r h0 h1 h2 h2' h3 ih =>
    have hx : s <:+: c :: s := ⟨[c], [], by simp⟩
    exact .char (not_opener_more (s := c :: s) hoc ((split_closer h3).trans hx) h0) (not_closer_more (x := c :: s) h3 hx h1) h2 h2' ih

theorem braced_more {s g r : Str} (z : Str) (h : Braced s g r) : Braced (s ++ z) g (r ++ z) := by
  obtain ⟨w, t, hw, rfl, h⟩ := h
  exact ⟨w, t ++ z, hw, by simp, split_more z (by decide) h⟩

theorem bracketed_more {s g r : Str} (z : Str) (h : Bracketed s g r) : Bracketed (s ++ z) g (r ++ z) := by
  obtain ⟨w, t, hw, rfl, h⟩ := h
  exact ⟨w, t ++ z, hw, by simp, split_more z (by decide) h⟩

theorem env_closer (name : Str) : ¬ (c!"\\end{" ++ name ++ c!"}") <:+: (c!"\\begin{" ++ name ++ c!"}") := by
  rintro ⟨p, q, e⟩
  have hl := congrArg List.length e
  simp only [List.length_append, List.length_cons, List.length_nil] at hl
  match p with
  | [] => simp at e
  | [a] => simp at e
  | [a, b] => simp at e
  | a :: b :: c :: p => simp only [List.length_cons] at hl; omega

theorem suffix_split {op cl s g r : Str} {d : Nat} (h : Split op cl d s g r) : r <:+ s := ⟨g ++ cl, by rw [split_text h]; simp⟩

theorem braced_not_spaces {s g r : Str} (h : Braced s g r) : ¬ Spaces s := by
  obtain ⟨w, t, -, rfl, -⟩ := h
  exact not_spaces (c := '{') (by simp) (by decide)

/-! ### Two texts that meet -/

section joint
variable {t z : Str} (hc : Closed t) (hm : Meets t z)

/-- Where a token comes from: it is in `t`, and `s` follows it. -/
def From (t : Str) : Word → Str → Prop
  | .chr c, s => c :: s <:+ t
  | .cs name, s => ∃ w, Spaces w ∧ '\\' :: (name ++ (w ++ s)) <:+ t ∧ CsName (name ++ (w ++ s)) name (w ++ s)

include hm in
theorem csName_more {s name r : Str} (hs : '\\' :: s <:+ t) (h : CsName s name r) : CsName (s ++ z) name (r ++ z) ∧ s = name ++ r := by
  cases h with
  | @word name r h0 h1 h2 =>
    refine ⟨?_, rfl⟩
    rw [List.append_assoc]
    refine .word h0 h1 fun c v e => ?_
    cases r with
    | cons d r => injection e with e _; subst e; exact h2 _ _ rfl
    | nil =>
      cases hl : isLetter c with
      | false => rfl
      | true =>
        obtain ⟨p, hp⟩ := hs
        exact absurd (by rw [← hp]; simp) (hm.word c v e hl p name h1)
  | symbol h => exact ⟨.symbol h, rfl⟩

theorem head_more {z : Str} {P : Char → Prop} {r : Str} (h : ∀ c v, r = c :: v → P c) (hz : ∀ c v, z = c :: v → P c) : ∀ c v, r ++ z = c :: v → P c := by
  intro c v e
  cases r with
  | nil => exact hz c v e
  | cons d r => injection e with e _; subst e; exact h _ _ rfl

include hm in
theorem nextTok_more {s r : Str} {x : Word} (hs : s <:+ t) (h : NextTok s x r) : NextTok (s ++ z) x (r ++ z) ∧ From t x r ∧ r <:+ t := by
  have hr := (suffix_nextTok h).trans hs
  suffices h1 : NextTok (s ++ z) x (r ++ z) ∧ From t x r from ⟨h1.1, h1.2, hr⟩
  clear hr
  cases h with
  | @chr k c r h0 h1 h2 h3 =>
    refine ⟨?_, List.IsSuffix.trans ⟨k, rfl⟩ hs⟩
    rw [List.append_assoc]
    exact .chr h0 h1 h2 h3
  | @cs k t' name w r h0 h1 h2 h3 =>
    have hs' : '\\' :: t' <:+ t := List.IsSuffix.trans ⟨k, rfl⟩ hs
    obtain ⟨h4, e⟩ := csName_more hm hs' h1
    subst e
    refine ⟨?_, w, h2, hs', h1⟩
    rw [List.append_assoc]
    refine .cs (t := (name ++ (w ++ r)) ++ z) h0 (w := w) ?_ h2 (head_more (P := fun c => isWs c = false) h3 fun c v e => (hm.first c v e).1)
    rw [List.append_assoc w r z] at h4
    exact h4

theorem nextTok_not_spaces {s r : Str} {x : Word} (h : NextTok s x r) : ¬ Spaces s := by
  cases h with
  | @chr k c r h0 h1 h2 h3 => exact not_spaces (c := c) (by simp) h3
  | @cs k t' name w r h0 h1 h2 h3 => exact not_spaces (c := '\\') (by simp) (by decide)

include hm in
theorem tokArg_more {s r : Str} {x : Word} (hs : s <:+ t) (h : TokArg s x r) : TokArg (s ++ z) x (r ++ z) ∧ From t x r ∧ r <:+ t := by
  obtain ⟨h1, h2⟩ := nextTok_more hm hs h.1
  exact ⟨⟨h1, no_char_more (by decide) (nextTok_not_spaces h.1) h.2⟩, h2⟩

include hm in
theorem delim_more {s r : Str} {d : Char} {ty : DelimType} (hs : s <:+ t) (h : Delim s d ty r) : Delim (s ++ z) d ty (r ++ z) ∧ r <:+ t := by
  cases h with
  | chr h e => obtain ⟨h1, -, h2⟩ := nextTok_more hm hs h; exact ⟨.chr h1 e, h2⟩
  | cs h e => obtain ⟨h1, -, h2⟩ := nextTok_more hm hs h; exact ⟨.cs h1 e, h2⟩

theorem head_append {s z : Str} {c : Char} (hs : s ≠ []) (h : s.head? ≠ some c) : (s ++ z).head? ≠ some c := by
  cases s with
  | nil => exact absurd rfl hs
  | cons => exact h

theorem nextTok_ne {s r : Str} {x : Word} (h : NextTok s x r) : s ≠ [] := by
  rintro rfl
  exact nextTok_not_spaces h (by intro c hc; cases hc)

include hm in
theorem delimText_more {s r : Str} {d : Option Char} (hs : s <:+ t) (h : DelimText s d r) : DelimText (s ++ z) d (r ++ z) ∧ r <:+ t := by
  cases h with
  | dot => exact ⟨.dot, List.IsSuffix.trans ⟨['.'], rfl⟩ hs⟩
  | chr hh h e => obtain ⟨h1, -, h2⟩ := nextTok_more hm hs h; exact ⟨.chr (head_append (nextTok_ne h) hh) h1 e, h2⟩
  | cs hh h e => obtain ⟨h1, -, h2⟩ := nextTok_more hm hs h; exact ⟨.cs (head_append (nextTok_ne h) hh) h1 e, h2⟩

/-! ### Numbers and lengths -/

include hm in
theorem optSpace_more {s r : Str} (h : OptSpace s r) : OptSpace (s ++ z) (r ++ z) := by
  cases h with
  | none h => exact .none (head_more (P := fun c => isWs c = false) h fun c v e => (hm.first c v e).1)
  | one h => exact .one h

theorem dimText_more {s ip fp r : Str} {neg : Bool} {u : Unit_} (z : Str) (h : DimText s neg ip fp u r) : DimText (s ++ z) neg ip fp u (r ++ z) := by
  cases h with
  | whole h0 h1 h2 => rw [List.append_assoc]; exact .whole h0 h1 h2
  | frac h0 h1 h2 h3 h4 => rw [List.append_assoc]; exact .frac h0 h1 h2 h3 h4

include hm in
theorem length_more {s r : Str} {d : Dim} (h : Length s d r) : Length (s ++ z) d (r ++ z) := by
  cases h with
  | mk h0 h1 h2 =>
    refine .mk (dimText_more z h0) (optSpace_more hm h1) ?_
    refine head_more (P := fun c => isWs c = true → c.toNat < 128) h2 fun c v e hw => ?_
    rw [(hm.first c v e).1] at hw
    cases hw

theorem unitName_char (u : Unit_) : ∃ c ∈ unitName u, isWs c = false := by cases u <;> exact ⟨_, List.mem_cons_self, by decide⟩

theorem dimText_not_spaces {s ip fp r : Str} {neg : Bool} {u : Unit_} (h : DimText s neg ip fp u r) : ¬ Spaces s := by
  obtain ⟨c, h1, h2⟩ := unitName_char u
  cases h with
  | whole => exact not_spaces (by simp [h1]) h2
  | frac => exact not_spaces (by simp [h1]) h2

theorem dimText_suffix {s ip fp r : Str} {neg : Bool} {u : Unit_} (h : DimText s neg ip fp u r) : r <:+ s := by
  cases h with
  | whole => exact ⟨_, rfl⟩
  | frac => exact ⟨_, rfl⟩

theorem optSpace_suffix {s r : Str} (h : OptSpace s r) : r <:+ s := by
  cases h with
  | none => exact List.suffix_refl _
  | one => exact ⟨[_], rfl⟩

theorem length_suffix {s r : Str} {d : Dim} (h : Length s d r) : r <:+ s := by
  cases h with
  | mk h0 h1 => exact (optSpace_suffix h1).trans (dimText_suffix h0)

theorem length_not_spaces {s r : Str} {d : Dim} (h : Length s d r) : ¬ Spaces s := by
  cases h with
  | mk h0 h1 => exact dimText_not_spaces h0

include hm in
theorem stretch_more {word s r : Str} {p : Option Dim} (hw : ∀ c ∈ word, isLetter c = true) (hz : ∀ c v, z = c :: v → isLetter c = false) (h : Stretch word s p r) :
    Stretch word (s ++ z) p (r ++ z) ∧ r <:+ s := by
  cases h with
  | none h =>
    refine ⟨.none fun w u hw' e => ?_, List.suffix_refl _⟩
    rw [List.append_assoc] at e
    rcases List.append_eq_append_iff.1 e with ⟨x, h1, h2⟩ | ⟨x, h1, h2⟩
    · -- the word and perhaps some spaces come after `s`
      cases hx : x with
      | nil =>
        rw [hx] at h2
        cases hword : word with
        | nil => exact h w [] hw' (by rw [hword, h1, hx]; simp)
        | cons a b =>
          rw [hword] at h2
          have := hz a (b ++ u) h2
          rw [hw a (by rw [hword]; simp)] at this
          cases this
      | cons a b =>
        rw [hx] at h2
        have h3 := (hm.first a _ h2).1
        rw [hw' a (by rw [h1, hx]; simp)] at h3
        cases h3
    · rcases List.append_eq_append_iff.1 h2 with ⟨y, h3, h4⟩ | ⟨y, h3, h4⟩
      · exact h w y hw' (by rw [h1, h3]; simp)
      · cases hy : y with
        | nil => exact h w [] hw' (by rw [h1, h3, hy]; simp)
        | cons a b =>
          rw [hy] at h4
          have := hz a (b ++ u) (by simpa using h4)
          rw [hw a (by rw [h3, hy]; simp)] at this
          cases this
  | @some w s d r h0 h1 =>
    refine ⟨?_, (length_suffix h1).trans ⟨w ++ word, rfl⟩⟩
    rw [List.append_assoc]
    exact .some h0 (length_more hm h1)

theorem glue_not_spaces {s r : Str} {g : Dim × Option Dim × Option Dim} (h : Glue s g r) : ¬ Spaces s := by
  cases h with
  | mk h => exact length_not_spaces h

include hm in
theorem glue_more {s r : Str} {g : Dim × Option Dim × Option Dim} (hz : ∀ c v, z = c :: v → isLetter c = false) (h : Glue s g r) : Glue (s ++ z) g (r ++ z) ∧ r <:+ s := by
  cases h with
  | mk h0 h1 h2 =>
    obtain ⟨h3, h4⟩ := stretch_more hm (by decide) hz h1
    obtain ⟨h5, h6⟩ := stretch_more hm (by decide) hz h2
    exact ⟨.mk (length_more hm h0) h3 h5, h6.trans (h4.trans (length_suffix h0))⟩

theorem maybeBraced_more {α : Type} {What : Str → α → Str → Prop} {s r z : Str} {a : α} (h1 : ∀ s a r, What s a r → What (s ++ z) a (r ++ z) ∧ r <:+ s)
    (h2 : ∀ s a r, What s a r → ¬ Spaces s) (h : MaybeBraced What s a r) : MaybeBraced What (s ++ z) a (r ++ z) ∧ r <:+ s := by
  cases h with
  | bare h h3 => exact ⟨.bare (no_char_more (by decide) (h2 _ _ _ h3) h) (h1 _ _ _ h3).1, (h1 _ _ _ h3).2⟩
  | braced h h3 h4 => exact ⟨.braced (braced_more z h) h3 h4, suffix_braced h⟩

include hm in
theorem digits_more {p : Char → Prop} {s ds r : Str} (hz : ∀ c v, z = c :: v → ¬ p c) (h : Digits p s ds r) : Digits p (s ++ z) ds (r ++ z) ∧ r <:+ s := by
  obtain ⟨u, rfl, h1, h2, h3, h4⟩ := h
  refine ⟨⟨u ++ z, by simp, h1, head_more (P := fun c => ¬ p c) h2 hz, optSpace_more hm h3, ?_⟩, (optSpace_suffix h3).trans ⟨ds, rfl⟩⟩
  refine head_more (P := fun c => isWs c = true → c.toNat < 128) h4 fun c v e hw => ?_
  rw [(hm.first c v e).1] at hw
  cases hw

theorem decDigit_digit {c : Char} (h : DecDigit c) : isDigit c = true := by
  unfold DecDigit at h
  unfold isDigit
  simp only [Bool.and_eq_true, decide_eq_true_eq]
  exact h

theorem upperHex_plain {c : Char} (h : UpperHex c) : isLetter c = true ∨ isDigit c = true := by
  rcases h with h | h
  · exact .inr (decDigit_digit h)
  · left
    unfold isLetter
    simp only [Bool.and_eq_true, Bool.or_eq_true, decide_eq_true_eq]
    omega

include hm in
theorem intConst_more {s r : Str} {n : Nat} (hz : ∀ c v, z = c :: v → isLetter c = false ∧ isDigit c = false) (h : IntConst s n r) : IntConst (s ++ z) n (r ++ z) ∧ r <:+ s := by
  have hd : ∀ c v, z = c :: v → ¬ DecDigit c := fun c v e h => by have := (hz c v e).2; rw [decDigit_digit h] at this; cases this
  have hx : ∀ c v, z = c :: v → ¬ UpperHex c := fun c v e h => by
    rcases upperHex_plain h with h | h
    · rw [(hz c v e).1] at h; cases h
    · rw [(hz c v e).2] at h; cases h
  cases h with
  | dec h0 h1 => obtain ⟨h2, h3⟩ := digits_more hm hd h1; exact ⟨.dec h0 h2, h3⟩
  | oct h1 => obtain ⟨h2, h3⟩ := digits_more hm hd h1; exact ⟨.oct h2, h3.trans ⟨['\''], rfl⟩⟩
  | hex h1 => obtain ⟨h2, h3⟩ := digits_more hm hx h1; exact ⟨.hex h2, h3.trans ⟨['"'], rfl⟩⟩
  | @char c r h0 h1 => exact ⟨.char h0 h1, ⟨['`', c], rfl⟩⟩
  | @escaped c r h1 => exact ⟨.escaped h1, ⟨['`', '\\', c], rfl⟩⟩

include hm in
theorem numberLit_more {s lit r : Str} (hs : s <:+ t) (h : NumberLit s lit r) : NumberLit (s ++ z) lit (r ++ z) ∧ r <:+ s := by
  obtain ⟨p, hp⟩ := hs
  cases h with
  | @whole lit r c h0 h1 h2 =>
    refine ⟨?_, ⟨lit ++ [c], by simp⟩⟩
    rw [List.append_assoc]
    refine .whole h0 h1 fun d v e => ?_
    cases r with
    | cons a r => injection e with e _; subst e; exact h2 _ _ rfl
    | nil => intro hd; exact hm.number d v e hd (p ++ lit) c (.inl h1) (by rw [← hp]; simp)
  | @sep lit r c h0 h1 h3 h2 =>
    refine ⟨?_, ⟨lit, rfl⟩⟩
    rw [List.append_assoc]
    refine .sep h0 h1 h3 fun d v e => ?_
    cases r with
    | cons a r => injection e with e _; subst e; exact h2 _ _ rfl
    | nil => intro hd; exact hm.number d v e hd (p ++ lit) c (.inr h3) (by rw [← hp]; simp)

/-! ### Optional arguments, limits, scripts -/

theorem dangles_comment {d : Nat} {u : Bool} {s : Str} (h : Dangles d u s) (hu : u = true) : ∃ p q, s = p ++ '%' :: q ∧ '\n' ∉ q := by
  induction h with
  | nil => cases hu
  | backslash => cases hu
  | opener _ ih => obtain ⟨p, q, rfl, h⟩ := ih hu; exact ⟨'[' :: p, q, rfl, h⟩
  | closer _ ih => obtain ⟨p, q, rfl, h⟩ := ih hu; exact ⟨']' :: p, q, rfl, h⟩
  | @comment d u line s _ _ ih => obtain ⟨p, q, rfl, h⟩ := ih hu; exact ⟨'%' :: (line ++ '\n' :: p), q, by simp, h⟩
  | @unfinished d line h => exact ⟨[], line, rfl, h⟩
  | @escaped d u c s _ ih => obtain ⟨p, q, rfl, h⟩ := ih hu; exact ⟨'\\' :: c :: p, q, rfl, h⟩
  | @char d u c s _ _ _ _ _ ih => obtain ⟨p, q, rfl, h⟩ := ih hu; exact ⟨c :: p, q, rfl, h⟩

include hc in
/-- An optional argument that is not there, with something after it. -/
theorem noOptional_more {s r : Str} (hs : s <:+ t) (hr : ¬ Spaces r) (h : NoOptional s r) : NoOptional (s ++ z) (r ++ z) ∧ r <:+ t := by
  cases h with
  | absent h => exact ⟨.absent (no_char_more (by decide) hr h), hs⟩
  | lost => exact absurd (by intro c hc; cases hc) hr
  | @dropped w u h0 h1 =>
    obtain ⟨p, q, rfl, hn⟩ := dangles_comment h1 rfl
    obtain ⟨x, hx⟩ := hs
    obtain ⟨a, b, rfl, -⟩ := hc.comments (x ++ w ++ '[' :: p) q (by rw [← hx]; simp)
    exact absurd (by simp) hn

theorem wordSeq_suffix {α : Type} {words : List (Str × α)} {s r : Str} {vs : List α} (h : WordSeq words s vs r) : r <:+ s := by
  induction h with
  | nil => exact List.suffix_refl _
  | @cons w u v s vs r _ _ _ ih => exact ih.trans ⟨w ++ u, rfl⟩

theorem wordSeq_more {α : Type} {words : List (Str × α)} {s r z : Str} {vs : List α} (h : WordSeq words s vs r)
    (hz : (∀ w v u t, Spaces w → (u, v) ∈ words → r ≠ w ++ u ++ t) → ∀ w v u t, Spaces w → (u, v) ∈ words → r ++ z ≠ w ++ u ++ t) :
    WordSeq words (s ++ z) vs (r ++ z) := by
  induction h with
  | nil h => exact .nil (hz h)
  | @cons w u v s vs r h0 h1 _ ih => rw [List.append_assoc]; exact .cons h0 h1 (ih hz)

/-- A word after the text or across its end. -/
theorem straddle {s z w u x : Str} (hw : Spaces w) (hz : ∀ c v, z = c :: v → isWs c = false) (e : s ++ z = w ++ u ++ x) :
    (∃ y, s = w ++ u ++ y) ∨ (∃ a b c v, u = a ++ c :: b ∧ s = w ++ a ∧ z = c :: v ∧ (a = [] → u <+: z)) ∨ u = [] := by
  rw [List.append_assoc] at e
  rcases List.append_eq_append_iff.1 e with ⟨y, h1, h2⟩ | ⟨y, h1, h2⟩
  · cases y with
    | nil =>
      cases u with
      | nil => exact .inr (.inr rfl)
      | cons a b => exact .inr (.inl ⟨[], b, a, b ++ x, rfl, by simpa using h1.symm, h2, fun _ => ⟨x, h2.symm⟩⟩)
    | cons a b =>
      have := hz a _ h2
      rw [hw a (by rw [h1]; simp)] at this
      cases this
  · rcases List.append_eq_append_iff.1 h2 with ⟨y', h3, h4⟩ | ⟨y', h3, h4⟩
    · exact .inl ⟨y', by rw [h1, h3]; simp⟩
    · cases y' with
      | nil => exact .inl ⟨[], by rw [h1, h3]; simp⟩
      | cons a b =>
        refine .inr (.inl ⟨y, b, a, b ++ x, h3, h1, by simpa using h4, fun hy => ?_⟩)
        subst hy
        exact ⟨x, by rw [h4, h3]; rfl⟩

include hm in
theorem limits_more {b : Bool} {s r : Str} {vs : List Bool} (hs : s <:+ t) (h : Limits b s vs r) : Limits b (s ++ z) vs (r ++ z) ∧ r <:+ t := by
  refine ⟨?_, (limits_suffix h).trans hs⟩
  cases h with
  | no => exact .no
  | yes h =>
    obtain ⟨p, hp⟩ := (wordSeq_suffix h).trans hs
    refine .yes (wordSeq_more h fun h0 w v u x hw hu e => ?_)
    rcases straddle hw (fun c v e => (hm.first c v e).1) e with ⟨y, h1⟩ | ⟨a, b, c, v', h1, h2, h3, h4⟩ | h1
    · exact h0 w v u y hw hu h1
    · have hl : (∀ x ∈ u.tail, isLetter x = true) ∧ u.head? = some '\\' := by
        simp only [List.mem_cons, Prod.mk.injEq, List.not_mem_nil, or_false] at hu
        rcases hu with ⟨rfl, -⟩ | ⟨rfl, -⟩ <;> exact ⟨by decide, rfl⟩
      cases a with
      | nil =>
        have := h4 rfl
        simp only [List.mem_cons, Prod.mk.injEq, List.not_mem_nil, or_false] at hu
        rcases hu with ⟨rfl, -⟩ | ⟨rfl, -⟩
        · exact hm.limits.1 this
        · exact hm.limits.2 this
      | cons a0 a =>
        rw [h1] at hl
        obtain ⟨hl, hh⟩ := hl
        simp only [List.cons_append, List.tail_cons, List.head?_cons, Option.some.injEq] at hl hh
        subst hh
        exact hm.word c v' h3 (hl c (by simp)) (p ++ w) a (fun x hx => hl x (by simp [hx])) (by rw [← hp, h2]; simp)
    · simp only [List.mem_cons, Prod.mk.injEq, List.not_mem_nil, or_false] at hu
      rcases hu with ⟨rfl, -⟩ | ⟨rfl, -⟩ <;> cases h1

include hm in
theorem noScript_more {s : Str} (h : Spec.NoScript s) : Spec.NoScript (s ++ z) := by
  intro w c u hw e
  rcases List.append_eq_append_iff.1 e with ⟨x, h1, h2⟩ | ⟨x, h1, h2⟩
  · cases x with
    | nil => exact (hm.first c u h2).2
    | cons a x =>
      have := (hm.first a _ h2).1
      rw [hw a (by rw [h1]; simp)] at this
      cases this
  · cases x with
    | nil => exact (hm.first c u h2.symm).2
    | cons d x => injection h2 with h2 h3; subst h2; exact h w c x hw h1

include hm in
theorem noScriptHere_more {s : Str} (h : NoScriptHere s) : NoScriptHere (s ++ z) :=
  head_more (P := fun c => c ≠ '^' ∧ c ≠ '_') h fun c v e => (hm.first c v e).2

/-! ### Other parts of the source -/

theorem colourArg_more {s r : Str} {c : Nat × Nat × Nat} (z : Str) (h : ColourArg s c r) : ColourArg (s ++ z) c (r ++ z) ∧ r <:+ s := by
  obtain ⟨g, h1, h2⟩ := h
  exact ⟨⟨g, braced_more z h1, h2⟩, suffix_braced h1⟩

include hm in
theorem genDelim_more {s r : Str} {d : Option Char} (hs : s <:+ t) (h : GenDelim s d r) : GenDelim (s ++ z) d (r ++ z) ∧ r <:+ t := by
  refine ⟨?_, (suffix_genDelim h).trans hs⟩
  cases h with
  | none h => exact .none (braced_more z h)
  | chr h e => exact .chr (tokArg_more hm hs h).1 e
  | cs h e => exact .cs (tokArg_more hm hs h).1 e

theorem genBar_more {s r : Str} {d : Option Dim} (hs : s <:+ t) (h : GenBar s d r) : GenBar (s ++ z) d (r ++ z) ∧ r <:+ t := by
  refine ⟨?_, (suffix_genBar h).trans hs⟩
  cases h with
  | none h => exact .none (braced_more z h)
  | some h h1 h2 => exact .some (braced_more z h) h1 h2

include hm in
theorem genStyle_more {s r : Str} {d : Option Style} (hs : s <:+ t) (h : GenStyle s d r) : GenStyle (s ++ z) d (r ++ z) ∧ r <:+ t := by
  refine ⟨?_, (suffix_genStyle h).trans hs⟩
  cases h with
  | none h => exact .none (braced_more z h)
  | some h e => exact .some (h.imp (fun h => (tokArg_more hm hs h).1) (braced_more z)) e

include hm in
theorem readArg_more {s r x : Str} (hs : s <:+ t) (h : ReadArg s x r) : ReadArg (s ++ z) x (r ++ z) ∧ r <:+ t := by
  cases h with
  | @group w s g r h0 h1 =>
    refine ⟨?_, (suffix_split h1).trans (List.IsSuffix.trans ⟨w ++ ['{'], by simp⟩ hs)⟩
    rw [List.append_assoc]
    exact .group h0 (split_more z (by decide) h1)
  | @char k c r h0 h1 h2 h3 h4 =>
    refine ⟨?_, List.IsSuffix.trans ⟨k ++ [c], by simp⟩ hs⟩
    rw [List.append_assoc]
    exact .char h0 h1 h2 h3 h4
  | @cs k t' name w r h0 h1 h2 h3 =>
    obtain ⟨h4, -, h5⟩ := nextTok_more hm hs (.cs h0 h1 h2 h3)
    refine ⟨?_, h5⟩
    have hs' : '\\' :: t' <:+ t := List.IsSuffix.trans ⟨k, rfl⟩ hs
    obtain ⟨h4, e⟩ := csName_more hm hs' h1
    rw [List.append_assoc] at h4 ⊢
    exact .cs h0 h4 h2 (head_more (P := fun c => isWs c = false) h3 fun c v e => (hm.first c v e).1)

include hc in
theorem selects_more {name s r : Str} {sh : EnvShape} (hs : s <:+ t) (hr : ¬ Spaces r) (h : Selects name s sh r) : Selects name (s ++ z) sh (r ++ z) ∧ r <:+ t := by
  cases h with
  | plain h => exact ⟨.plain h, hs⟩
  | default h h1 => obtain ⟨h2, h3⟩ := noOptional_more (z := z) hc hs hr h1; exact ⟨.default h h2, h3⟩
  | aligned h h1 h2 => exact ⟨.aligned h (bracketed_more z h1) h2, (suffix_bracketed h1).trans hs⟩
  | array h h1 h2 h3 h4 => exact ⟨.array h (braced_more z h1) h2 h3 h4, (suffix_braced h1).trans hs⟩
  | pairs h h1 h2 h3 => exact ⟨.pairs h (braced_more z h1) h2 h3, (suffix_braced h1).trans hs⟩
  | subarray h1 h2 => exact ⟨.subarray (braced_more z h1) h2, (suffix_braced h1).trans hs⟩

include hm in
/-- Lines at the start of an environment. -/
theorem lines_more {s r : Str} {vs : List Line} (hr : '{' ∈ r) (h : WordSeq [(c!"\\hline", Line.solid), (c!"\\hdashline", .dashed)] s vs r) :
    WordSeq [(c!"\\hline", Line.solid), (c!"\\hdashline", .dashed)] (s ++ z) vs (r ++ z) := by
  refine wordSeq_more h fun h0 w v u x hw hu e => ?_
  rcases straddle hw (fun c v e => (hm.first c v e).1) e with ⟨y, h1⟩ | ⟨a, b, c, v', h1, h2, -⟩ | h1
  · exact h0 w v u y hw hu h1
  · rw [h2] at hr
    rcases List.mem_append.1 hr with hr | hr
    · have := hw _ hr
      revert this
      decide
    · have hu' : '{' ∈ u := by rw [h1]; simp [hr]
      simp only [List.mem_cons, Prod.mk.injEq, List.not_mem_nil, or_false] at hu
      rcases hu with ⟨rfl, -⟩ | ⟨rfl, -⟩ <;> (revert hu'; decide)
  · simp only [List.mem_cons, Prod.mk.injEq, List.not_mem_nil, or_false] at hu
    rcases hu with ⟨rfl, -⟩ | ⟨rfl, -⟩ <;> cases h1

/-! ### Commands by name -/

theorem from_infix {name s : Str} (h : From t (.cs name) s) : '\\' :: name <:+: t := by
  obtain ⟨w, -, h, -⟩ := h
  exact List.IsInfix.trans ⟨[], w ++ s, by simp⟩ h.isInfix

theorem from_suffix {x : Word} {s : Str} (h : From t x s) : s <:+ t := by
  cases x with
  | chr c => exact List.IsSuffix.trans ⟨[c], rfl⟩ h
  | cs name => obtain ⟨w, -, h, -⟩ := h; exact List.IsSuffix.trans ⟨'\\' :: (name ++ w), by simp⟩ h

theorem braced_spaces {w s g r : Str} (hw : Spaces w) (h : Braced s g r) : Braced (w ++ s) g r := by
  obtain ⟨v, u, hv, rfl, h⟩ := h
  refine ⟨w ++ v, u, ?_, by simp, h⟩
  intro c hc
  rcases List.mem_append.1 hc with hc | hc
  · exact hw c hc
  · exact hv c hc

theorem groupAt_spaces {w s : Str} (hw : Spaces w) : ∀ {k : Nat}, GroupAt k (w ++ s) → GroupAt k s
  | 0, ⟨v, u, hv, e⟩ => by
    rcases List.append_eq_append_iff.1 e with ⟨x, h1, h2⟩ | ⟨x, h1, h2⟩
    · exact ⟨x, u, fun c hc => hv c (by rw [h1]; simp [hc]), h2⟩
    · cases x with
      | nil => exact ⟨[], u, (by intro c hc; cases hc), h2.symm⟩
      | cons a x =>
        injection h2 with h2 _
        subst h2
        exact absurd (hw '{' (by rw [h1]; simp)) (by decide)
  | k + 1, h => fun g r hb => h g r (braced_spaces hw hb)

include hc in
theorem from_group {name s : Str} {k : Nat} (h : From t (.cs name) s) (hn : (name, k) ∈ textCommands) : GroupAt k s := by
  obtain ⟨w, hw, ⟨p, hp⟩, h⟩ := h
  refine groupAt_spaces hw (hc.texts name k p (w ++ s) hn hp.symm fun c r e => ?_)
  have hx : isLetter (name.headD 'x') = true := by
    have : ∀ e ∈ textCommands, isLetter (e.1.headD 'x') = true := by decide
    exact this _ hn
  generalize hy : name ++ (w ++ s) = y at h
  generalize hz : w ++ s = v at h e
  cases h with
  | word h0 h1 h2 => exact h2 c r e
  | symbol h => rw [List.headD_cons, h] at hx; cases hx

/-- The text of a text command. -/
theorem textArg_more {s g r : Str} (z : Str) (hg : GroupAt 0 s) (h : TextArg s g r) : TextArg (s ++ z) g (r ++ z) ∧ r <:+ s := by
  cases h with
  | braced h => exact ⟨.braced (braced_more z h), suffix_braced h⟩
  | rest h => obtain ⟨w, u, hw, e⟩ := hg; exact absurd e (h.2 w u hw)

theorem textCommand {name : Str} {f : Option Font} (h : primOf name = .text f) : (name, 0) ∈ textCommands := by
  have key : ∀ e ∈ primTable, (match e.2 with | .text _ => true | _ => false) = true → e.1 ∈ [c!"text", c!"textrm", c!"textbf", c!"textit", c!"textsf", c!"texttt"] := by
    decide +kernel
  have key2 : ∀ n ∈ [c!"text", c!"textrm", c!"textbf", c!"textit", c!"textsf", c!"texttt"], (n, 0) ∈ textCommands := by decide
  exact key2 _ (tableNames (p := .text f) (fun e he h => key e he (by rw [h])) (by simp) (by simp) (by simp) h)

theorem only_name {p : Prim} {n name : Str} (ht : ∀ e ∈ primTable, e.2 = p → e.1 ∈ [n]) (h1 : ∀ c ty, p ≠ .delim c ty) (h2 : p ≠ .nbsp) (h3 : p ≠ .unknown)
    (h : primOf name = p) : name = n := by
  simpa using tableNames ht h1 h2 h3 h

theorem operatorname_name {name : Str} (h : primOf name = .operatorname) : name = c!"operatorname" := only_name (by decide +kernel) (by simp) (by simp) (by simp) h
theorem colorbox_name {name : Str} (h : primOf name = .colorbox) : name = c!"colorbox" := only_name (by decide +kernel) (by simp) (by simp) (by simp) h
theorem fcolorbox_name {name : Str} (h : primOf name = .fcolorbox) : name = c!"fcolorbox" := only_name (by decide +kernel) (by simp) (by simp) (by simp) h
theorem buildrel_name {name : Str} (h : primOf name = .buildrel) : name = c!"buildrel" := only_name (by decide +kernel) (by simp) (by simp) (by simp) h
theorem dots_name {name : Str} (h : primOf name = .dots) : name = c!"dots" := only_name (by decide +kernel) (by simp) (by simp) (by simp) h
theorem char_name {name : Str} (h : primOf name = .char) : name = c!"char" := only_name (by decide +kernel) (by simp) (by simp) (by simp) h
theorem hskip_name {name : Str} (h : primOf name = .hskip) : name = c!"hskip" := only_name (by decide +kernel) (by simp) (by simp) (by simp) h
theorem mskip_name {name : Str} (h : primOf name = .mskip) : name = c!"mskip" := only_name (by decide +kernel) (by simp) (by simp) (by simp) h

/-! ### The grammar -/

/-- The same judgement with `z` after the text. -/
def Onward (t z : Str) : Judgement → Prop
  | .means a x s ns r pl => From t x s → Reads Known.none (.means a x (s ++ z) ns (r ++ z) pl) ∧ r <:+ t
  | .operand s ns r pl => s <:+ t → Reads Known.none (.operand (s ++ z) ns (r ++ z) pl) ∧ r <:+ t
  | .elements s ns r => s <:+ t → Reads Known.none (.elements (s ++ z) ns (r ++ z)) ∧ r <:+ t
  | _ => True

theorem operand_not_spaces {Δ : Known} {s r : Str} {ns : Nodes} {pl : Place} (h : Reads Δ (.operand s ns r pl)) : ¬ Spaces s := by
  cases h with
  | groupArg h => exact braced_not_spaces h
  | tokenArg h => exact nextTok_not_spaces h.1

include hm in
theorem letter_not {name s : Str} (h : From t (.cs name) s) (hn : name = c!"char" ∨ name = c!"hskip" ∨ name = c!"mskip") :
    ∀ c v, z = c :: v → isLetter c = false ∧ isDigit c = false := by
  intro c v e
  have hi := from_infix h
  cases h1 : isLetter c with
  | true =>
    obtain ⟨q1, q2, q3⟩ := hm.quantity c v e (.inl h1)
    rcases hn with rfl | rfl | rfl
    · exact absurd hi q1
    · exact absurd hi q2
    · exact absurd hi q3
  | false =>
    refine ⟨rfl, ?_⟩
    cases h2 : isDigit c with
    | false => rfl
    | true =>
      obtain ⟨q1, q2, q3⟩ := hm.quantity c v e (.inr h2)
      rcases hn with rfl | rfl | rfl
      · exact absurd hi q1
      · exact absurd hi q2
      · exact absurd hi q3

include hm in
theorem dots_more {s : Str} (hf : From t (.cs c!"dots") s) (h : ∀ w c u, Spaces w → s = w ++ c :: u → c ≠ '.' ∧ c ≠ ',') :
    ∀ w c u, Spaces w → s ++ z = w ++ c :: u → c ≠ '.' ∧ c ≠ ',' := by
  intro w c u hw e
  obtain ⟨w', hw', ⟨p, hp⟩, -⟩ := hf
  have key : ∀ v, Spaces s → z = c :: v → c ≠ '.' ∧ c ≠ ',' := fun v hs e => by
    refine ⟨fun h1 => ?_, fun h1 => ?_⟩
    · exact hm.low c v e (.inl h1) p (w' ++ s) (Spaces_append hw' hs) (by rw [← hp]; simp)
    · exact hm.low c v e (.inr h1) p (w' ++ s) (Spaces_append hw' hs) (by rw [← hp]; simp)
  rcases List.append_eq_append_iff.1 e with ⟨x, h1, h2⟩ | ⟨x, h1, h2⟩
  · cases x with
    | nil => exact key u (by rw [List.append_nil] at h1; rwa [← h1]) h2
    | cons a x =>
      have := (hm.first a _ h2).1
      rw [hw a (by rw [h1]; simp)] at this
      cases this
  · cases x with
    | nil => exact key u (by rw [h1, List.append_nil]; exact hw) h2.symm
    | cons d x => injection h2 with h2 h3; subst h2; exact h w c x hw h1

theorem length_more' {s r : Str} {d : Dim} (hm : Meets t z) (h : Length s d r) : Length (s ++ z) d (r ++ z) ∧ r <:+ s := ⟨length_more hm h, length_suffix h⟩

include hc hm in
theorem onward {j : Judgement} (h : Reads Known.none j) : Onward t z j := by
  induction h with
  | single h0 => exact fun hf => ⟨.single h0, from_suffix hf⟩
  | @number x s lit r h0 h1 =>
    intro hf
    obtain ⟨h2, h3⟩ := numberLit_more hm (s := x :: s) hf h1
    exact ⟨.number h0 h2, h3.trans hf⟩
  | digit h0 => exact fun hf => ⟨.digit h0, from_suffix hf⟩
  | braces h0 h1 => exact fun hf => ⟨.braces (split_more z (by decide) h0) h1, (suffix_split h0).trans (from_suffix hf)⟩
  | noBase h0 => exact fun hf => ⟨.noBase h0, hf⟩
  | operator h0 => exact fun hf => ⟨.operator h0, from_suffix hf⟩
  | operatorname h0 h1 =>
    intro hf
    obtain ⟨h2, h3⟩ := textArg_more z (from_group hc hf (by rw [operatorname_name h0]; decide)) h1
    exact ⟨.operatorname h0 h2, h3.trans (from_suffix hf)⟩
  | @dotsLow a name w c s h0 h1 h2 =>
    intro hf
    refine ⟨?_, from_suffix hf⟩
    rw [List.append_assoc]
    exact .dotsLow h0 h1 h2
  | dots h0 h1 => intro hf; have := dots_name h0; subst this; exact ⟨.dots h0 (dots_more hm hf h1), from_suffix hf⟩
  | char h0 h1 h2 =>
    intro hf
    obtain ⟨h3, h4⟩ := intConst_more hm (letter_not hm hf (.inl (char_name h0))) h1
    exact ⟨.char h0 h3 h2, h4.trans (from_suffix hf)⟩
  | relax h0 => exact fun hf => ⟨.relax h0, from_suffix hf⟩
  | change h0 => exact fun hf => ⟨.change h0, from_suffix hf⟩
  | color h0 h1 => exact fun hf => ⟨.color h0 (colourArg_more z h1).1, (colourArg_more z h1).2.trans (from_suffix hf)⟩
  | begingroup h0 h1 h2 => exact fun hf => ⟨.begingroup h0 (split_more z (by decide) h1) h2, (suffix_split h1).trans (from_suffix hf)⟩
  | sized h0 h1 => exact fun hf => ⟨.sized h0 (delim_more hm (from_suffix hf) h1).1, (delim_more hm (from_suffix hf) h1).2⟩
  | middle h0 h1 => exact fun hf => ⟨.middle h0 (delim_more hm (from_suffix hf) h1).1, (delim_more hm (from_suffix hf) h1).2⟩
  | left h0 h1 h2 h3 h4 =>
    intro hf
    obtain ⟨h5, h6⟩ := delimText_more hm (from_suffix hf) h1
    obtain ⟨h7, h8⟩ := delimText_more hm ((suffix_split h2).trans h6) h3
    exact ⟨.left h0 h5 (split_more z (by decide) h2) h7 h4, h8⟩
  | space h0 => exact fun hf => ⟨.space h0, from_suffix hf⟩
  | kern h0 h1 =>
    intro hf
    obtain ⟨h2, h3⟩ := maybeBraced_more (z := z) (fun _ _ _ => length_more' hm) (fun _ _ _ => length_not_spaces) h1
    exact ⟨.kern h0 h2, h3.trans (from_suffix hf)⟩
  | mkern h0 h1 hu =>
    intro hf
    obtain ⟨h2, h3⟩ := maybeBraced_more (z := z) (fun _ _ _ => length_more' hm) (fun _ _ _ => length_not_spaces) h1
    exact ⟨.mkern h0 h2 hu, h3.trans (from_suffix hf)⟩
  | hskip h0 h1 =>
    intro hf
    have hz := letter_not hm hf (.inr (.inl (hskip_name h0)))
    obtain ⟨h2, h3⟩ := maybeBraced_more (z := z) (fun _ _ _ => glue_more hm fun c v e => (hz c v e).1) (fun _ _ _ => glue_not_spaces) h1
    exact ⟨.hskip h0 h2, h3.trans (from_suffix hf)⟩
  | mskip h0 h1 u1 u2 u3 =>
    intro hf
    have hz := letter_not hm hf (.inr (.inr (mskip_name h0)))
    obtain ⟨h2, h3⟩ := maybeBraced_more (z := z) (fun _ _ _ => glue_more hm fun c v e => (hz c v e).1) (fun _ _ _ => glue_not_spaces) h1
    exact ⟨.mskip h0 h2 u1 u2 u3, h3.trans (from_suffix hf)⟩
  | hspace h0 h1 h2 => exact fun hf => ⟨.hspace h0 (braced_more z h1) h2, (suffix_braced h1).trans (from_suffix hf)⟩
  | space3 h0 h1 h2 h3 h4 h5 h6 =>
    exact fun hf => ⟨.space3 h0 (braced_more z h1) h2 (braced_more z h3) h4 (braced_more z h5) h6,
      (suffix_braced h5).trans ((suffix_braced h3).trans ((suffix_braced h1).trans (from_suffix hf)))⟩
  | pmod h0 _ i1 => exact fun hf => ⟨.pmod h0 (i1 (from_suffix hf)).1, (i1 (from_suffix hf)).2⟩
  | classChar h0 h1 => intro hf; obtain ⟨h2, -, h3⟩ := tokArg_more hm (from_suffix hf) h1; exact ⟨.classChar h0 h2, h3⟩
  | classLone h0 h1 h2 => exact fun hf => ⟨.classLone h0 (braced_more z h1) h2, (suffix_braced h1).trans (from_suffix hf)⟩
  | classGroup h0 h1 h2 h3 h4 => exact fun hf => ⟨.classGroup h0 h1 (braced_more z h2) h3 h4, (suffix_braced h2).trans (from_suffix hf)⟩
  | className h0 h1 h2 => exact fun hf => ⟨.className h0 (braced_more z h1) h2, (suffix_braced h1).trans (from_suffix hf)⟩
  | classToken h0 h1 h2 _ i3 =>
    intro hf
    obtain ⟨h4, h5, -⟩ := tokArg_more hm (from_suffix hf) h1
    exact ⟨.classToken h0 h4 h2 (i3 h5).1, (i3 h5).2⟩
  | fontGroup h0 h1 h2 => exact fun hf => ⟨.fontGroup h0 (braced_more z h1) h2, (suffix_braced h1).trans (from_suffix hf)⟩
  | fontToken h0 h1 h2 _ i3 =>
    intro hf
    obtain ⟨h4, h5, -⟩ := tokArg_more hm (from_suffix hf) h1
    exact ⟨.fontToken h0 h4 h2 (i3 h5).1, (i3 h5).2⟩
  | textcolor h0 h1 _ i2 =>
    intro hf
    obtain ⟨h3, h4⟩ := colourArg_more z h1
    obtain ⟨h5, h6⟩ := i2 (h4.trans (from_suffix hf))
    exact ⟨.textcolor h0 h3 h5, h6⟩
  | colorbox h0 h1 h2 =>
    intro hf
    obtain ⟨h3, h4⟩ := colourArg_more z h1
    obtain ⟨g, hg, -⟩ := h1
    obtain ⟨h5, h6⟩ := textArg_more z (from_group hc (k := 1) hf (by rw [colorbox_name h0]; decide) _ _ hg) h2
    exact ⟨.colorbox h0 h3 h5, h6.trans (h4.trans (from_suffix hf))⟩
  | fcolorbox h0 h1 h2 h3 =>
    intro hf
    obtain ⟨h4, h5⟩ := colourArg_more z h1
    obtain ⟨h6, h7⟩ := colourArg_more z h2
    obtain ⟨g, hg, -⟩ := h1
    obtain ⟨g', hg', -⟩ := h2
    obtain ⟨h8, h9⟩ := textArg_more z (from_group hc (k := 2) hf (by rw [fcolorbox_name h0]; decide) _ _ hg _ _ hg') h3
    exact ⟨.fcolorbox h0 h4 h6 h8, h9.trans (h7.trans (h5.trans (from_suffix hf)))⟩
  | text h0 h1 =>
    intro hf
    obtain ⟨h2, h3⟩ := textArg_more z (from_group hc hf (textCommand h0)) h1
    exact ⟨.text h0 h2, h3.trans (from_suffix hf)⟩
  | textFont h0 h1 =>
    intro hf
    obtain ⟨h2, h3⟩ := textArg_more z (from_group hc hf (textCommand h0)) h1
    exact ⟨.textFont h0 h2, h3.trans (from_suffix hf)⟩
  | accent h0 _ i1 => exact fun hf => ⟨.accent h0 (i1 (from_suffix hf)).1, (i1 (from_suffix hf)).2⟩
  | under h0 _ i1 => exact fun hf => ⟨.under h0 (i1 (from_suffix hf)).1, (i1 (from_suffix hf)).2⟩
  | xarrow h0 h1 h2 i2 =>
    intro hf
    obtain ⟨h3, h4⟩ := noOptional_more (z := z) hc (from_suffix hf) (operand_not_spaces h2) h1
    obtain ⟨h5, h6⟩ := i2 h4
    exact ⟨.xarrow h0 h3 h5, h6⟩
  | xarrowBelow h0 h1 h2 _ _ i3 =>
    intro hf
    obtain ⟨h5, h6⟩ := i3 ((suffix_bracketed h1).trans (from_suffix hf))
    exact ⟨.xarrowBelow h0 (bracketed_more z h1) h2 h5, h6⟩
  | frac h0 _ _ i1 i2 =>
    intro hf
    obtain ⟨h3, h4⟩ := i1 (from_suffix hf)
    obtain ⟨h5, h6⟩ := i2 h4
    exact ⟨.frac h0 h3 h5, h6⟩
  | genfrac h0 h1 h2 h3 h4 _ _ i1 i2 =>
    intro hf
    obtain ⟨a1, b1⟩ := genDelim_more hm (from_suffix hf) h1
    obtain ⟨a2, b2⟩ := genDelim_more hm b1 h2
    obtain ⟨a3, b3⟩ := genBar_more (z := z) b2 h3
    obtain ⟨a4, b4⟩ := genStyle_more hm b3 h4
    obtain ⟨a5, b5⟩ := i1 b4
    obtain ⟨a6, b6⟩ := i2 b5
    exact ⟨.genfrac h0 a1 a2 a3 a4 a5 a6, b6⟩
  | overset h0 _ _ i1 i2 =>
    intro hf
    obtain ⟨h3, h4⟩ := i1 (from_suffix hf)
    obtain ⟨h5, h6⟩ := i2 h4
    exact ⟨.overset h0 h3 h5, h6⟩
  | buildrel h0 => intro hf; have := from_infix hf; rw [buildrel_name h0] at this; exact absurd this hc.over
  | buildrelToken h0 => intro hf; have := from_infix hf; rw [buildrel_name h0] at this; exact absurd this hc.over
  | buildrelDigit h0 => intro hf; have := from_infix hf; rw [buildrel_name h0] at this; exact absurd this hc.over
  | sideset h0 h1 h2 _ i3 =>
    intro hf
    obtain ⟨a1, b1⟩ := readArg_more hm (from_suffix hf) h1
    obtain ⟨a2, b2⟩ := readArg_more hm b1 h2
    obtain ⟨a3, b3⟩ := i3 b2
    exact ⟨.sideset h0 a1 a2 a3, b3⟩
  | sqrt h0 h1 h2 i2 =>
    intro hf
    obtain ⟨h3, h4⟩ := noOptional_more (z := z) hc (from_suffix hf) (operand_not_spaces h2) h1
    obtain ⟨h5, h6⟩ := i2 h4
    exact ⟨.sqrt h0 h3 h5, h6⟩
  | root h0 h1 h2 _ _ i3 =>
    intro hf
    obtain ⟨h5, h6⟩ := i3 ((suffix_bracketed h1).trans (from_suffix hf))
    exact ⟨.root h0 (bracketed_more z h1) h2 h5, h6⟩
  | surd h0 => exact fun hf => ⟨.surd h0, from_suffix hf⟩
  | negated h0 _ i1 => exact fun hf => ⟨.negated h0 (i1 (from_suffix hf)).1, (i1 (from_suffix hf)).2⟩
  | substack h0 h1 h2 => exact fun hf => ⟨.substack h0 (braced_more z h1) h2, (suffix_braced h1).trans (from_suffix hf)⟩
  | @environment a s name r0 sh r1 ls r2 X r rows h0 h1 h2 h3 h4 =>
    intro hf
    have hb : '{' ∈ r2 := (split_closer h3).subset (by simp)
    have hn2 : ¬ Spaces r2 := not_spaces hb (by decide)
    obtain ⟨a1, b1⟩ := selects_more (z := z) hc ((suffix_braced h0).trans (from_suffix hf)) (not_spaces_suffix (wordSeq_suffix h2) hn2) h1
    exact ⟨.environment (braced_more z h0) a1 (lines_more hm hb h2) (split_more z (env_closer name) h3) h4, (suffix_split h3).trans ((wordSeq_suffix h2).trans b1)⟩
  | groupArg h0 h1 => exact fun hs => ⟨.groupArg (braced_more z h0) h1, (suffix_braced h0).trans hs⟩
  | tokenArg h0 h1 _ i2 =>
    intro hs
    obtain ⟨h3, h4, -⟩ := tokArg_more hm hs h0
    exact ⟨.tokenArg h3 h1 (i2 h4).1, (i2 h4).2⟩
  | nil => exact fun hs => ⟨.nil, hs⟩
  | call h0 h1 => cases h1
  | plain h0 h1 _ h3 h4 h5 _ i2 i6 =>
    intro hs
    obtain ⟨a1, b1, -⟩ := nextTok_more hm hs h0
    obtain ⟨a2, b2⟩ := i2 b1
    obtain ⟨a3, b3⟩ := limits_more hm b2 h4
    obtain ⟨a4, b4⟩ := i6 b3
    exact ⟨.plain a1 h1 a2 h3 a3 (noScript_more hm h5) a4, b4⟩
  | skipping h0 h1 _ h3 _ i2 i6 =>
    intro hs
    obtain ⟨a1, b1, -⟩ := nextTok_more hm hs h0
    obtain ⟨a2, b2⟩ := i2 b1
    obtain ⟨a4, b4⟩ := i6 b2
    exact ⟨.skipping a1 h1 a2 h3 a4, b4⟩
  | @script s x t' ns r pl vs w c v ks pl' v' ms u h0 h1 _ h3 h4 h5 h6 _ h7 _ i2 i5 i6 =>
    intro hs
    obtain ⟨a1, b1, -⟩ := nextTok_more hm hs h0
    obtain ⟨a2, b2⟩ := i2 b1
    obtain ⟨a3, b3⟩ := limits_more hm b2 h4
    rw [List.append_assoc] at a3
    obtain ⟨a4, b4⟩ := i5 (List.IsSuffix.trans ⟨w ++ [c], by simp⟩ b3)
    obtain ⟨a5, b5⟩ := i6 b4
    exact ⟨.script a1 h1 a2 h3 a3 h5 h6 a4 (noScriptHere_more hm h7) a5, b5⟩
  | @subSup s x t' ns r pl vs w v ks pl' v' ls pl'' v'' ms u h0 h1 _ h3 h4 h5 _ _ h7 _ i2 i5 i6 i7 =>
    intro hs
    obtain ⟨a1, b1, -⟩ := nextTok_more hm hs h0
    obtain ⟨a2, b2⟩ := i2 b1
    obtain ⟨a3, b3⟩ := limits_more hm b2 h4
    rw [List.append_assoc] at a3
    obtain ⟨a4, b4⟩ := i5 (List.IsSuffix.trans ⟨w ++ ['_'], by simp⟩ b3)
    obtain ⟨a5, b5⟩ := i6 (List.IsSuffix.trans ⟨['^'], rfl⟩ b4)
    obtain ⟨a6, b6⟩ := i7 b5
    exact ⟨.subSup a1 h1 a2 h3 a3 h5 a4 a5 (noScriptHere_more hm h7) a6, b6⟩
  | @supSub s x t' ns r pl vs w v ks pl' v' ls pl'' v'' ms u h0 h1 _ h3 h4 h5 _ _ h7 _ i2 i5 i6 i7 =>
    intro hs
    obtain ⟨a1, b1, -⟩ := nextTok_more hm hs h0
    obtain ⟨a2, b2⟩ := i2 b1
    obtain ⟨a3, b3⟩ := limits_more hm b2 h4
    rw [List.append_assoc] at a3
    obtain ⟨a4, b4⟩ := i5 (List.IsSuffix.trans ⟨w ++ ['^'], by simp⟩ b3)
    obtain ⟨a5, b5⟩ := i6 (List.IsSuffix.trans ⟨['_'], rfl⟩ b4)
    obtain ⟨a6, b6⟩ := i7 b5
    exact ⟨.supSub a1 h1 a2 h3 a3 h5 a4 a5 (noScriptHere_more hm h7) a6, b6⟩
  | whole => trivial
  | lastCell => trivial
  | cell => trivial
  | lastLine => trivial
  | line => trivial
  | spacedLine => trivial

/-- What is left of a closed text is white space only, if nothing more is to be read. -/
theorem blankEnd_spaces {r : Str} (h : ∀ p q, r = p ++ '%' :: q → ∃ a b, q = a ++ '\n' :: b ∧ '%' ∉ b ∧ ∃ c ∈ b, isWs c = false) (hb : BlankEnd r) : Spaces r := by
  cases hb with
  | comment _ hn =>
    obtain ⟨a, b, e, -⟩ := h _ _ rfl
    exact absurd (by rw [e]; simp) hn
  | blank hb =>
    induction hb with
    | nil => intro c hc; cases hc
    | @ws c s h0 _ ih =>
      have := ih fun p q e => h (c :: p) q (by rw [e]; rfl)
      intro d hd
      rcases List.mem_cons.1 hd with rfl | hd
      · exact h0
      · exact this d hd
    | @comment line s h0 _ ih =>
      have hs := ih fun p q e => h ('%' :: (line ++ '\n' :: p)) q (by rw [e]; simp)
      obtain ⟨a, b, e, -, c, hcb, hcw⟩ := h [] (line ++ '\n' :: s) rfl
      exfalso
      refine not_spaces (s := s) (c := c) ?_ hcw hs
      rcases List.append_eq_append_iff.1 e with ⟨x, h1, h2⟩ | ⟨x, h1, h2⟩
      · cases x with
        | nil => injection h2 with _ h2; rw [h2]; exact hcb
        | cons d x => injection h2 with _ h2; rw [h2]; simp [hcb]
      · cases x with
        | nil => injection h2 with _ h2; rw [← h2]; exact hcb
        | cons d x => injection h2 with h2 _; rw [h1, ← h2] at h0; simp at h0

include hc hm in
/-- The elements of the first text are read as if nothing followed. -/
theorem formula_onward {ns : Nodes} (h : Formula t ns) : ∃ w, Spaces w ∧ Reads Known.none (.elements (t ++ z) ns (w ++ z)) := by
  unfold Formula at h
  cases h with
  | whole h hb =>
    obtain ⟨h1, p, hp⟩ := onward hc hm h (List.suffix_refl t)
    exact ⟨_, blankEnd_spaces (fun p' q e => hc.comments (p ++ p') q (by rw [← hp, e]; simp)) hb, h1⟩

end joint
end PL.Formula
