import Verif.Lemmas.Value
import Verif.Model.Parser
set_option autoImplicit false
/-! # Sequences of words: `\limits`, `\hline` -/
namespace PL
open Lex Spec

def limitWords : List (Str × Bool) := [(c!"\\limits", true), (c!"\\nolimits", false)]
def lineWords : List (Str × Line) := [(c!"\\hline", .solid), (c!"\\hdashline", .dashed)]

theorem trimStart_word {w u t : Str} {x : Str} (hw : Spaces w) (hu : u = '\\' :: x) : trimStart (w ++ u ++ t) = u ++ t := by
  rw [List.append_assoc, trimStart_ws_append hw, trimStart_eq_self]
  intro c r hc
  rw [hu] at hc
  injection hc with hc _
  exact hc ▸ rfl

theorem limitStep_some {s rest : Str} {v : Bool} :
    limitStep s = some (rest, v) ↔ ∃ w u, Spaces w ∧ (u, v) ∈ limitWords ∧ s = w ++ u ++ rest := by
  obtain ⟨w0, hw0, e0⟩ := trimStart_spec s
  unfold limitStep
  constructor
  · intro h
    split at h
    · rename_i r hr
      cases h
      rw [stripPrefix_some] at hr
      exact ⟨w0, _, hw0, .head _, by rw [e0, hr]; simp⟩
    · rename_i hr
      cases hs : stripPrefix c!"\\nolimits" (trimStart s) with
      | none => rw [hs] at h; cases h
      | some r =>
        rw [hs] at h; cases h
        rw [stripPrefix_some] at hs
        exact ⟨w0, _, hw0, .tail _ (.head _), by rw [e0, hs]; simp⟩
  · rintro ⟨w, u, hw, hu, rfl⟩
    simp only [limitWords, List.mem_cons, Prod.mk.injEq, List.not_mem_nil, or_false] at hu
    rcases hu with ⟨rfl, rfl⟩ | ⟨rfl, rfl⟩
    · rw [trimStart_word hw rfl, stripPrefix_some.2 rfl]
    · rw [trimStart_word hw rfl, stripPrefix_some.2 rfl]
      have : stripPrefix c!"\\limits" (c!"\\nolimits" ++ rest) = none := by
        rw [stripPrefix_none]; intro r hr; simp at hr
      rw [this]; rfl

theorem lineStep_some {s rest : Str} {v : Line} :
    lineStep s = some (rest, v) ↔ ∃ w u, Spaces w ∧ (u, v) ∈ lineWords ∧ s = w ++ u ++ rest := by
  obtain ⟨w0, hw0, e0⟩ := trimStart_spec s
  unfold lineStep
  constructor
  · intro h
    split at h
    · rename_i r hr
      cases h
      rw [stripPrefix_some] at hr
      exact ⟨w0, _, hw0, .head _, by rw [e0, hr]; simp⟩
    · rename_i hr
      cases hs : stripPrefix c!"\\hdashline" (trimStart s) with
      | none => rw [hs] at h; cases h
      | some r =>
        rw [hs] at h; cases h
        rw [stripPrefix_some] at hs
        exact ⟨w0, _, hw0, .tail _ (.head _), by rw [e0, hs]; simp⟩
  · rintro ⟨w, u, hw, hu, rfl⟩
    simp only [lineWords, List.mem_cons, Prod.mk.injEq, List.not_mem_nil, or_false] at hu
    rcases hu with ⟨rfl, rfl⟩ | ⟨rfl, rfl⟩
    · rw [trimStart_word hw rfl, stripPrefix_some.2 rfl]
    · rw [trimStart_word hw rfl, stripPrefix_some.2 rfl]
      have : stripPrefix c!"\\hline" (c!"\\hdashline" ++ rest) = none := by
        rw [stripPrefix_none]; intro r hr; simp at hr
      rw [this]; rfl

theorem WordSeq.unique_step {α : Type} {words : List (Str × α)} {f : Str → Option (Str × α)}
    (hf : ∀ {s rest v}, f s = some (rest, v) ↔ ∃ w u, Spaces w ∧ (u, v) ∈ words ∧ s = w ++ u ++ rest)
    {s r : Str} {vs : List α} : WordSeq words s vs r ↔
      (match f s with
       | some (rest, v) => ∃ vs', vs = v :: vs' ∧ WordSeq words rest vs' r
       | none => vs = [] ∧ r = s) := by
  constructor
  · intro h
    cases h with
    | nil h =>
      cases hs : f s with
      | none => exact ⟨rfl, rfl⟩
      | some p =>
        obtain ⟨rest, v⟩ := p
        obtain ⟨w, u, h1, h2, h3⟩ := hf.1 hs
        exact absurd h3 (h w v u rest h1 h2)
    | @cons w u v s vs r hw hu h =>
      rw [hf.2 ⟨w, u, hw, hu, rfl⟩]
      exact ⟨vs, rfl, h⟩
  · intro h
    cases hs : f s with
    | none =>
      rw [hs] at h
      obtain ⟨rfl, rfl⟩ := h
      refine .nil fun w v u t hw hu e => ?_
      rw [hf.2 ⟨w, u, hw, hu, e⟩] at hs
      cases hs
    | some p =>
      obtain ⟨rest, v⟩ := p
      rw [hs] at h
      obtain ⟨vs', rfl, h⟩ := h
      obtain ⟨w, u, h1, h2, h3⟩ := hf.1 hs
      rw [h3]
      exact .cons h1 h2 h

theorem limitLoop_spec : ∀ {n : Nat} {s : Str} {o : Option Bool}, s.length ≤ n →
    ∃ vs, WordSeq limitWords s vs (limitLoop n o s).2 ∧ (limitLoop n o s).1 = (vs.getLast?).or o
  | n, s, o, hn => by
    cases hs : limitStep s with
    | none =>
      refine ⟨[], (WordSeq.unique_step limitStep_some).2 ?_, ?_⟩
      · rw [hs]
        refine ⟨rfl, ?_⟩
        cases n with
        | zero => rfl
        | succ n => simp [limitLoop, hs]
      · cases n with
        | zero => rfl
        | succ n => simp [limitLoop, hs]
    | some p =>
      obtain ⟨rest, v⟩ := p
      obtain ⟨w, u, h1, h2, h3⟩ := limitStep_some.1 hs
      have hu : 0 < u.length := by
        simp only [limitWords, List.mem_cons, Prod.mk.injEq, List.not_mem_nil, or_false] at h2
        rcases h2 with ⟨rfl, _⟩ | ⟨rfl, _⟩ <;> decide
      have hl : s.length = w.length + u.length + rest.length := by rw [h3]; simp; omega
      cases n with
      | zero => omega
      | succ n =>
        obtain ⟨vs, k1, k2⟩ := limitLoop_spec (n := n) (s := rest) (o := some v) (by omega)
        refine ⟨v :: vs, (WordSeq.unique_step limitStep_some).2 ?_, ?_⟩
        · rw [hs]
          refine ⟨vs, rfl, ?_⟩
          simpa [limitLoop, hs] using k1
        · have : limitLoop (n + 1) o s = limitLoop n (some v) rest := by simp [limitLoop, hs]
          rw [this, k2, List.getLast?_cons]
          cases vs.getLast? <;> rfl

theorem linesLoop_spec : ∀ {n : Nat} {s : Str}, s.length ≤ n →
    WordSeq lineWords s (linesLoop n s).1 (linesLoop n s).2
  | n, s, hn => by
    refine (WordSeq.unique_step lineStep_some).2 ?_
    cases hs : lineStep s with
    | none =>
      cases n with
      | zero => exact ⟨rfl, rfl⟩
      | succ n => simp [linesLoop, hs]
    | some p =>
      obtain ⟨rest, v⟩ := p
      obtain ⟨w, u, h1, h2, h3⟩ := lineStep_some.1 hs
      have hu : 0 < u.length := by
        simp only [lineWords, List.mem_cons, Prod.mk.injEq, List.not_mem_nil, or_false] at h2
        rcases h2 with ⟨rfl, _⟩ | ⟨rfl, _⟩ <;> decide
      have hl : s.length = w.length + u.length + rest.length := by rw [h3]; simp; omega
      cases n with
      | zero => omega
      | succ n =>
        have := linesLoop_spec (n := n) (s := rest) (by omega)
        refine ⟨(linesLoop n rest).1, ?_, ?_⟩
        · simp [linesLoop, hs]
        · simpa [linesLoop, hs] using this

theorem WordSeq.det {α : Type} {words : List (Str × α)} {f : Str → Option (Str × α)}
    (hf : ∀ {s rest v}, f s = some (rest, v) ↔ ∃ w u, Spaces w ∧ (u, v) ∈ words ∧ s = w ++ u ++ rest)
    {s r : Str} {vs : List α} (h : WordSeq words s vs r) : ∀ {vs' r'}, WordSeq words s vs' r' → vs = vs' ∧ r = r' := by
  induction h with
  | nil h =>
    intro vs' r' h'
    cases h' with
    | nil _ => exact ⟨rfl, rfl⟩
    | cons hw hu _ => exact absurd rfl (h _ _ _ _ hw hu)
  | @cons w u v s vs r hw hu h ih =>
    intro vs' r' h'
    rw [WordSeq.unique_step hf, hf.2 ⟨w, u, hw, hu, rfl⟩] at h'
    obtain ⟨vs'', rfl, h'⟩ := h'
    obtain ⟨rfl, rfl⟩ := ih h'
    exact ⟨rfl, rfl⟩

theorem limitModifiers_spec (s : Str) : ∃ vs, WordSeq limitWords s vs (limitModifiers s).2 ∧
    (limitModifiers s).1 = vs.getLast? := by
  obtain ⟨vs, h1, h2⟩ := limitLoop_spec (n := s.length) (s := s) (o := none) (Nat.le_refl _)
  exact ⟨vs, h1, by rw [limitModifiers, h2, Option.or_none]⟩

theorem limitModifiers_of {s r : Str} {vs : List Bool} (h : WordSeq limitWords s vs r) :
    limitModifiers s = (vs.getLast?, r) := by
  obtain ⟨vs', h1, h2⟩ := limitModifiers_spec s
  obtain ⟨rfl, rfl⟩ := WordSeq.det limitStep_some h h1
  rw [← h2]

theorem horizontalLines_of {s r : Str} {ls : List Line} : horizontalLines s = (ls, r) ↔ WordSeq lineWords s ls r := by
  have h := linesLoop_spec (n := s.length) (s := s) (Nat.le_refl _)
  constructor
  · intro e
    rw [horizontalLines] at e
    rw [e] at h; exact h
  · intro h'
    obtain ⟨e1, e2⟩ := WordSeq.det lineStep_some h' h
    rw [e1, e2]; rfl

end PL
