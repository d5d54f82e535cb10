import Verif.Lemmas.Utf8
import Verif.Model.Error
set_option autoImplicit false
/-! # Construction of error reports -/
namespace PL

/-- The byte offset `k` is between two characters of `s` (or at one of its ends). -/
def Boundary (s : Str) (k : Nat) : Prop := ∃ a b, s = a ++ b ∧ blen a = k

theorem Boundary.zero (s : Str) : Boundary s 0 := ⟨[], s, rfl, rfl⟩
theorem Boundary.end_ (s : Str) : Boundary s (blen s) := ⟨s, [], by simp, rfl⟩
theorem Boundary.le {s : Str} {k : Nat} (h : Boundary s k) : k ≤ blen s := by
  obtain ⟨a, b, rfl, rfl⟩ := h
  simp
theorem Boundary.cons {s : Str} {c : Char} {k : Nat} (h : Boundary s k) : Boundary (c :: s) (c.utf8Size + k) := by
  obtain ⟨a, b, rfl, rfl⟩ := h
  exact ⟨c :: a, b, rfl, rfl⟩

theorem boundary_cons {s : Str} {c : Char} {k : Nat} : Boundary (c :: s) k ↔ k = 0 ∨ ∃ j, k = c.utf8Size + j ∧ Boundary s j := by
  constructor
  · rintro ⟨a, b, h, rfl⟩
    cases a with
    | nil => exact .inl rfl
    | cons x a =>
      simp at h
      obtain ⟨rfl, rfl⟩ := h
      exact .inr ⟨blen a, rfl, a, b, rfl, rfl⟩
  · rintro (rfl | ⟨j, rfl, h⟩)
    · exact .zero _
    · exact h.cons

theorem utf8Char_bytes (c : Char) : ∀ j b, (utf8Char c)[j]? = some b → (isBoundaryByte b = true ↔ j = 0) := by
  have hv : c.toNat < 0x110000 := by
    have : c.toNat = c.val.toNat := rfl
    rcases c.valid with h | h <;> omega
  unfold utf8Char
  simp only
  generalize c.toNat = n at hv
  intro j b h
  split at h
  · rcases j with _ | j
    · simp at h; subst h; simp [isBoundaryByte]; omega
    · simp at h
  · split at h
    · rcases j with _ | _ | j
      · simp at h; subst h; simp [isBoundaryByte]
      · simp at h; subst h; simp [isBoundaryByte]; omega
      · simp at h
    · split at h
      · rcases j with _ | _ | _ | j
        · simp at h; subst h; simp [isBoundaryByte]; omega
        · simp at h; subst h; simp [isBoundaryByte]; omega
        · simp at h; subst h; simp [isBoundaryByte]; omega
        · simp at h
      · rcases j with _ | _ | _ | _ | j
        · simp at h; subst h; simp [isBoundaryByte]; omega
        · simp at h; subst h; simp [isBoundaryByte]; omega
        · simp at h; subst h; simp [isBoundaryByte]; omega
        · simp at h; subst h; simp [isBoundaryByte]; omega
        · simp at h

/-- A byte starts a character exactly at the boundaries. -/
theorem utf8_bytes : ∀ (s : Str) (j b : Nat), (utf8 s)[j]? = some b → (isBoundaryByte b = true ↔ Boundary s j)
  | [], j, b, h => by simp [utf8] at h
  | c :: s, j, b, h => by
    rw [boundary_cons]
    unfold utf8 at h
    rw [List.getElem?_append] at h
    split at h
    · rename_i hj
      rw [utf8Char_length] at hj
      rw [utf8Char_bytes c j b h]
      constructor
      · exact .inl
      · rintro (h | ⟨k, h, _⟩)
        · exact h
        · omega
    · rename_i hj
      rw [utf8Char_length] at hj h
      have hp := c.utf8Size_pos
      rw [utf8_bytes s _ b h]
      constructor
      · intro hb; exact .inr ⟨_, by omega, hb⟩
      · rintro (h | ⟨k, h, hk⟩)
        · omega
        · have : j - c.utf8Size = k := by omega
          rw [this]; exact hk

/-- Within three bytes before a position there is a boundary. -/
theorem boundary_near : ∀ (s : Str) (i : Nat), i < blen s → ∃ k, Boundary s k ∧ k ≤ i ∧ i ≤ k + 3
  | [], i, h => by simp [blen] at h
  | c :: s, i, h => by
    have := utf8Size_le c
    by_cases hi : i < c.utf8Size
    · exact ⟨0, .zero _, by omega, by omega⟩
    · obtain ⟨k, h1, h2, h3⟩ := boundary_near s (i - c.utf8Size) (by simp [blen] at h; omega)
      exact ⟨_, h1.cons, by omega, by omega⟩

theorem rposition_spec {p : Nat → Bool} {l : List Nat} {i : Nat} (h : rposition p l = some i) :
    (∃ b, l[i]? = some b ∧ p b = true) ∧ ∀ j b, i < j → l[j]? = some b → p b = false := by
  unfold rposition at h
  split at h
  · rename_i k hk
    cases h
    rw [List.findIdx?_eq_some_iff_getElem] at hk
    obtain ⟨h1, h2, h3⟩ := hk
    simp at h1
    constructor
    · refine ⟨l[l.length - 1 - k], by rw [List.getElem?_eq_getElem (by omega)], ?_⟩
      rw [List.getElem_reverse] at h2
      exact h2
    · intro j b hj hb
      obtain ⟨hl, rfl⟩ := List.getElem?_eq_some_iff.1 hb
      have := h3 (l.length - 1 - j) (by omega)
      rw [List.getElem_reverse] at this
      have e : l.length - 1 - (l.length - 1 - j) = j := by omega
      simp only [e] at this
      simpa using this
  · cases h

theorem rposition_none {p : Nat → Bool} {l : List Nat} (h : rposition p l = none) : ∀ b ∈ l, p b = false := by
  unfold rposition at h
  split at h
  · cases h
  · rename_i hk
    rw [List.findIdx?_eq_none_iff] at hk
    intro b hb
    exact hk b (by simpa using hb)

/-- `floor_char_boundary` finds the greatest boundary up to a position. -/
theorem floorCharBoundary_spec (s : Str) (i : Nat) : ∃ k, floorCharBoundary s i = some k ∧ Boundary s k ∧ k ≤ i ∧
    ∀ j, Boundary s j → j ≤ i → j ≤ k := by
  unfold floorCharBoundary
  split
  · rename_i h
    exact ⟨_, rfl, .end_ s, h, fun j hj _ => hj.le⟩
  · rename_i h
    have h : i < blen s := by omega
    simp only
    obtain ⟨g, hg, g1, g2⟩ := boundary_near s i h
    have hget : ∀ j, j < i - (i - 3) + 1 → (((utf8 s).drop (i - 3)).take (i - (i - 3) + 1))[j]? = (utf8 s)[i - 3 + j]? := by
      intro j hj
      rw [List.getElem?_take, if_pos hj, List.getElem?_drop]
    have hlen : (((utf8 s).drop (i - 3)).take (i - (i - 3) + 1)).length = i - (i - 3) + 1 := by
      rw [List.length_take, List.length_drop, utf8_length]; omega
    cases hr : rposition isBoundaryByte (((utf8 s).drop (i - 3)).take (i - (i - 3) + 1)) with
    | none =>
      exfalso
      have hn := rposition_none hr
      have hlt : g < (utf8 s).length := by rw [utf8_length]; omega
      have hb := (utf8_bytes s g _ (List.getElem?_eq_getElem hlt)).2 hg
      have hm : (utf8 s)[g] ∈ ((utf8 s).drop (i - 3)).take (i - (i - 3) + 1) := by
        apply List.mem_of_getElem? (i := g - (i - 3))
        rw [hget _ (by omega), show i - 3 + (g - (i - 3)) = g by omega, List.getElem?_eq_getElem hlt]
      rw [hn _ hm] at hb
      cases hb
    | some k =>
      obtain ⟨⟨b, hb, hpb⟩, hmax⟩ := rposition_spec hr
      have hk : k < i - (i - 3) + 1 := by
        rw [← hlen]
        exact (List.getElem?_eq_some_iff.1 hb).1
      rw [hget k hk] at hb
      refine ⟨i - 3 + k, rfl, (utf8_bytes s _ b hb).1 hpb, by omega, ?_⟩
      intro j hj hji
      apply Classical.byContradiction
      intro hlt
      have hjl : j < (utf8 s).length := by rw [utf8_length]; omega
      have h1 := (utf8_bytes s j _ (List.getElem?_eq_getElem hjl)).2 hj
      have h2 := hmax (j - (i - 3)) (utf8 s)[j] (by omega) (by
        rw [hget _ (by omega), show i - 3 + (j - (i - 3)) = j by omega, List.getElem?_eq_getElem hjl])
      rw [h1] at h2
      cases h2

theorem sliceBytes_boundary {s : Str} {a b : Nat} (ha : Boundary s a) (hb : Boundary s b) (h : a ≤ b) :
    ∃ t, sliceBytes s a b = some t := by
  obtain ⟨p, q, rfl, rfl⟩ := hb
  obtain ⟨u, v, e, rfl⟩ := ha
  unfold sliceBytes
  rw [if_pos h, splitBytes_append]
  have : ∃ w, p = u ++ w := by
    rcases List.append_eq_append_iff.1 e with ⟨w, h1, h2⟩ | ⟨w, h1, h2⟩
    · subst h1
      cases w with
      | nil => exact ⟨[], by simp⟩
      | cons c w =>
        have := c.utf8Size_pos
        simp [blen] at h
        omega
    · exact ⟨w, h1⟩
  obtain ⟨w, rfl⟩ := this
  simp only [splitBytes_append]
  exact ⟨_, rfl⟩

theorem floor_pair {s : Str} {i j : Nat} (h : i ≤ j) : ∃ lo up, floorCharBoundary s i = some lo ∧
    floorCharBoundary s j = some up ∧ Boundary s lo ∧ Boundary s up ∧ lo ≤ up := by
  obtain ⟨lo, h1, h2, h3, _⟩ := floorCharBoundary_spec s i
  obtain ⟨up, h4, h5, _, h6⟩ := floorCharBoundary_spec s j
  exact ⟨lo, up, h1, h4, h2, h5, h6 lo h2 (by omega)⟩

/-- The string in which the innermost of the given expansions is. -/
def topText (input : Str) : List ExpSpan → Str
  | [] => input
  | e :: _ => e.full

theorem contextLoop_cons (input : Str) (e : ExpSpan) (es : List ExpSpan) (lo up : Nat) (ctx : Str) :
    contextLoop input (e :: es) lo up ctx =
      if lo > e.expLen then
        match floorCharBoundary (topText input es) (lo + e.callStart),
          floorCharBoundary (topText input es) (min (e.callStop + up) (blen (topText input es))) with
        | some lo', some up' => contextLoop input es lo' up' ctx
        | _, _ => .error .explicit
      else
        match sliceBytes e.full lo up with
        | none => .error .sliceBoundary
        | some t =>
          match floorCharBoundary (topText input es) (e.callStart - contextSize),
            floorCharBoundary (topText input es) (e.callStop + contextSize) with
          | some lo', some up' => contextLoop input es lo' up' (ctx ++ writeContextStr t false (lo > 0) ++ c!"─► which was expanded from:\n")
          | _, _ => .error .explicit := by
  cases es <;> rfl

theorem contextLoop_ok (input : Str) : ∀ (es : List ExpSpan) (lo up : Nat) (ctx : Str),
    (∀ e ∈ es, e.callStart ≤ e.callStop) → Boundary (topText input es) lo → Boundary (topText input es) up → lo ≤ up →
    ∃ t, contextLoop input es lo up ctx = .ok t
  | [], lo, up, ctx, _, h1, h2, h => by
    unfold contextLoop
    obtain ⟨t, ht⟩ := sliceBytes_boundary (s := input) h1 h2 h
    rw [ht]
    exact ⟨_, rfl⟩
  | e :: es, lo, up, ctx, hc, h1, h2, h => by
    rw [contextLoop_cons]
    have hce := hc e (by simp)
    split
    · have hle : lo + e.callStart ≤ min (e.callStop + up) (blen (topText input es)) ∨
          blen (topText input es) ≤ lo + e.callStart := by omega
      rcases hle with hle | hle
      · obtain ⟨lo', up', f1, f2, f3, f4, f5⟩ := floor_pair (s := topText input es) hle
        rw [f1, f2]
        exact contextLoop_ok input es lo' up' ctx (fun e he => hc e (by simp [he])) f3 f4 f5
      · have hmin : min (e.callStop + up) (blen (topText input es)) = blen (topText input es) := by omega
        rw [hmin]
        have f : ∀ i, blen (topText input es) ≤ i → floorCharBoundary (topText input es) i = some (blen (topText input es)) := by
          intro i hi; unfold floorCharBoundary; rw [if_pos hi]
        rw [f _ hle, f _ (Nat.le_refl _)]
        exact contextLoop_ok input es _ _ ctx (fun e he => hc e (by simp [he])) (.end_ _) (.end_ _) (Nat.le_refl _)
    · obtain ⟨t, ht⟩ := sliceBytes_boundary (s := e.full) h1 h2 h
      rw [ht]
      simp only
      obtain ⟨lo', up', f1, f2, f3, f4, f5⟩ := floor_pair (s := topText input es)
        (show e.callStart - contextSize ≤ e.callStop + contextSize by omega)
      rw [f1, f2]
      exact contextLoop_ok input es lo' up' _ (fun e he => hc e (by simp [he])) f3 f4 f5

/-- Where a search for a position stops. -/
theorem reachLoop_some {cf : Cfg} {input : Str} {ptr : Nat} : ∀ {es : List ExpSpan} {i : Nat} {es' : List ExpSpan},
    reachLoop cf input ptr es = some (i, es') → es' <:+ es ∧ i ≤ blen (topText input es') ∧
      ptr = (match es' with | [] => cf.addr 0 | e :: _ => cf.addr e.id) + i
  | [], i, es', h => by
    unfold reachLoop at h
    split at h
    · rename_i hc
      simp at hc
      cases h
      exact ⟨List.suffix_refl _, by show _ ≤ blen input; omega, by simp only; omega⟩
    · cases h
  | e :: es, i, es', h => by
    unfold reachLoop at h
    split at h
    · rename_i hc
      simp at hc
      cases h
      exact ⟨List.suffix_refl _, by show _ ≤ blen e.full; omega, by simp only; omega⟩
    · obtain ⟨h1, h2, h3⟩ := reachLoop_some h
      exact ⟨h1.trans (List.suffix_cons _ _), h2, h3⟩

theorem errorContext_eq {cf : Cfg} {sp sp' : Spans} {place i : Nat} (h : sp.reach cf place = some (i, sp')) :
    errorContext cf sp place =
      match floorCharBoundary (topText sp'.input sp'.exps) (i - contextSize),
        floorCharBoundary (topText sp'.input sp'.exps) (i + contextSize) with
      | some lo, some up =>
        match contextLoop sp'.input sp'.exps lo up c!"╭─► context:\n" with
        | .ok ctx => .ok (ctx, sp')
        | .error p => .error p
      | _, _ => .error .explicit := by
  unfold errorContext
  rw [h]
  obtain ⟨inp, es, t, n, a⟩ := sp'
  cases es <;> rfl

/-- Nothing goes wrong once the position has been found. -/
theorem errorContext_ok {cf : Cfg} {sp sp' : Spans} {place i : Nat} (hc : ∀ e ∈ sp.exps, e.callStart ≤ e.callStop)
    (h : sp.reach cf place = some (i, sp')) : ∃ t, errorContext cf sp place = .ok (t, sp') := by
  rw [errorContext_eq h]
  unfold Spans.reach at h
  cases hr : reachLoop cf sp.input place sp.exps with
  | none => rw [hr] at h; cases h
  | some x =>
    obtain ⟨k, es⟩ := x
    rw [hr] at h
    simp at h
    obtain ⟨rfl, rfl⟩ := h
    obtain ⟨h1, h2, _⟩ := reachLoop_some hr
    obtain ⟨lo, up, f1, f2, f3, f4, f5⟩ := floor_pair (s := topText sp.input es) (show k - contextSize ≤ k + contextSize by omega)
    rw [f1, f2]
    simp only
    obtain ⟨t, ht⟩ := contextLoop_ok sp.input es lo up c!"╭─► context:\n" (fun e he => hc e (h1.subset he)) f3 f4 f5
    rw [ht]
    exact ⟨_, rfl⟩

theorem errorContext_none {cf : Cfg} {sp : Spans} {place : Nat} (h : sp.reach cf place = none) :
    errorContext cf sp place = .error .assertion := by
  unfold errorContext
  rw [h]

end PL
