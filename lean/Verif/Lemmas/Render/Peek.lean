import Verif.Lemmas.Render.Wp
set_option autoImplicit false
/-!
# What a renderer function does with the items

`Fair m`: what the function does depends on the items that are left but not on how many of them have been peeked, and
it takes items off the front only.
-/
namespace PL.Mathml
open W (boom get modify out)

/-- The items that are left. -/
def RSt.items (s : RSt) : List RItem := s.peeked ++ s.rest

/-- The same state up to the number of peeked items. -/
def Same (s t : RSt) : Prop := ∃ p r, t = { s with peeked := p, rest := r } ∧ p ++ r = s.peeked ++ s.rest

def SameR {α : Type} : WRes α → WRes α → Prop
  | .ok a s, .ok b t => a = b ∧ Same s t
  | .io v, .io w => v = w
  | .panic p, .panic q => p = q
  | _, _ => False

/-- See the head of the file. -/
structure Fair {α : Type} (m : W α) : Prop where
  run : ∀ s t, Same s t → SameR (m s) (m t)
  suff : ∀ s a s', m s = .ok a s' → ∃ c, s.items = c ++ s'.items

theorem Same.refl (s : RSt) : Same s s := ⟨_, _, rfl, rfl⟩
theorem Same.items {s t : RSt} (h : Same s t) : t.items = s.items := by
  obtain ⟨p, r, rfl, h⟩ := h; exact h

section
variable {α β : Type}

theorem Fair.pure (a : α) : Fair (Pure.pure a : W α) := ⟨fun _ _ h => ⟨rfl, h⟩, fun s b s' h => by cases h; exact ⟨[], rfl⟩⟩

theorem Fair.boom (p : Panic) : Fair (boom p : W α) := ⟨fun _ _ _ => rfl, fun _ _ _ h => by cases h⟩

theorem Fair.bind {m : W α} {f : α → W β} (hm : Fair m) (hf : ∀ a, Fair (f a)) : Fair (m >>= f) := by
  constructor
  · intro s t h
    have h1 := hm.run s t h
    rw [run_bind, run_bind]
    cases e1 : m s with
    | ok a s' =>
      rw [e1] at h1
      cases e2 : m t with
      | ok b t' =>
        rw [e2] at h1
        obtain ⟨rfl, h1⟩ := h1
        exact (hf a).run _ _ h1
      | io w => rw [e2] at h1; exact h1.elim
      | panic p => rw [e2] at h1; exact h1.elim
    | io w =>
      rw [e1] at h1
      cases e2 : m t with
      | ok b t' => rw [e2] at h1; exact h1.elim
      | io w => rw [e2] at h1; exact h1
      | panic p => rw [e2] at h1; exact h1.elim
    | panic w =>
      rw [e1] at h1
      cases e2 : m t with
      | ok b t' => rw [e2] at h1; exact h1.elim
      | io w => rw [e2] at h1; exact h1.elim
      | panic p => rw [e2] at h1; exact h1
  · intro s b s' h
    rw [run_bind] at h
    cases e1 : m s with
    | ok a s1 =>
      rw [e1] at h
      obtain ⟨c, hc⟩ := hm.suff _ _ _ e1
      obtain ⟨c', hc'⟩ := (hf a).suff _ _ _ h
      exact ⟨c ++ c', by rw [hc, hc', List.append_assoc]⟩
    | io w => rw [e1] at h; cases h
    | panic p => rw [e1] at h; cases h

theorem Fair.get_bind {f : RSt → W α} (h : ∀ (s : RSt) (p r : List RItem), p.length + r.length = s.peeked.length + s.rest.length →
    f s = f { s with peeked := p, rest := r }) (hf : ∀ s, Fair (f s)) : Fair (get >>= f) := by
  constructor
  · rintro s _ ⟨p, r, rfl, hs⟩
    have hl := congrArg List.length hs
    simp only [List.length_append] at hl
    show SameR (f s s) (f { s with peeked := p, rest := r } { s with peeked := p, rest := r })
    rw [← h s p r hl]
    exact (hf s).run _ _ ⟨p, r, rfl, hs⟩
  · intro s b s' e
    exact (hf s).suff _ _ _ e

theorem Fair.modify {f : RSt → RSt} (h : ∀ s p r, f { s with peeked := p, rest := r } = { f s with peeked := p, rest := r }) :
    Fair (modify f) := by
  have e : ∀ s, (f s).peeked = s.peeked ∧ (f s).rest = s.rest := fun s => by
    have := h s s.peeked s.rest
    have e : f s = { f s with peeked := s.peeked, rest := s.rest } := this
    have h1 := congrArg RSt.peeked e
    have h2 := congrArg RSt.rest e
    exact ⟨h1, h2⟩
  constructor
  · rintro s _ ⟨p, r, rfl, hp⟩
    refine ⟨rfl, p, r, h _ _ _, ?_⟩
    rw [(e s).1, (e s).2]; exact hp
  · intro s b s' h'
    cases h'
    exact ⟨[], by simp only [RSt.items, (e s).1, (e s).2]; rfl⟩

theorem Fair.out (t : Str) : Fair (out t) := by
  constructor
  · rintro s _ ⟨p, r, rfl, hp⟩
    simp only [W.out]
    cases s.budget with
    | none => exact ⟨rfl, p, r, rfl, hp⟩
    | some k =>
      dsimp only
      split
      · exact ⟨rfl, p, r, rfl, hp⟩
      · rfl
  · intro s b s' h
    simp only [W.out] at h
    split at h
    · cases h; exact ⟨[], rfl⟩
    · split at h
      · cases h; exact ⟨[], rfl⟩
      · cases h

end

/-! ## The functions of the renderer -/

/-- One step in showing `Fair`. -/
macro "fair1" : tactic => `(tactic| with_reducible first
  | assumption
  | exact Fair.pure _
  | exact Fair.boom _
  | exact Fair.out _
  | exact Fair.modify (fun _ _ _ => by with_unfolding_all rfl)
  | (apply Fair.get_bind (fun _ _ _ h => by with_unfolding_all first | rfl | (dsimp only; rw [h])); intro _)
  | (apply Fair.bind; rotate_left; intro _; rotate_left)
  | split
  | (dsimp only; split))

macro "fair" : tactic => `(tactic| repeat' fair1)

theorem fair_next : Fair next := by
  constructor
  · rintro ⟨pk, rt, o, b, env, ss, pv, rc⟩ _ ⟨p, r, rfl, hp⟩
    dsimp only at hp
    cases pk with
    | cons i pk =>
      cases p with
      | cons j p =>
        rw [List.cons_append, List.cons_append] at hp
        injection hp with h1 h2
        subst h1
        exact ⟨rfl, p, r, rfl, h2⟩
      | nil =>
        cases r with
        | nil => cases hp
        | cons j r => cases hp; exact ⟨rfl, [], _, rfl, rfl⟩
    | nil =>
      cases rt with
      | nil => cases p <;> cases r <;> first | exact ⟨rfl, [], [], rfl, rfl⟩ | cases hp
      | cons i rt =>
        cases p with
        | cons j p => cases hp; exact ⟨rfl, p, r, rfl, rfl⟩
        | nil => cases hp; exact ⟨rfl, [], _, rfl, rfl⟩
  · rintro ⟨pk, rt, o, b, env, ss, pv, rc⟩ a s' h
    cases pk with
    | cons i pk => cases h; exact ⟨[i], rfl⟩
    | nil =>
      cases rt with
      | nil => cases h; exact ⟨[], rfl⟩
      | cons i rt => cases h; exact ⟨[i], rfl⟩

theorem peekFirst_eq (s : RSt) : ∃ t, peekFirst s = .ok s.items.head? t ∧ Same s t := by
  obtain ⟨pk, rt, o, b, env, ss, pv, rc⟩ := s
  cases pk with
  | cons i pk => exact ⟨_, rfl, .refl _⟩
  | nil =>
    cases rt with
    | nil => exact ⟨_, rfl, .refl _⟩
    | cons i rt => exact ⟨_, rfl, [i], rt, rfl, rfl⟩

theorem Same.symm {s t : RSt} (h : Same s t) : Same t s := by
  obtain ⟨p, r, rfl, h⟩ := h
  exact ⟨s.peeked, s.rest, rfl, h.symm⟩

theorem Same.trans {s t u : RSt} (h : Same s t) (h' : Same t u) : Same s u := by
  obtain ⟨p, r, rfl, h⟩ := h
  obtain ⟨p', r', rfl, h'⟩ := h'
  exact ⟨p', r', rfl, h'.trans h⟩

/-- A function that only looks at the items. -/
theorem Fair.look {α : Type} {m : W α} {f : List RItem → α} (h : ∀ s, ∃ t, m s = .ok (f s.items) t ∧ Same s t) : Fair m := by
  constructor
  · intro s t hs
    obtain ⟨s', e, hs'⟩ := h s
    obtain ⟨t', e', ht'⟩ := h t
    rw [e, e']
    exact ⟨by rw [hs.items], hs'.symm.trans (hs.trans ht')⟩
  · intro s a s' e
    obtain ⟨t, e', ht⟩ := h s
    rw [e'] at e
    cases e
    exact ⟨[], ht.items.symm⟩

theorem fair_peekFirst : Fair peekFirst := .look peekFirst_eq

/-- The class of the first item that has one. -/
def firstAtom : List RItem → Option Atom
  | [] => none
  | i :: is =>
    match atomOf i with
    | none => firstAtom is
    | some r => r

theorem firstAtom_skip {a b : List RItem} (h : ∀ i ∈ a, atomOf i = none) : firstAtom (a ++ b) = firstAtom b := by
  induction a with
  | nil => rfl
  | cons i a ih =>
    rw [List.cons_append, firstAtom, h i (by simp)]
    exact ih fun i hi => h i (by simp [hi])

theorem nextAtomLoop_eq : ∀ (n k : Nat) (s : RSt), k ≤ s.peeked.length → s.peeked.length - k + 2 * s.rest.length < n →
    (∀ i ∈ s.peeked.take k, atomOf i = none) →
    ∃ t, nextAtomLoop n k s = .ok (firstAtom s.items) t ∧ Same s t
  | 0, _, _, _, h, _ => by omega
  | n + 1, k, ⟨pk, rt, o, b, env, ss, pv, rc⟩, hk, hn, ha => by
    dsimp only at hk hn ha
    rw [nextAtomLoop, run_bind]
    simp only [W.get]
    by_cases hlt : k < pk.length
    · rw [List.getElem?_eq_getElem hlt]
      dsimp only
      have e : pk ++ rt = pk.take k ++ (pk[k] :: (pk.drop (k + 1) ++ rt)) := by
        rw [← List.cons_append, ← List.drop_eq_getElem_cons, ← List.append_assoc, List.take_append_drop]
      have e2 : firstAtom (pk ++ rt) = firstAtom (pk[k] :: (pk.drop (k + 1) ++ rt)) := by rw [e, firstAtom_skip ha]
      cases h : atomOf pk[k] with
      | none =>
        dsimp only
        refine nextAtomLoop_eq n (k + 1) _ hlt (by dsimp only; omega) ?_
        dsimp only
        intro i hi
        rw [List.take_succ_eq_append_getElem hlt] at hi
        rcases List.mem_append.1 hi with hi | hi
        · exact ha i hi
        · rw [List.mem_singleton.1 hi, h]
      | some x =>
        refine ⟨_, ?_, .refl _⟩
        simp only [RSt.items, e2, firstAtom, h]
        rfl
    · have hk' : k = pk.length := by omega
      subst hk'
      rw [List.getElem?_eq_none (Nat.le_refl _)]
      dsimp only
      rw [List.take_length] at ha
      rw [run_bind]
      cases rt with
      | nil =>
        refine ⟨_, ?_, .refl _⟩
        simp only [RSt.items, firstAtom_skip ha]
        rfl
      | cons i r =>
        have e2 : firstAtom (pk ++ i :: r) = firstAtom (i :: r) := firstAtom_skip ha
        simp only [peekNext]
        cases h : atomOf i with
        | none =>
          dsimp only
          obtain ⟨t, h1, h2⟩ := nextAtomLoop_eq n pk.length ⟨pk ++ [i], r, o, b, env, ss, pv, rc⟩ (by simp)
            (by simp only [List.length_append, List.length_cons, List.length_nil] at hn ⊢; omega) (by rw [List.take_left]; exact ha)
          refine ⟨t, ?_, Same.trans ⟨_, _, rfl, ?_⟩ h2⟩
          · rw [h1]; simp [RSt.items]
          · simp
        | some x =>
          refine ⟨⟨pk ++ [i], r, o, b, env, ss, pv, rc⟩, ?_, ⟨_, _, rfl, by simp⟩⟩
          simp only [RSt.items, e2, firstAtom, h]
          rfl

/-- `next_atom` depends on the items alone. -/
theorem nextAtom_eq (s : RSt) : ∃ t, nextAtom s = .ok (firstAtom s.items) t ∧ Same s t := by
  have : nextAtom s = nextAtomLoop (s.peeked.length + 2 * s.rest.length + 1) 0 s := rfl
  rw [this]
  exact nextAtomLoop_eq _ 0 s (Nat.zero_le _) (by omega) (by simp)

theorem fair_nextAtom : Fair nextAtom := .look nextAtom_eq

theorem fair_state : Fair state := by unfold state; fair

theorem fair_updState (f : RState → RState) : Fair (updState f) := by unfold updState; fair

theorem fair_openTag (tag : Str) (c : Option Str) : Fair (openTag tag c) := by
  have := fair_state
  unfold openTag
  fair

theorem fair_handleStateChange (sc : StateChange) : Fair (handleStateChange sc) := fair_updState _

theorem fair_setPrev (a : Atom) : Fair (setPrev a) := by
  unfold setPrev
  refine Fair.modify fun s p r => ?_
  dsimp only
  split <;> rfl

theorem fair_forcePrev (a : Option Atom) : Fair (forcePrev a) := by unfold forcePrev; fair

theorem fair_mapChar (f : Font) (c : Char) : Fair (mapChar f c) := by unfold mapChar; fair

theorem fair_forChars {f : Char → W PUnit} (h : ∀ c, Fair (f c)) : ∀ s, Fair (forChars f s)
  | [] => Fair.pure _
  | c :: s => Fair.bind (h c) fun _ => fair_forChars h s

theorem fair_arrayNewline (cols : List ArrayCol) : Fair (arrayNewline cols) := by unfold arrayNewline; fair
theorem fair_arrayAlign (cols : List ArrayCol) (i : Nat) : Fair (arrayAlign cols i) := by unfold arrayAlign; fair
theorem fair_arrayCloseLine (cols : List ArrayCol) (i : Nat) : Fair (arrayCloseLine cols i) := by
  unfold arrayCloseLine; fair

theorem fair_applyFunction : Fair applyFunction := by
  have := fair_nextAtom
  unfold applyFunction
  fair

theorem fair_writeContent (cfg : RCfg) (neg : Bool) (c : Content) : Fair (writeContent cfg neg c) := by
  have h1 := fair_openTag
  have h2 := fair_state
  have h3 := fair_mapChar
  have h4 := fair_setPrev
  have h5 := fair_nextAtom
  have h6 := fair_applyFunction
  cases c <;> unfold writeContent <;>
    repeat' with_reducible first
      | exact h1 _ _
      | exact h3 _ _
      | exact h4 _
      | (apply fair_forChars; intro _)
      | fair1

theorem fair_groupChanges : ∀ n, Fair (groupChanges n)
  | 0 => Fair.boom _
  | n + 1 => by
    have h1 := fair_groupChanges n
    have h2 := fair_peekFirst
    have h3 := fair_next
    have h4 := fair_handleStateChange
    unfold groupChanges
    repeat' with_reducible first | exact h4 _ | fair1

theorem fair_envLines : Fair envLines := by
  have h2 := fair_peekFirst
  have h3 := fair_next
  unfold envLines
  fair

theorem fair_tableOpen (t : Str) (g : EnvG) : Fair (tableOpen t g) := by
  have := fair_envLines
  unfold tableOpen
  fair

theorem fair_writeDelim (c : Option Char) : Fair (writeDelim c) := by
  have h1 := fair_openTag
  cases c <;> unfold writeDelim <;> repeat' with_reducible first | exact h1 _ _ | fair1

theorem fair_openGroup (g : Grouping) : Fair (openGroup g) := by
  have h1 := fair_tableOpen
  have h2 := fair_writeDelim
  have h3 := fair_forcePrev
  have h4 := fair_envLines
  have h5 := fair_arrayNewline
  cases g <;> unfold openGroup <;>
    repeat' with_reducible first | exact h1 _ _ | exact h2 _ | exact h3 _ | exact h5 _ | fair1

theorem fair_writeBegin (g : Grouping) : Fair (writeBegin g) := by
  have h1 := fair_forcePrev
  have h2 := fair_state
  have h3 := fair_groupChanges
  have h4 := fair_openTag
  have h5 := fair_updState
  have h6 := fair_openGroup
  unfold writeBegin
  repeat' with_reducible first | exact h1 _ | exact h3 _ | exact h4 _ _ | exact h5 _ | exact h6 _ | fair1

theorem fair_closeGroup (g : EnvG) : Fair (closeGroup g) := by
  have h1 := fair_writeDelim
  have h2 := fair_forcePrev
  cases g <;> unfold closeGroup <;> repeat' with_reducible first | exact h1 _ | exact h2 _ | fair1

theorem fair_recover : Fair recover := by unfold recover; fair

theorem fair_writeEnd : Fair writeEnd := by
  have h1 := fair_closeGroup
  have h2 := fair_forcePrev
  have h3 := fair_recover
  unfold writeEnd
  repeat' with_reducible first | exact h1 _ | exact h2 _ | fair1

theorem fair_writeVisual (cfg : RCfg) (v : Visual) : Fair (writeVisual cfg v) := by
  have h1 := fair_peekFirst
  have h2 := fair_next
  have h3 := fair_openTag
  have h4 := fair_writeContent
  unfold writeVisual
  repeat' with_reducible first | exact h3 _ _ | exact h4 _ _ _ | fair1

theorem fair_writeScript (cfg : RCfg) (ty : ScriptType) (p : ScriptPos) : Fair (writeScript cfg ty p) := by
  have h1 := fair_state
  have h3 := fair_openTag
  unfold writeScript
  repeat' with_reducible first | exact h3 _ _ | fair1

theorem fair_writeSpace (cfg : RCfg) (w h d : Option Dim) : Fair (writeSpace cfg w h d) := by
  unfold writeSpace; fair

theorem fair_alignUpTo (cols : List ArrayCol) (t : Nat) : ∀ n i, Fair (alignUpTo cols t n i)
  | 0, _ => Fair.boom _
  | n + 1, i => by
    have h1 := fair_alignUpTo cols t n
    have h2 := fair_arrayAlign
    unfold alignUpTo
    repeat' with_reducible first | exact h1 _ | exact h2 _ _ | fair1

theorem fair_setTop (g : EnvG) : Fair (setTop g) := by unfold setTop; fair

theorem fair_newLineRest (cfg : RCfg) (sp : Option Dim) (ls : List Line) : Fair (newLineRest cfg sp ls) := by
  have h1 := fair_arrayNewline
  have h2 := fair_alignUpTo
  have h3 := fair_arrayCloseLine
  have h4 := fair_setTop
  have h5 := fair_recover
  unfold newLineRest
  repeat' with_reducible first | exact h1 _ | exact h2 _ _ _ _ | exact h3 _ _ | exact h4 _ | fair1

theorem fair_writeNewLine (cfg : RCfg) (sp : Option Dim) (ls : List Line) : Fair (writeNewLine cfg sp ls) := by
  have h1 := fair_updState
  have h2 := fair_forcePrev
  have h3 := fair_arrayCloseLine
  have h4 := fair_newLineRest
  unfold writeNewLine
  repeat' with_reducible first | exact h1 _ | exact h2 _ | exact h3 _ _ | exact h4 _ _ _ | fair1

theorem fair_writeAlignment (cfg : RCfg) : Fair (writeAlignment cfg) := by
  have h1 := fair_updState
  have h2 := fair_forcePrev
  have h3 := fair_arrayAlign
  have h4 := fair_setTop
  have h5 := fair_recover
  unfold writeAlignment
  repeat' with_reducible first | exact h1 _ | exact h2 _ | exact h3 _ _ | exact h4 _ | fair1

theorem fair_writeEvent (cfg : RCfg) (i : RItem) : Fair (writeEvent cfg i) := by
  match i with
  | .ok (.content c) => exact fair_writeContent _ _ _
  | .ok (.begin_ g) => exact fair_writeBegin _
  | .ok .end_ => exact fair_writeEnd
  | .ok (.visual v) => exact fair_writeVisual _ _
  | .ok (.script ty p) => exact fair_writeScript _ _ _
  | .ok (.space w h d) => exact fair_writeSpace _ _ _ _
  | .ok (.stateChange sc) => exact fair_handleStateChange _
  | .ok (.flow (.newLine sp ls)) => exact fair_writeNewLine _ _ _
  | .ok (.flow .alignment) => exact fair_writeAlignment _
  | .ok (.flow (.startLines _)) => exact fair_recover
  | .err msg => 
    have h5 := fair_recover
    unfold writeEvent
    fair

theorem fair_closeLoop : ∀ es, Fair (closeLoop es)
  | [] => Fair.pure _
  | .group _ :: _ => Fair.pure _
  | .visual v n :: es => by
    have h1 := fair_closeLoop es
    have h2 := fair_setPrev
    unfold closeLoop
    repeat' with_reducible first | exact h2 _ | fair1
  | .script ty a n fn :: es => by
    have h1 := fair_closeLoop es
    have h2 := fair_setPrev
    have h3 := fair_applyFunction
    unfold closeLoop
    repeat' with_reducible first | exact h2 _ | fair1

theorem fair_mainLoop (cfg : RCfg) : ∀ n, Fair (mainLoop cfg n)
  | 0 => Fair.boom _
  | n + 1 => by
    have h1 := fair_mainLoop cfg n
    have h2 := fair_next
    have h3 := fair_writeEvent cfg
    have h4 := fair_closeLoop
    unfold mainLoop
    repeat' with_reducible first | exact h3 _ | exact h4 _ | fair1

theorem fair_cleanup : ∀ es, Fair (cleanup es)
  | [] => by unfold cleanup; fair
  | .group _ :: es => by
    have h1 := fair_cleanup es
    unfold cleanup; fair
  | .visual v n :: es => by
    have h1 := fair_cleanup es
    unfold cleanup; fair
  | .script ty a n fn :: es => by
    have h1 := fair_cleanup es
    unfold cleanup; fair

theorem fair_write (cfg : RCfg) : Fair (write cfg) := by
  have h1 := fair_mainLoop cfg
  have h2 := fair_cleanup
  unfold write
  repeat' with_reducible first | exact h1 _ | exact h2 _ | fair1

end PL.Mathml
