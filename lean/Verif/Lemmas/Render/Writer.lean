import Verif.Model.Mathml
import Verif.Lemmas.Utf8
set_option autoImplicit false
/-!
# What a renderer function does with the writer

`Good m`: the function neither reads nor removes what was written before; with a writer that accepts
only some bytes it does the same as with one that accepts all, up to the point where they are used up.
-/
namespace PL.Mathml
open W (boom get modify out)

/-- The state with an empty target that accepts everything. -/
def core (s : RSt) : RSt := { s with out := [], budget := none }

/-- The outcome for a target with contents `o` and budget `b`, from the one for an empty unlimited target. -/
def lift {α : Type} (o : Str) (b : Option Nat) (a : α) (c : RSt) : WRes α :=
  match b with
  | none => .ok a { c with out := o ++ c.out, budget := none }
  | some k =>
    if blen c.out ≤ k then .ok a { c with out := o ++ c.out, budget := some (k - blen c.out) }
    else .io (utf8 o ++ (utf8 c.out).take k)

/-- The outcome of a function that panics after having written `t`. -/
def liftPanic {α : Type} (o : Str) (b : Option Nat) (p : Panic) (t : Str) : WRes α :=
  match b with
  | none => .panic p
  | some k => if blen t ≤ k then .panic p else .io (utf8 o ++ (utf8 t).take k)

/-- See the head of the file. -/
structure Good {α : Type} (m : W α) : Prop where
  run : ∀ c : RSt, core c = c →
    (∃ a d, m c = .ok a d ∧ ∀ s, core s = c → m s = lift s.out s.budget a d) ∨
    (∃ p t, ∀ s, core s = c → m s = liftPanic s.out s.budget p t)

section
variable {α β : Type}

theorem core_core (s : RSt) : core (core s) = core s := rfl

theorem Good.pure (a : α) : Good (Pure.pure a : W α) := ⟨fun c _ => .inl ⟨a, c, rfl, fun s hs => by
  subst hs
  cases h : s.budget with
  | none => show WRes.ok a s = WRes.ok a _; simp [core, ← h]
  | some k => simp only [lift, core, blen, Nat.zero_le, if_true]; show WRes.ok a s = WRes.ok a _; simp [← h]⟩⟩

theorem Good.boom (p : Panic) : Good (boom p : W α) := ⟨fun c _ => .inr ⟨p, [], fun s _ => by
  cases h : s.budget <;> simp [liftPanic, blen, W.boom]⟩⟩

theorem run_bind (m : W α) (f : α → W β) (s : RSt) : (m >>= f) s = match m s with
  | .ok a s' => f a s'
  | .io w => .io w
  | .panic p => .panic p := rfl

theorem bind_ok {m : W α} {f : α → W β} {s s' : RSt} {a : α} (h : m s = .ok a s') : (m >>= f) s = f a s' := by
  rw [run_bind, h]

theorem Good.out (t : Str) : Good (out t) := by
  constructor
  intro c _
  refine .inl ⟨⟨⟩, { core c with out := t }, ?_, ?_⟩
  · rename_i h
    rw [← h]; rfl
  · intro s hs
    subst hs
    cases h : s.budget with
    | none => simp [W.out, lift, core, h]
    | some k => simp [W.out, lift, core, h]

theorem take_app {γ : Type} (a b : List γ) (n : Nat) (h : a.length ≤ n) :
    (a ++ b).take n = a ++ b.take (n - a.length) := by
  rw [List.take_append, List.take_of_length_le h]

theorem Good.bind {m : W α} {f : α → W β} (hm : Good m) (hf : ∀ a, Good (f a)) : Good (m >>= f) := by
  constructor
  intro c hc
  rcases hm.run c hc with ⟨a, d, h1, h2⟩ | ⟨p, t, h2⟩
  · rcases (hf a).run (core d) (core_core d) with ⟨b, e, g1, g2⟩ | ⟨p, t, g2⟩
    · have hd : d.budget = none := by
        have := h2 c hc
        rw [h1, ← hc] at this
        simp only [lift, core] at this
        injection this with _ this
        exact congrArg RSt.budget this
      have g3 : ∀ o b', f a { d with out := o, budget := b' } = lift o b' b e := fun o b' => g2 _ rfl
      refine .inl ⟨b, { e with out := d.out ++ e.out, budget := none }, ?_, ?_⟩
      · rw [bind_ok h1, g2 d rfl, hd]; rfl
      · intro s hs
        rw [run_bind, h2 s hs]
        cases hb : s.budget with
        | none => simp only [lift]; rw [g3]; simp only [lift, List.append_assoc]
        | some k =>
          simp only [lift, blen_append]
          by_cases hk : blen d.out ≤ k
          · rw [if_pos hk]
            simp only
            rw [g3]
            simp only [lift]
            by_cases hk2 : blen e.out ≤ k - blen d.out
            · rw [if_pos hk2, if_pos (by omega)]
              simp only [List.append_assoc, Nat.sub_sub]
            · rw [if_neg hk2, if_neg (by omega), utf8_append, utf8_append, List.append_assoc,
                take_app _ _ _ (by rw [utf8_length]; exact hk), utf8_length]
          · rw [if_neg hk, if_neg (by omega), utf8_append, List.take_append_of_le_length (by rw [utf8_length]; omega)]
    · have g3 : ∀ o b', f a { d with out := o, budget := b' } = liftPanic o b' p t := fun o b' => g2 _ rfl
      refine .inr ⟨p, d.out ++ t, fun s hs => ?_⟩
      rw [run_bind, h2 s hs]
      cases hb : s.budget with
      | none => simp only [lift, liftPanic]; rw [g3]; rfl
      | some k =>
        simp only [lift, liftPanic, blen_append]
        by_cases hk : blen d.out ≤ k
        · rw [if_pos hk]
          simp only
          rw [g3]
          simp only [liftPanic]
          by_cases hk2 : blen t ≤ k - blen d.out
          · rw [if_pos hk2, if_pos (by omega)]
          · rw [if_neg hk2, if_neg (by omega), utf8_append, utf8_append, List.append_assoc,
              take_app _ _ _ (by rw [utf8_length]; exact hk), utf8_length]
        · rw [if_neg hk, if_neg (by omega), utf8_append, List.take_append_of_le_length (by rw [utf8_length]; omega)]
  · refine .inr ⟨p, t, fun s hs => ?_⟩
    rw [run_bind, h2 s hs]
    cases hb : s.budget with
    | none => rfl
    | some k => simp only [liftPanic]; by_cases hk : blen t ≤ k <;> simp only [hk, if_true, if_false]

theorem Good.get_bind {f : RSt → W α} (h : ∀ s, f s = f (core s)) (hf : ∀ s, Good (f s)) : Good (get >>= f) := by
  constructor
  intro c hc
  have e1 : ∀ s, core s = c → (get >>= f) s = f c s := fun s hs => by rw [← hs]; exact congrFun (h s) s
  rcases (hf c).run c hc with ⟨a, d, h1, h2⟩ | ⟨p, t, h2⟩
  · exact .inl ⟨a, d, by rw [e1 c hc, h1], fun s hs => by rw [e1 s hs, h2 s hs]⟩
  · exact .inr ⟨p, t, fun s hs => by rw [e1 s hs, h2 s hs]⟩

theorem Good.modify {f : RSt → RSt} (h : ∀ s o b, f { s with out := o, budget := b } = { f s with out := o, budget := b }) :
    Good (modify f) := by
  constructor
  intro c hc
  refine .inl ⟨⟨⟩, f c, rfl, ?_⟩
  intro s hs
  subst hs
  show WRes.ok PUnit.unit (f s) = _
  have : f (core s) = { f s with out := [], budget := none } := h s [] none
  rw [this]
  have hs : f s = { f s with out := s.out, budget := s.budget } := h s s.out s.budget
  cases hb : s.budget with
  | none => simp only [lift, List.append_nil]; rw [hb] at hs; rw [← hs]
  | some k =>
    simp only [lift, blen, Nat.zero_le, if_true, List.append_nil, Nat.sub_zero]; rw [hb] at hs; rw [← hs]

/-- A function that does the same as a good one, depending on what does not concern the writer. -/
theorem Good.of_core {m : W α} (h : ∀ c : RSt, ∃ m', Good m' ∧ ∀ s, core s = core c → m s = m' s) : Good m := by
  constructor
  intro c hc
  obtain ⟨m', hm, e⟩ := h c
  rcases hm.run c hc with ⟨a, d, h1, h2⟩ | ⟨p, t, h2⟩
  · exact .inl ⟨a, d, by rw [e c rfl, h1], fun s hs => by rw [e s (by rw [hs, hc]), h2 s hs]⟩
  · exact .inr ⟨p, t, fun s hs => by rw [e s (by rw [hs, hc]), h2 s hs]⟩

end

/-! ## The functions of the renderer -/

/-- One step in showing `Good`. -/
macro "good1" : tactic => `(tactic| with_reducible first
  | assumption
  | exact Good.pure _
  | exact Good.boom _
  | exact Good.out _
  | exact Good.modify (fun _ _ _ => by with_unfolding_all rfl)
  | (apply Good.get_bind (fun _ => by with_unfolding_all rfl); intro _)
  | (apply Good.bind; rotate_left; intro _; rotate_left)
  | split
  | (dsimp only; split))

macro "good" : tactic => `(tactic| repeat' good1)

theorem good_peekNext : Good peekNext := by
  refine Good.of_core fun c => ?_
  have hr : ∀ s, core s = core c → s.rest = c.rest := fun s h => by
    show (core s).rest = (core c).rest
    rw [h]
  cases h : c.rest with
  | nil =>
    refine ⟨_, Good.pure none, fun s hs => ?_⟩
    simp only [peekNext, hr s hs, h]; rfl
  | cons i r =>
    refine ⟨(do modify (fun s => { s with peeked := s.peeked ++ [i], rest := r }); pure (some i) : W _),
      Good.bind (Good.modify fun _ _ _ => rfl) fun _ => Good.pure _, fun s hs => ?_⟩
    simp only [peekNext, hr s hs, h]; rfl

theorem good_next : Good next := by
  refine Good.of_core fun c => ?_
  have hr : ∀ s, core s = core c → s.rest = c.rest := fun s h => by
    show (core s).rest = (core c).rest
    rw [h]
  have hp : ∀ s, core s = core c → s.peeked = c.peeked := fun s h => by
    show (core s).peeked = (core c).peeked
    rw [h]
  cases h : c.peeked with
  | cons i r =>
    refine ⟨(do modify (fun s => { s with peeked := r }); pure (some i) : W _),
      Good.bind (Good.modify fun _ _ _ => rfl) fun _ => Good.pure _, fun s hs => ?_⟩
    simp only [next, hp s hs, h]; rfl
  | nil =>
    cases h' : c.rest with
    | nil =>
      refine ⟨_, Good.pure none, fun s hs => ?_⟩
      simp only [next, hp s hs, hr s hs, h, h']; rfl
    | cons i r =>
      refine ⟨(do modify (fun s => { s with rest := r }); pure (some i) : W _),
        Good.bind (Good.modify fun _ _ _ => rfl) fun _ => Good.pure _, fun s hs => ?_⟩
      have e := hp s hs
      simp only [next, e, hr s hs, h, h']
      show _ = WRes.ok _ _
      dsimp only; rw [e, h]

theorem good_peekFirst : Good peekFirst := by
  have := good_peekNext
  unfold peekFirst
  good

theorem good_state : Good state := by unfold state; good

theorem good_updState (f : RState → RState) : Good (updState f) := by unfold updState; good

theorem good_openTag (tag : Str) (c : Option Str) : Good (openTag tag c) := by
  have := good_state
  unfold openTag
  good

theorem good_handleStateChange (sc : StateChange) : Good (handleStateChange sc) := good_updState _

theorem good_setPrev (a : Atom) : Good (setPrev a) := by
  unfold setPrev
  refine Good.modify fun s o b => ?_
  dsimp only
  split <;> rfl

theorem good_forcePrev (a : Option Atom) : Good (forcePrev a) := by unfold forcePrev; good

theorem good_nextAtomLoop : ∀ n i, Good (nextAtomLoop n i)
  | 0, _ => Good.boom _
  | n + 1, i => by
    have h1 := good_nextAtomLoop n i
    have h2 := good_nextAtomLoop n (i + 1)
    have h3 := good_peekNext
    unfold nextAtomLoop
    good

theorem good_nextAtom : Good nextAtom := by
  unfold nextAtom
  refine Good.get_bind (fun _ => rfl) fun s => good_nextAtomLoop _ _

theorem good_mapChar (f : Font) (c : Char) : Good (mapChar f c) := by unfold mapChar; good

theorem good_forChars {f : Char → W PUnit} (h : ∀ c, Good (f c)) : ∀ s, Good (forChars f s)
  | [] => Good.pure _
  | c :: s => Good.bind (h c) fun _ => good_forChars h s

theorem good_arrayNewline (cols : List ArrayCol) : Good (arrayNewline cols) := by unfold arrayNewline; good
theorem good_arrayAlign (cols : List ArrayCol) (i : Nat) : Good (arrayAlign cols i) := by unfold arrayAlign; good
theorem good_arrayCloseLine (cols : List ArrayCol) (i : Nat) : Good (arrayCloseLine cols i) := by
  unfold arrayCloseLine; good

theorem good_applyFunction : Good applyFunction := by
  have := good_nextAtom
  unfold applyFunction
  good

theorem good_writeContent (cfg : RCfg) (neg : Bool) (c : Content) : Good (writeContent cfg neg c) := by
  have h1 := good_openTag
  have h2 := good_state
  have h3 := good_mapChar
  have h4 := good_setPrev
  have h5 := good_nextAtom
  have h6 := good_applyFunction
  cases c <;> unfold writeContent <;>
    repeat' with_reducible first
      | exact h1 _ _
      | exact h3 _ _
      | exact h4 _
      | (apply good_forChars; intro _)
      | good1

theorem good_groupChanges : ∀ n, Good (groupChanges n)
  | 0 => Good.boom _
  | n + 1 => by
    have h1 := good_groupChanges n
    have h2 := good_peekFirst
    have h3 := good_next
    have h4 := good_handleStateChange
    unfold groupChanges
    repeat' with_reducible first | exact h4 _ | good1

theorem good_envLines : Good envLines := by
  have h2 := good_peekFirst
  have h3 := good_next
  unfold envLines
  good

theorem good_tableOpen (t : Str) (g : EnvG) : Good (tableOpen t g) := by
  have := good_envLines
  unfold tableOpen
  good

theorem good_writeDelim (c : Option Char) : Good (writeDelim c) := by
  have h1 := good_openTag
  cases c <;> unfold writeDelim <;> repeat' with_reducible first | exact h1 _ _ | good1

theorem good_openGroup (g : Grouping) : Good (openGroup g) := by
  have h1 := good_tableOpen
  have h2 := good_writeDelim
  have h3 := good_forcePrev
  have h4 := good_envLines
  have h5 := good_arrayNewline
  cases g <;> unfold openGroup <;>
    repeat' with_reducible first | exact h1 _ _ | exact h2 _ | exact h3 _ | exact h5 _ | good1

theorem good_writeBegin (g : Grouping) : Good (writeBegin g) := by
  have h1 := good_forcePrev
  have h2 := good_state
  have h3 := good_groupChanges
  have h4 := good_openTag
  have h5 := good_updState
  have h6 := good_openGroup
  unfold writeBegin
  repeat' with_reducible first | exact h1 _ | exact h3 _ | exact h4 _ _ | exact h5 _ | exact h6 _ | good1

theorem good_closeGroup (g : EnvG) : Good (closeGroup g) := by
  have h1 := good_writeDelim
  have h2 := good_forcePrev
  cases g <;> unfold closeGroup <;> repeat' with_reducible first | exact h1 _ | exact h2 _ | good1

theorem good_recover : Good recover := by unfold recover; good

theorem good_writeEnd : Good writeEnd := by
  have h1 := good_closeGroup
  have h2 := good_forcePrev
  have h3 := good_recover
  unfold writeEnd
  repeat' with_reducible first | exact h1 _ | exact h2 _ | good1

theorem good_writeVisual (cfg : RCfg) (v : Visual) : Good (writeVisual cfg v) := by
  have h1 := good_peekFirst
  have h2 := good_next
  have h3 := good_openTag
  have h4 := good_writeContent
  unfold writeVisual
  repeat' with_reducible first | exact h3 _ _ | exact h4 _ _ _ | good1

theorem good_writeScript (cfg : RCfg) (ty : ScriptType) (p : ScriptPos) : Good (writeScript cfg ty p) := by
  have h1 := good_state
  have h3 := good_openTag
  unfold writeScript
  repeat' with_reducible first | exact h3 _ _ | good1

theorem good_writeSpace (cfg : RCfg) (w h d : Option Dim) : Good (writeSpace cfg w h d) := by
  unfold writeSpace; good

theorem good_alignUpTo (cols : List ArrayCol) (t : Nat) : ∀ n i, Good (alignUpTo cols t n i)
  | 0, _ => Good.boom _
  | n + 1, i => by
    have h1 := good_alignUpTo cols t n
    have h2 := good_arrayAlign
    unfold alignUpTo
    repeat' with_reducible first | exact h1 _ | exact h2 _ _ | good1

theorem good_setTop (g : EnvG) : Good (setTop g) := by unfold setTop; good

theorem good_newLineRest (cfg : RCfg) (sp : Option Dim) (ls : List Line) : Good (newLineRest cfg sp ls) := by
  have h1 := good_arrayNewline
  have h2 := good_alignUpTo
  have h3 := good_arrayCloseLine
  have h4 := good_setTop
  have h5 := good_recover
  unfold newLineRest
  repeat' with_reducible first | exact h1 _ | exact h2 _ _ _ _ | exact h3 _ _ | exact h4 _ | good1

theorem good_writeNewLine (cfg : RCfg) (sp : Option Dim) (ls : List Line) : Good (writeNewLine cfg sp ls) := by
  have h1 := good_updState
  have h2 := good_forcePrev
  have h3 := good_arrayCloseLine
  have h4 := good_newLineRest
  unfold writeNewLine
  repeat' with_reducible first | exact h1 _ | exact h2 _ | exact h3 _ _ | exact h4 _ _ _ | good1

theorem good_writeAlignment (cfg : RCfg) : Good (writeAlignment cfg) := by
  have h1 := good_updState
  have h2 := good_forcePrev
  have h3 := good_arrayAlign
  have h4 := good_setTop
  have h5 := good_recover
  unfold writeAlignment
  repeat' with_reducible first | exact h1 _ | exact h2 _ | exact h3 _ _ | exact h4 _ | good1

theorem good_writeEvent (cfg : RCfg) (i : RItem) : Good (writeEvent cfg i) := by
  match i with
  | .ok (.content c) => exact good_writeContent _ _ _
  | .ok (.begin_ g) => exact good_writeBegin _
  | .ok .end_ => exact good_writeEnd
  | .ok (.visual v) => exact good_writeVisual _ _
  | .ok (.script ty p) => exact good_writeScript _ _ _
  | .ok (.space w h d) => exact good_writeSpace _ _ _ _
  | .ok (.stateChange sc) => exact good_handleStateChange _
  | .ok (.flow (.newLine sp ls)) => exact good_writeNewLine _ _ _
  | .ok (.flow .alignment) => exact good_writeAlignment _
  | .ok (.flow (.startLines _)) => exact good_recover
  | .err msg => 
    have h5 := good_recover
    unfold writeEvent
    good

theorem good_closeLoop : ∀ es, Good (closeLoop es)
  | [] => Good.pure _
  | .group _ :: _ => Good.pure _
  | .visual v n :: es => by
    have h1 := good_closeLoop es
    have h2 := good_setPrev
    unfold closeLoop
    repeat' with_reducible first | exact h2 _ | good1
  | .script ty a n fn :: es => by
    have h1 := good_closeLoop es
    have h2 := good_setPrev
    have h3 := good_applyFunction
    unfold closeLoop
    repeat' with_reducible first | exact h2 _ | good1

theorem good_mainLoop (cfg : RCfg) : ∀ n, Good (mainLoop cfg n)
  | 0 => Good.boom _
  | n + 1 => by
    have h1 := good_mainLoop cfg n
    have h2 := good_next
    have h3 := good_writeEvent cfg
    have h4 := good_closeLoop
    unfold mainLoop
    repeat' with_reducible first | exact h3 _ | exact h4 _ | good1

theorem good_cleanup : ∀ es, Good (cleanup es)
  | [] => by unfold cleanup; good
  | .group _ :: es => by
    have h1 := good_cleanup es
    unfold cleanup; good
  | .visual v n :: es => by
    have h1 := good_cleanup es
    unfold cleanup; good
  | .script ty a n fn :: es => by
    have h1 := good_cleanup es
    unfold cleanup; good

theorem good_write (cfg : RCfg) : Good (write cfg) := by
  have h1 := good_mainLoop cfg
  have h2 := good_cleanup
  unfold write
  repeat' with_reducible first | exact h1 _ | exact h2 _ | good1

end PL.Mathml
