import Verif.Lemmas.Render.Peek
import Verif.Props.Balanced
set_option autoImplicit false
/-!
# The state of the renderer: lookahead and state changes (C34, C35, C36)
-/
namespace PL.Props
open PL PL.Mathml Spec

/-! ## C34: lookahead -/

/-- What a user of the lookahead may do: look at the first item, at one item more than so far, at the class of the next
atom, or take an item. -/
inductive Act where
  | first | more | atom | take

/-- The item taken by an action, and the state after it. -/
def Act.run (a : Act) (s : RSt) : Option (List RItem × RSt) :=
  match a with
  | .first => match peekFirst s with
    | .ok _ t => some ([], t)
    | _ => none
  | .more => match peekNext s with
    | .ok _ t => some ([], t)
    | _ => none
  | .atom => match nextAtom s with
    | .ok _ t => some ([], t)
    | _ => none
  | .take => match next s with
    | .ok (some i) t => some ([i], t)
    | .ok none t => some ([], t)
    | _ => none

/-- The items taken by some actions. -/
def runActs : List Act → RSt → Option (List RItem × RSt)
  | [], s => some ([], s)
  | a :: as, s =>
    match a.run s with
    | none => none
    | some (i, t) =>
      match runActs as t with
      | none => none
      | some (is, u) => some (i ++ is, u)

/-- Number of items asked for. -/
def taken (as : List Act) : Nat := as.countP fun a => match a with | .take => true | _ => false

theorem act_run (a : Act) (s : RSt) : ∃ t, a.run s = some (s.items.take (taken [a]), t) ∧
    t.items = s.items.drop (taken [a]) := by
  cases a with
  | first =>
    obtain ⟨t, h, ht⟩ := peekFirst_eq s
    exact ⟨t, by simp only [Act.run, h]; rfl, ht.items⟩
  | atom =>
    obtain ⟨t, h, ht⟩ := nextAtom_eq s
    exact ⟨t, by simp only [Act.run, h]; rfl, ht.items⟩
  | more =>
    obtain ⟨pk, rt, o, b, env, ss, pv, rc⟩ := s
    cases rt with
    | nil => exact ⟨_, rfl, rfl⟩
    | cons i rt => exact ⟨_, rfl, by simp [RSt.items, taken]⟩
  | take =>
    obtain ⟨pk, rt, o, b, env, ss, pv, rc⟩ := s
    cases pk with
    | cons i pk => exact ⟨_, rfl, rfl⟩
    | nil =>
      cases rt with
      | nil => exact ⟨_, rfl, rfl⟩
      | cons i rt => exact ⟨_, rfl, rfl⟩

/-- Whatever the interleaving of looking and taking: as many items are taken, from the front, as were asked for, and
the others are left in their order. -/
theorem C34_interleavings (as : List Act) (s : RSt) :
    ∃ t, runActs as s = some (s.items.take (taken as), t) ∧ t.items = s.items.drop (taken as) := by
  induction as generalizing s with
  | nil => exact ⟨s, rfl, rfl⟩
  | cons a as ih =>
    obtain ⟨t, h1, h2⟩ := act_run a s
    obtain ⟨u, h3, h4⟩ := ih t
    have e : taken (a :: as) = taken [a] + taken as := by
      unfold taken
      rw [show a :: as = [a] ++ as from rfl, List.countP_append]
    refine ⟨u, ?_, ?_⟩
    · simp only [runActs, h1, h3, h2]
      rw [e, List.take_add]
    · rw [h4, h2, List.drop_drop, e]

/-- Looking gives the first item that is left, and the class of the first item that has one. -/
theorem C34_looks (s : RSt) : (∃ t, peekFirst s = .ok s.items.head? t ∧ t.items = s.items) ∧
    ∃ t, nextAtom s = .ok (firstAtom s.items) t ∧ t.items = s.items := by
  obtain ⟨t, h, ht⟩ := peekFirst_eq s
  obtain ⟨u, h', hu⟩ := nextAtom_eq s
  exact ⟨⟨t, h, ht.items⟩, u, h', hu.items⟩

/-- Rendering when the first `k` items have been peeked before. -/
def renderPeeked (cfg : RCfg) (items : List RItem) (k : Nat) (target : Str) (budget : Option Nat) : Out :=
  match write cfg { initSt items target budget with peeked := items.take k, rest := items.drop k } with
  | .ok _ s => .ok s.out
  | .io w => .io w
  | .panic p => .panic p

/-- Having peeked any number of items does not change what is rendered. -/
theorem C34_transparent (cfg : RCfg) (items : List RItem) (k : Nat) (target : Str) (budget : Option Nat) :
    renderPeeked cfg items k target budget = render cfg items target budget := by
  have h : Mathml.Same (initSt items target budget) { initSt items target budget with peeked := items.take k, rest := items.drop k } :=
    ⟨_, _, rfl, by simp [initSt]⟩
  have := (fair_write cfg).run _ _ h
  unfold renderPeeked render
  revert this
  cases write cfg (initSt items target budget) with
  | ok a s =>
    cases write cfg { initSt items target budget with peeked := items.take k, rest := items.drop k } with
    | ok b t => rintro ⟨-, p, r, rfl, -⟩; rfl
    | io w => exact False.elim
    | panic p => exact False.elim
  | io w =>
    cases write cfg { initSt items target budget with peeked := items.take k, rest := items.drop k } with
    | ok b t => exact False.elim
    | io w => rintro ⟨⟩; rfl
    | panic p => exact False.elim
  | panic p =>
    cases write cfg { initSt items target budget with peeked := items.take k, rest := items.drop k } with
    | ok b t => exact False.elim
    | io w => exact False.elim
    | panic p => rintro ⟨⟩; rfl

/-- A function of the renderer takes items off the front only, and when the main loop ends none is left. -/
theorem C34_consumed (cfg : RCfg) (i : RItem) (s : RSt) :
    (∀ a s', writeEvent cfg i s = .ok a s' → s'.items <:+ s.items) ∧
    ∀ n s', mainLoop cfg n s = .ok ⟨⟩ s' → s'.items = [] := by
  refine ⟨fun a s' h => ?_, fun n => ?_⟩
  · obtain ⟨c, hc⟩ := (fair_writeEvent cfg i).suff _ _ _ h
    exact ⟨c, hc.symm⟩
  · induction n generalizing s with
    | zero => intro s' h; cases h
    | succ n ih =>
      intro s' h
      rw [mainLoop, run_bind] at h
      obtain ⟨pk, rt, o, b, env, ss, pv, rc⟩ := s
      have step : ∀ (j : RItem) (s1 : RSt), (do writeEvent cfg j; closeLoop (← W.get).env; mainLoop cfg n : Mathml.W PUnit) s1 = .ok ⟨⟩ s' →
          s'.items = [] := by
        intro j s1 h
        rw [run_bind] at h
        cases e1 : writeEvent cfg j s1 with
        | ok a s2 =>
          rw [e1] at h
          dsimp only at h
          rw [run_bind] at h
          simp only [W.get] at h
          rw [run_bind] at h
          cases e2 : closeLoop s2.env s2 with
          | ok a s3 => rw [e2] at h; exact ih s3 s' h
          | io w => rw [e2] at h; cases h
          | panic p => rw [e2] at h; cases h
        | io w => rw [e1] at h; cases h
        | panic p => rw [e1] at h; cases h
      cases pk with
      | cons j p => exact step j _ h
      | nil =>
        cases rt with
        | nil => cases h; rfl
        | cons j r => exact step j _ h

/-- A case of it: the binary operator is looked at through a state change, and the items are then taken in order. -/
example : runActs [.atom, .take, .more, .first, .take] (initSt [.ok (.stateChange (.font none)),
    .ok (.content (.binaryOp '+' false)), .ok .end_] [] none) = some ([.ok (.stateChange (.font none)), .ok (.content (.binaryOp '+' false))],
      { initSt [] [] none with peeked := [.ok .end_] }) := by rfl

/-! ## Rounds of the main loop -/

/-- One round of the main loop: an item is taken and rendered, and the scripts and visuals that are complete are closed. -/
def Round (cfg : RCfg) (s : RSt) (i : RItem) (s' : RSt) : Prop :=
  ∃ s1 s2, next s = .ok (some i) s1 ∧ writeEvent cfg i s1 = .ok ⟨⟩ s2 ∧ closeLoop s2.env s2 = .ok ⟨⟩ s'

/-- Some rounds of the main loop. -/
inductive Renders (cfg : RCfg) : RSt → RSt → Prop
  | refl (s : RSt) : Renders cfg s s
  | step {s i s1 s'} : Round cfg s i s1 → Renders cfg s1 s' → Renders cfg s s'

/-- The main loop does these rounds. -/
theorem Renders.mainLoop {cfg : RCfg} {s s' : RSt} (h : Renders cfg s s') : ∃ k, ∀ n, mainLoop cfg (k + n) s = mainLoop cfg n s' := by
  induction h with
  | refl => exact ⟨0, fun n => by rw [Nat.zero_add]⟩
  | step h _ ih =>
    obtain ⟨k, hk⟩ := ih
    obtain ⟨a, b, h1, h2, h3⟩ := h
    refine ⟨k + 1, fun n => ?_⟩
    rw [show k + 1 + n = (k + n) + 1 by omega, PL.Mathml.mainLoop, bind_ok h1]
    dsimp only
    rw [bind_ok h2, bind_ok (m := W.get) (a := b) (s' := b) rfl, bind_ok h3, hk]

/-- The state changes in effect are kept. -/
structure Keeps {α : Type} (m : Mathml.W α) : Prop where
  run : ∀ s a s', m s = .ok a s' → s'.sts = s.sts

theorem Keeps.pure {α : Type} (a : α) : Keeps (Pure.pure a : Mathml.W α) := ⟨fun _ _ _ h => by cases h; rfl⟩
theorem Keeps.boom {α : Type} (p : Panic) : Keeps (W.boom p : Mathml.W α) := ⟨fun _ _ _ h => by cases h⟩
theorem Keeps.bind {α β : Type} {m : Mathml.W α} {f : α → Mathml.W β} (hm : Keeps m) (hf : ∀ a, Keeps (f a)) : Keeps (m >>= f) := by
  constructor
  intro s b s' h
  rw [run_bind] at h
  cases e : m s with
  | ok a s1 => rw [e] at h; exact ((hf a).run _ _ _ h).trans (hm.run _ _ _ e)
  | io w => rw [e] at h; cases h
  | panic p => rw [e] at h; cases h
theorem Keeps.get : Keeps W.get := ⟨fun _ _ _ h => by cases h; rfl⟩
theorem Keeps.modify {f : RSt → RSt} (hf : ∀ s, (f s).sts = s.sts) : Keeps (W.modify f) := ⟨fun s _ _ h => by cases h; exact hf s⟩
theorem Keeps.out (t : Str) : Keeps (W.out t) := by
  constructor
  intro s b s' h
  simp only [W.out] at h
  split at h
  · cases h; rfl
  · split at h
    · cases h; rfl
    · cases h

macro "keeps1" : tactic => `(tactic| with_reducible first
  | assumption
  | exact Keeps.pure _
  | exact Keeps.boom _
  | exact Keeps.out _
  | exact Keeps.get
  | exact Keeps.modify (fun _ => by with_unfolding_all rfl)
  | (apply Keeps.bind; rotate_left; intro _; rotate_left)
  | split
  | (dsimp only; split))

theorem keeps_setPrev (a : Atom) : Keeps (setPrev a) := ⟨fun s b s' h => by rw [setPrev_eq] at h; cases h; rfl⟩
theorem keeps_nextAtom : Keeps nextAtom := ⟨fun s a s' h => by
  obtain ⟨t, e, p, r, rfl, -⟩ := nextAtom_eq s
  rw [e] at h
  cases h; rfl⟩
theorem keeps_peekFirst : Keeps peekFirst := ⟨fun s a s' h => by
  obtain ⟨t, e, p, r, rfl, -⟩ := peekFirst_eq s
  rw [e] at h
  cases h; rfl⟩
theorem keeps_next : Keeps next := by
  constructor
  rintro ⟨pk, rt, o, b, env, ss, pv, rc⟩ a s' h
  cases pk with
  | cons i pk => cases h; rfl
  | nil =>
    cases rt with
    | nil => cases h; rfl
    | cons i rt => cases h; rfl
theorem keeps_applyFunction : Keeps applyFunction := by
  have := keeps_nextAtom
  unfold applyFunction
  repeat' keeps1
theorem keeps_closeLoop : ∀ es, Keeps (closeLoop es)
  | [] => Keeps.pure _
  | .group _ :: _ => Keeps.pure _
  | .visual v n :: es => by
    have h1 := keeps_closeLoop es
    have h2 := keeps_setPrev
    unfold closeLoop
    repeat' with_reducible first | exact h2 _ | keeps1
  | .script ty a n fn :: es => by
    have h1 := keeps_closeLoop es
    have h2 := keeps_setPrev
    have h3 := keeps_applyFunction
    unfold closeLoop
    repeat' with_reducible first | exact h2 _ | keeps1

/-- Closing scripts and visuals goes through and takes no item. -/
theorem wp_closeLoop : ∀ (es : List EnvR) (s : RSt), s.budget = none →
    wp (closeLoop es) (fun _ s' => s'.items = s.items ∧ s'.sts = s.sts ∧ s'.budget = none) s
  | [], s, hb => (wp_pure _ _ _).2 ⟨rfl, rfl, hb⟩
  | .group _ :: _, s, hb => (wp_pure _ _ _).2 ⟨rfl, rfl, hb⟩
  | .visual v n :: es, ⟨pk, rt, o, _, env, ss, pv, rc⟩, rfl => by
    rw [closeLoop]
    split
    · rw [wp_modify]; exact ⟨rfl, rfl, rfl⟩
    · wps
      exact wp_closeLoop es _ rfl
  | .script ty a n fn :: es, ⟨pk, rt, o, _, env, ss, pv, rc⟩, rfl => by
    rw [closeLoop]
    split
    · rw [wp_modify]; exact ⟨rfl, rfl, rfl⟩
    · wps
      cases fn with
      | false => exact wp_closeLoop es _ rfl
      | true =>
        simp only [if_true]
        rw [wp_bind]
        apply wp_applyFunction
        intro p r t k hp _
        exact wp_mono (wp_closeLoop es _ rfl) fun _ s' h => ⟨h.1.trans hp, h.2⟩

/-! ## C35: state changes are scoped -/

instance renders_goes (cfg : RCfg) (R : RSt → Prop) : Goes cfg (fun s => ∃ s', Renders cfg s s' ∧ R s') where
  step := by
    intro i q s hq h
    obtain ⟨a, s1, h1, a', s2, h2, -, a'', s3, h3, -, s', h4, h5⟩ := h
    have hi : ∃ s1, next s = .ok (some i) s1 := by
      obtain ⟨p, r, o, b, e, ss, pv, rc⟩ := s
      cases p with
      | cons j p => cases hq; exact ⟨_, rfl⟩
      | nil =>
        cases r with
        | nil => cases hq
        | cons j r => cases hq; exact ⟨_, rfl⟩
    obtain ⟨s1', hi⟩ := hi
    cases hi.symm.trans h1
    exact ⟨s', .step ⟨_, _, h1, h2, h3⟩ h4, h5⟩

/-- From any state of the renderer, rendering a group in which groups are balanced, operands are complete, alignments
and line breaks are where they are allowed and arrays have a column, takes just the events of the group and leaves
font, colours and style as they were. Missing: groups that are balanced only; see `C35_false`. -/
theorem C35_scoped_partial (cfg : RCfg) (g : Grouping) (body : List Event) (hw : WF .body body)
    (hf : FlowsAllowed false (.begin_ g :: (body ++ [.end_])))
    (ha : ∀ cols, .begin_ (.array cols) ∈ .begin_ g :: (body ++ [.end_]) → ∃ c ∈ cols, isColumn c = true)
    (s : RSt) (q : List RItem) (hs : s.sts ≠ []) (hb : s.budget = none)
    (hq : s.items = (Event.begin_ g :: (body ++ [.end_])).map .ok ++ q) :
    ∃ s', Renders cfg s s' ∧ s'.items = q ∧ s'.sts = s.sts := by
  obtain ⟨pk, rt, o, b, env, sts, pv, rc⟩ := s
  cases hb
  cases sts with
  | nil => exact absurd rfl hs
  | cons st ss =>
    have hfa := FA_of_allowed (pre := []) hf (fun g' hg => by
      cases g' with
      | array cols => simpa [beginOk] using ha cols hg
      | _ => rfl)
    have hd := ((doc_of_shown (d := false) (WF.group (g := g) hw).shown).1 rfl _ hfa).1
    refine (sim (cfg := cfg) _ _ rfl).1 hd (fun s => ∃ s', Renders cfg s s' ∧ s'.items = q ∧ s'.sts = st :: ss)
      q pk rt o env st ss pv rc hq ?_
    intro s' hs'
    refine wp_mono (wp_closeLoop _ _ hs'.budget) ?_
    rintro _ s2 ⟨h1, h2, h3⟩
    refine ⟨Nat.le_of_eq (congrArg List.length h1), s2, .refl _, h1.trans hs'.items, ?_⟩
    rw [h2]
    exact hs'.keep ⟨_, _, rfl⟩

/-- A case of it. -/
example : FlowsAllowed false [.begin_ (.matrix .center), .stateChange (.style .display), .flow .alignment, .content (.number c!"2"), .end_] ∧
    WF .body [.stateChange (.style .display), .flow .alignment, .content (.number c!"2")] := by
  have h : Yields cf0 c!"\\begin{matrix}\\displaystyle&2\\end{matrix}" ([Event.begin_ (.matrix .center),
    .stateChange (.style .display), .flow .alignment, .content (.number c!"2"), .end_].map .ok) := ⟨60, by decide +kernel⟩
  exact ⟨(clean_wellFormed cf0 c!"\\begin{matrix}\\displaystyle&2\\end{matrix}" _ (tableB_clean (by decide +kernel)) h).flows,
    .element (a := [_]) (.simple trivial) (.flow (.element (a := [_]) (.simple trivial) .empty))⟩

/-- Not for all balanced groups: a script without base takes the end of the group as an operand, so that the font
lasts. The input is parsed without error. -/
theorem C35_false : ∃ es : List Event, Yields cf0 c!"{\\bf\\relax^2}x" (es.map .ok) ∧ Balanced es ∧
    pushMathml rc0 (es.map .ok) [] = .ok c!"<math display=\"inline\"><mrow><msup><mn>𝟐</mn></msup><mi>𝐱</mi></math>" := by
  refine ⟨events (run cf0 60 (State.init c!"{\\bf\\relax^2}x")).1, ⟨60, by decide +kernel⟩, ?_, by decide +kernel⟩
  have e : events (run cf0 60 (State.init c!"{\\bf\\relax^2}x")).1 = [.begin_ .normal, .stateChange (.font (some .bold)),
    .script .sup .right, .content (.number c!"2"), .end_, .content (.ordinary 'x' false)] := by decide +kernel
  rw [e]
  exact .group (a := [_, _, _]) (.plain trivial (.plain trivial (.plain trivial .nil))) (.plain trivial .nil)

/-! ## C36: resets -/


theorem keeps_arrayNewline (cols : List ArrayCol) : Keeps (arrayNewline cols) := by unfold arrayNewline; repeat' keeps1
theorem keeps_arrayAlign (cols : List ArrayCol) (i : Nat) : Keeps (arrayAlign cols i) := by unfold arrayAlign; repeat' keeps1
theorem keeps_arrayCloseLine (cols : List ArrayCol) (i : Nat) : Keeps (arrayCloseLine cols i) := by
  unfold arrayCloseLine; repeat' keeps1
theorem keeps_alignUpTo (cols : List ArrayCol) (t : Nat) : ∀ n i, Keeps (alignUpTo cols t n i)
  | 0, _ => Keeps.boom _
  | n + 1, i => by
    have h1 := keeps_alignUpTo cols t n
    have h2 := keeps_arrayAlign
    unfold alignUpTo
    repeat' with_reducible first | exact h1 _ | exact h2 _ _ | keeps1
theorem keeps_setTop (g : EnvG) : Keeps (setTop g) := Keeps.modify fun _ => rfl
theorem keeps_recover : Keeps recover := Keeps.modify fun _ => rfl
theorem keeps_forcePrev (a : Option Atom) : Keeps (forcePrev a) := Keeps.modify fun _ => rfl
theorem keeps_newLineRest (cfg : RCfg) (sp : Option Dim) (ls : List Line) : Keeps (newLineRest cfg sp ls) := by
  have h1 := keeps_arrayNewline
  have h2 := keeps_alignUpTo
  have h3 := keeps_arrayCloseLine
  have h4 := keeps_setTop
  have h5 := keeps_recover
  unfold newLineRest
  repeat' with_reducible first | exact h1 _ | exact h2 _ _ _ _ | exact h3 _ _ | exact h4 _ | keeps1
theorem keeps_envLines : Keeps envLines := by
  have h1 := keeps_peekFirst
  have h2 := keeps_next
  unfold envLines
  repeat' keeps1
theorem keeps_tableOpen (t : Str) (g : EnvG) : Keeps (tableOpen t g) := by
  have := keeps_envLines
  unfold tableOpen
  repeat' keeps1
theorem keeps_openTag (tag : Str) (c : Option Str) : Keeps (openTag tag c) := by
  unfold openTag state
  repeat' keeps1
theorem keeps_writeDelim (c : Option Char) : Keeps (writeDelim c) := by
  have h1 := keeps_openTag
  cases c <;> unfold writeDelim <;> repeat' with_reducible first | exact h1 _ _ | keeps1
theorem keeps_openGroup (g : Grouping) : Keeps (openGroup g) := by
  have h1 := keeps_tableOpen
  have h2 := keeps_writeDelim
  have h3 := keeps_forcePrev
  have h4 := keeps_envLines
  have h5 := keeps_arrayNewline
  cases g <;> unfold openGroup <;>
    repeat' with_reducible first | exact h1 _ _ | exact h2 _ | exact h3 _ | exact h5 _ | keeps1

/-- The state changes in effect become the given ones. -/
theorem sts_bind {α β : Type} {m : Mathml.W α} {f : α → Mathml.W β} (hf : ∀ a, Keeps (f a)) {s s' : RSt} {b : β} (h : (m >>= f) s = .ok b s') :
    ∃ a s1, m s = .ok a s1 ∧ s'.sts = s1.sts := by
  rw [run_bind] at h
  cases e : m s with
  | ok a s1 => rw [e] at h; exact ⟨a, s1, rfl, (hf a).run _ _ _ h⟩
  | io w => rw [e] at h; cases h
  | panic p => rw [e] at h; cases h

theorem updState_sts {f : RState → RState} {s s' : RSt} {a : PUnit} (h : updState f s = .ok a s') :
    ∃ st ss, s.sts = st :: ss ∧ s'.sts = f st :: ss := by
  unfold updState at h
  rw [run_bind] at h
  simp only [W.get] at h
  cases e : s.sts with
  | nil => rw [e] at h; cases h
  | cons st ss => rw [e] at h; cases h; exact ⟨st, ss, rfl, rfl⟩

theorem round_sts {cfg : RCfg} {s s' : RSt} {i : RItem} (h : Round cfg s i s') :
    ∃ s1 s2, s1.sts = s.sts ∧ writeEvent cfg i s1 = .ok ⟨⟩ s2 ∧ s'.sts = s2.sts := by
  obtain ⟨s1, s2, h1, h2, h3⟩ := h
  exact ⟨s1, s2, keeps_next.run _ _ _ h1, h2, (keeps_closeLoop _).run _ _ _ h3⟩

/-- After an alignment or a line break, from any state of the renderer, font, colours and style are the default ones;
those of the groups around are kept. -/
theorem C36_cells (cfg : RCfg) (f : Flow) (hf : f = .alignment ∨ ∃ sp ls, f = .newLine sp ls) (s s' : RSt)
    (h : Round cfg s (.ok (.flow f)) s') : s'.sts = {} :: s.sts.tail := by
  obtain ⟨s1, s2, h1, h2, h3⟩ := round_sts h
  rw [h3, ← h1]
  have key : ∀ {m : PUnit → Mathml.W PUnit}, (∀ a, Keeps (m a)) → (updState (fun _ => {}) >>= m) s1 = .ok ⟨⟩ s2 → s2.sts = {} :: s1.sts.tail := by
    intro m hm h
    obtain ⟨a, s3, h4, h5⟩ := sts_bind hm h
    obtain ⟨st, ss, e1, e2⟩ := updState_sts h4
    rw [h5, e2, e1]; rfl
  rcases hf with rfl | ⟨sp, ls, rfl⟩
  · have h1 := keeps_forcePrev
    have h3 := keeps_arrayAlign
    have h4 := keeps_setTop
    have h5 := keeps_recover
    refine key (fun a => ?_) h2
    repeat' with_reducible first | exact h1 _ | exact h3 _ _ | exact h4 _ | keeps1
  · have h1 := keeps_forcePrev
    have h3 := keeps_arrayCloseLine
    have h4 := keeps_newLineRest
    refine key (fun a => ?_) h2
    repeat' with_reducible first | exact h1 _ | exact h3 _ _ | exact h4 _ _ _ | keeps1

/-- On entering an environment, from any state of the renderer, font and colours are the default ones; the state of the
group around is kept for its end. The style is reset too, against the documentation: see `C36_style_false`. -/
theorem C36_environments (cfg : RCfg) (g : Grouping) (hg : g.isMathEnv = true) (s s' : RSt)
    (h : Round cfg s (.ok (.begin_ g)) s') : s'.sts = {} :: s.sts := by
  obtain ⟨s1, s2, h1, h2, h3⟩ := round_sts h
  rw [h3, ← h1]
  have h2 : writeBegin g s1 = .ok ⟨⟩ s2 := h2
  unfold writeBegin at h2
  have h5 := keeps_openGroup
  rw [run_bind] at h2
  simp only [forcePrev, W.modify, hg, if_true] at h2
  obtain ⟨a, s3, h6, h7⟩ := sts_bind (fun a => by repeat' with_reducible first | exact h5 _ | keeps1) h2
  rw [h7]
  cases h6
  rfl

/-- A case of them: the font ends with the cell. -/
example : pushMathml rc0 ([.begin_ (.matrix .center), .stateChange (.font (some .bold)), .content (.number c!"1"),
    .flow .alignment, .content (.number c!"2"), .end_].map .ok) [] =
    .ok c!"<math display=\"inline\"><mtable class=\"menv-arraylike\"><mtr><mtd><mn>𝟏</mn></mtd><mtd><mn>2</mn></mtd></mtr></mtable></math>" := by
  decide +kernel

/-- A style is not maintained across groups: the limits of the sum are set as in the style of the document, not as in
display style, and the table does not mention the style. -/
theorem C36_style_false : ∃ es : List Event, Yields cf0 c!"\\displaystyle\\begin{matrix}\\sum_i\\end{matrix}" (es.map .ok) ∧
    pushMathml rc0 (es.map .ok) [] = .ok c!"<math display=\"inline\"><mtable class=\"menv-arraylike\"><mtr><mtd><msub><mo movablelimits=\"false\">∑</mo><mi>i</mi></msub></mtd></mtr></mtable></math>" ∧
    pushMathml rc0 ((es.filter fun e => e ≠ .begin_ (.matrix .center) ∧ e ≠ .end_).map .ok) [] =
      .ok c!"<math display=\"inline\"><munder displaystyle=\"true\" scriptlevel=\"0\"><mo displaystyle=\"true\" scriptlevel=\"0\" movablelimits=\"false\">∑</mo><mi>i</mi></munder></math>" := by
  exact ⟨events (run cf0 60 (State.init c!"\\displaystyle\\begin{matrix}\\sum_i\\end{matrix}")).1, ⟨60, by decide +kernel⟩, by decide +kernel, by decide +kernel⟩

end PL.Props
