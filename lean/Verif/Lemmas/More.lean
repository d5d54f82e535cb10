import Verif.Lemmas.Erase
set_option autoImplicit false
/-!
# More macros do not disturb a handler

A handler that succeeds does the same when macros are added below those in the table, unless it defines one of the added names.
-/
namespace PL
open Lex

variable {cf : Cfg} {α β : Type} {M' : Macros.Ctx}

/-- The state with more macros, which those in the table hide. -/
def HSt.plus (M' : Macros.Ctx) (s : HSt) : HSt := { s with macros := s.macros ++ M' }

/-- None of the names of `M'` is bound. -/
def Clear (M' m : Macros.Ctx) : Prop := ∀ n, M'.get n ≠ none → m.get n = none
/-- Names stay bound. -/
def Grows (m m1 : Macros.Ctx) : Prop := ∀ n, m.get n ≠ none → m1.get n ≠ none

theorem Grows.rfl' {m : Macros.Ctx} : Grows m m := fun _ h => h
theorem Grows.trans {a b c : Macros.Ctx} (h : Grows a b) (h' : Grows b c) : Grows a c := fun n hn => h' n (h n hn)
theorem Clear.back {m m1 : Macros.Ctx} (h : Clear M' m1) (hg : Grows m m1) : Clear M' m := by
  intro n hn
  cases e : m.get n with
  | none => rfl
  | some d => exact absurd (h n hn) (hg n (by rw [e]; simp))

theorem get_append (m : Macros.Ctx) (n : Str) : (m ++ M').get n = (m.get n).or (M'.get n) := by
  unfold Macros.Ctx.get
  rw [List.lookup_append]

theorem contains_append {m : Macros.Ctx} {n : Str} (h : M'.get n = none) : (m ++ M').contains n = m.contains n := by
  unfold Macros.Ctx.contains
  rw [get_append, h]
  simp

theorem grows_cons (x : Str × Macros.Definition) (m : Macros.Ctx) : Grows m (x :: m) := by
  intro n hn
  obtain ⟨a, b⟩ := x
  unfold Macros.Ctx.get at hn ⊢
  rw [List.lookup_cons]
  split
  · simp
  · exact hn

/-- When `m` succeeds from `s` without defining a name of `M'`, then `m'` does the same with the macros of `M'` added. -/
def MoreAt (M' : Macros.Ctx) (s : HSt) (m' m : H α) : Prop :=
  ∀ a s1, m s = .ok a s1 → Grows s.macros s1.macros ∧ (Clear M' s1.macros → m' (s.plus M') = .ok a (s1.plus M'))
/-- From every state. -/
def More (M' : Macros.Ctx) (m' m : H α) : Prop := ∀ s, MoreAt M' s m' m

theorem More.bind {m' m : H α} {f' f : α → H β} {s : HSt} (h : MoreAt M' s m' m) (hf : ∀ a s1, m s = .ok a s1 → MoreAt M' s1 (f' a) (f a)) : MoreAt M' s (m' >>= f') (m >>= f) := by
  intro b s2 e
  rw [M.run_bind] at e
  cases e1 : m s with
  | ok a s1 =>
    rw [e1] at e
    obtain ⟨g1, h1⟩ := h a s1 e1
    obtain ⟨g2, h2⟩ := hf a s1 e1 b s2 e
    refine ⟨g1.trans g2, fun hc => ?_⟩
    rw [M.run_bind, h1 (hc.back g2)]
    exact h2 hc
  | err k s1 => rw [e1] at e; cases e
  | panic p => rw [e1] at e; cases e

theorem More.seq {m' m : H α} {f' f : α → H β} {s : HSt} (h : MoreAt M' s m' m) (hf : ∀ a s1, MoreAt M' s1 (f' a) (f a)) : MoreAt M' s (m' >>= f') (m >>= f) :=
  More.bind h fun a s1 _ => hf a s1

theorem More.get {f' f : HSt → H β} {s : HSt} (hf : MoreAt M' s (f' (s.plus M')) (f s)) : MoreAt M' s (M.get >>= f') (M.get >>= f) := by
  intro b s2 e
  exact hf b s2 e

theorem More.pure {s : HSt} {a : α} : MoreAt M' s (Pure.pure a : H α) (Pure.pure a) := by
  intro b s1 e
  cases e
  exact ⟨.rfl', fun _ => rfl⟩
theorem More.fail {s : HSt} {m' : H α} (k : ErrorKind) : MoreAt M' s m' (M.fail k : H α) := by intro b s1 e; cases e
theorem More.boom {s : HSt} {m' : H α} (p : Panic) : MoreAt M' s m' (M.boom p : H α) := by intro b s1 e; cases e
theorem More.set {s t t' : HSt} (h1 : t.macros = s.macros) (h2 : t' = t.plus M') : MoreAt M' s (M.set t' : H PUnit) (M.set t) := by
  intro b s1 e
  cases e
  exact ⟨by rw [h1]; exact .rfl', fun _ => by rw [h2]; rfl⟩
theorem More.modify {s : HSt} {f' f : HSt → HSt} (h1 : ∀ s, (f s).macros = s.macros) (h2 : ∀ s, f' (s.plus M') = (f s).plus M') :
    MoreAt M' s (M.modify f' : H PUnit) (M.modify f) := by
  intro b s1 e
  rw [M.run_modify] at e
  cases e
  exact ⟨by rw [h1]; exact .rfl', fun _ => by rw [M.run_modify, h2]⟩

theorem More.lex {s : HSt} (m : L α) : MoreAt M' s (H.lex m) (H.lex m) := by
  intro b s1 e
  unfold H.lex at e ⊢
  show _ ∧ (_ → (match m s.content.cs with | .ok a r => _ | .err e r => _ | .panic p => _) = _)
  revert e
  cases m s.content.cs <;> intro e <;> cases e
  exact ⟨.rfl', fun _ => rfl⟩
theorem More.lexPure {s : HSt} (m : Str → α × Str) : MoreAt M' s (H.lexPure m) (H.lexPure m) := More.lex _
theorem More.onStr {s : HSt} (m : L α) (str : Str) : MoreAt M' s (H.onStr m str) (H.onStr m str) := by
  intro b s1 e
  unfold H.onStr at e ⊢
  revert e
  cases m str <;> intro e <;> cases e
  exact ⟨.rfl', fun _ => rfl⟩
theorem More.argument {s : HSt} : MoreAt M' s H.argument H.argument := by
  intro b s1 e
  unfold H.argument at e ⊢
  show _ ∧ (_ → (match Lex.argument s.content.cs with | .ok a r => _ | .err e r => _ | .panic p => _) = _)
  revert e
  cases Lex.argument s.content.cs <;> intro e <;> cases e
  exact ⟨.rfl', fun _ => rfl⟩
theorem More.argumentOf {s : HSt} (sl : Sl) : MoreAt M' s (H.argumentOf sl) (H.argumentOf sl) := by
  intro b s1 e
  unfold H.argumentOf at e ⊢
  revert e
  cases Lex.argument sl.cs <;> intro e <;> cases e
  exact ⟨.rfl', fun _ => rfl⟩
theorem More.groupContent {s : HSt} (k : GroupingKind) : MoreAt M' s (H.groupContent k) (H.groupContent k) := by
  intro b s1 e
  unfold H.groupContent at e ⊢
  show _ ∧ (_ → (match Lex.groupContent k s.content.cs with | .ok a r => _ | .err e r => _ | .panic p => _) = _)
  revert e
  cases Lex.groupContent k s.content.cs <;> intro e <;> cases e
  exact ⟨.rfl', fun _ => rfl⟩
theorem More.braceArgument {s : HSt} : MoreAt M' s H.braceArgument H.braceArgument := by
  intro b s1 e
  unfold H.braceArgument at e ⊢
  show _ ∧ (_ → (match Lex.braceArgument s.content.cs with | .ok a r => _ | .err e r => _ | .panic p => _) = _)
  revert e
  cases Lex.braceArgument s.content.cs <;> intro e <;> cases e
  exact ⟨.rfl', fun _ => rfl⟩
theorem More.contentWithSuffix {s : HSt} (k : Str) : MoreAt M' s (H.contentWithSuffix k) (H.contentWithSuffix k) := by
  intro b s1 e
  unfold H.contentWithSuffix at e ⊢
  show _ ∧ (_ → (match Lex.contentWithSuffix k s.content.cs with | .ok a r => _ | .err e r => _ | .panic p => _) = _)
  revert e
  cases Lex.contentWithSuffix k s.content.cs <;> intro e <;> cases e
  exact ⟨.rfl', fun _ => rfl⟩
theorem More.optionalArgument {s : HSt} : MoreAt M' s H.optionalArgument H.optionalArgument := by
  intro b s1 e
  unfold H.optionalArgument at e ⊢
  show _ ∧ (_ → (match Lex.optionalArgument s.content.cs with | .ok a r => _ | .err e r => _ | .panic p => _) = _)
  revert e
  cases Lex.optionalArgument s.content.cs <;> intro e <;> cases e
  exact ⟨.rfl', fun _ => rfl⟩
/-- A function that adds an entry which does not depend on the table. -/
theorem More.macros {s : HSt} {f : Macros.Ctx → Except (ErrorKind ⊕ Panic) Macros.Ctx} (hf : ∀ m m1, f m = .ok m1 → ∃ x, m1 = x :: m ∧ f (m ++ M') = .ok (x :: (m ++ M'))) :
    MoreAt M' s (H.macros f) (H.macros f) := by
  intro b s1 e
  unfold H.macros at e ⊢
  cases e1 : f s.macros with
  | error x => rw [e1] at e; cases x <;> cases e
  | ok m1 =>
    rw [e1] at e
    cases e
    obtain ⟨x, rfl, h2⟩ := hf _ _ e1
    refine ⟨grows_cons _ _, fun _ => ?_⟩
    have h3 : f (s.plus M').macros = .ok (x :: (s.macros ++ M')) := h2
    simp only [h3]
    rfl
theorem More.push {s : HSt} {is : List Instr} : MoreAt M' s (H.push is) (H.push is) := More.modify (fun _ => rfl) fun _ => rfl
theorem More.ev {s : HSt} (e : Event) : MoreAt M' s (H.ev e) (H.ev e) := More.push
theorem More.setContent {s : HSt} {c : Sl} : MoreAt M' s (H.setContent c) (H.setContent c) := More.modify (fun _ => rfl) fun _ => rfl
theorem More.allowMods {s : HSt} : MoreAt M' s H.allowMods H.allowMods := More.modify (fun _ => rfl) fun _ => rfl
theorem More.setPos {s : HSt} (p : ScriptPos) : MoreAt M' s (H.setPos p) (H.setPos p) := More.modify (fun _ => rfl) fun _ => rfl
theorem More.setSkip {s : HSt} : MoreAt M' s H.setSkip H.setSkip := More.modify (fun _ => rfl) fun _ => rfl
theorem More.setHarg {s : HSt} : MoreAt M' s H.setHarg H.setHarg := More.modify (fun _ => rfl) fun _ => rfl

theorem More.ite {s : HSt} {c c' : Prop} [Decidable c] [Decidable c'] (hc : c' ↔ c) {a a' b b' : H α} (h1 : MoreAt M' s a' a) (h2 : MoreAt M' s b' b) :
    MoreAt M' s (if c' then a' else b') (if c then a else b) := by
  by_cases h : c
  · rw [if_pos h, if_pos (hc.2 h)]; exact h1
  · rw [if_neg h, if_neg (fun x => h (hc.1 x))]; exact h2

/-- The basic steps. -/
macro "more1" : tactic => `(tactic| first
  | exact More.fail _ | exact More.boom _ | exact More.ev _ | exact More.lex _ | exact More.lexPure _
  | exact More.onStr _ _ | exact More.argument | exact More.groupContent _ | exact More.braceArgument
  | exact More.contentWithSuffix _ | exact More.optionalArgument | exact More.allowMods
  | exact More.setPos _ | exact More.setSkip | exact More.setHarg | exact More.argumentOf _
  | exact More.push | exact More.setContent | exact More.pure | exact More.set rfl rfl
  | exact More.modify (fun _ => rfl) (fun _ => rfl))

/-- Sequences of basic steps. -/
macro "mores" : tactic => `(tactic| repeat' (first
  | more1 | assumption | refine More.ite Iff.rfl ?_ ?_ | apply More.get | apply More.seq | intro _))

section
variable {rec : HTok → H PUnit} (hr : ∀ t s, MoreAt M' s (rec t) (rec t)) {s : HSt}

theorem more_handleChar (c : Char) (ctx : Sl) : MoreAt M' s (handleChar c ctx) (handleChar c ctx) := by
  unfold handleChar
  refine More.get ?_
  refine More.ite Iff.rfl (by more1) (More.ite Iff.rfl (More.ite Iff.rfl (by more1) ?_) ?_)
  · mores
  refine More.ite Iff.rfl (by more1) (More.ite Iff.rfl (by more1) (More.ite Iff.rfl ?_ (More.ite Iff.rfl ?_ ?_)))
  · show MoreAt M' s (match s.align with | some a => _ | none => _) _
    cases s.align with
    | none => more1
    | some a => exact More.ite Iff.rfl (More.seq (by more1) fun _ _ => by more1) (by more1)
  · mores
  refine More.ite Iff.rfl (by more1) (More.ite Iff.rfl (by more1) (More.ite Iff.rfl ?_ ?_))
  · exact More.seq More.setContent fun _ _ => More.ev _
  · more1

theorem more_groupArg (e : ErrorKind) : MoreAt M' s (groupArg e) (groupArg e) := by
  refine More.seq More.argument fun a _ => ?_
  cases a <;> more1

theorem more_colorOf (x : Str) : MoreAt M' s (colorOf x) (colorOf x) := by
  unfold colorOf
  split <;> more1

theorem more_textArgument (f : Option Font) : MoreAt M' s (textArgument f) (textArgument f) := by
  refine More.seq (More.seq More.argument fun a _ => ?_) fun t _ => ?_
  · cases a with
    | token t => cases t <;> more1
    | group g => more1
  · cases f <;> more1

theorem more_sizedDelim (size : DelimSize) : MoreAt M' s (sizedDelim size) (sizedDelim size) := by
  unfold sizedDelim; mores

theorem more_arrayEnvironment : MoreAt M' s (arrayEnvironment cf) (arrayEnvironment cf) := by
  refine More.seq (more_groupArg _) fun g _ => ?_
  cases columns cf 0 g.cs with
  | error x => cases x <;> more1
  | ok x => exact More.ite Iff.rfl (by more1) (by more1)

theorem more_optionalAlignment : MoreAt M' s optionalAlignment optionalAlignment := by
  refine More.seq More.optionalArgument fun g _ => ?_
  cases g with
  | none => more1
  | some g => exact More.ite Iff.rfl (by more1) (More.ite Iff.rfl (by more1) (More.ite Iff.rfl (by more1) (by more1)))

theorem more_insertCommand (name : Str) (k : Nat) (d : Option Str) (r : Str) (m m1 : Macros.Ctx) (h : Macros.insertCommand m name k d r = .ok m1) :
    ∃ x, m1 = x :: m ∧ x.1 = name ∧ Macros.insertCommand (m ++ M') name k d r = .ok (x :: (m ++ M')) := by
  unfold Macros.insertCommand at h ⊢
  split at h
  · cases h
  · cases h
    exact ⟨_, rfl, rfl, rfl⟩

theorem more_define (name pt rt : Str) (m m1 : Macros.Ctx) (h : Macros.define m name pt rt = .ok m1) :
    ∃ x, m1 = x :: m ∧ Macros.define (m ++ M') name pt rt = .ok (x :: (m ++ M')) := by
  unfold Macros.define at h ⊢
  dsimp only at h ⊢
  generalize Macros.splitHash _ = l at h ⊢
  cases l with
  | nil => cases h
  | cons pre args =>
    dsimp only at h ⊢
    cases hp : Macros.parseParams 1 args with
    | error e => rw [hp] at h; cases h
    | ok params =>
      rw [hp] at h
      dsimp only at h ⊢
      cases hq : Macros.parseReplacement rt (params.length % 256) with
      | error e => rw [hq] at h; cases h
      | ok repl =>
        rw [hq] at h
        dsimp only at h ⊢
        cases h
        exact ⟨_, rfl, rfl⟩

theorem more_assign (name : Str) (t : Tok) (m m1 : Macros.Ctx) (h : (.ok (m.assign name t) : Except (ErrorKind ⊕ Panic) Macros.Ctx) = .ok m1) :
    ∃ x, m1 = x :: m ∧ (.ok ((m ++ M').assign name t) : Except (ErrorKind ⊕ Panic) Macros.Ctx) = .ok (x :: (m ++ M')) := by
  cases h
  cases t <;> exact ⟨_, rfl, rfl⟩


/-- The name is bound afterwards. -/
def Leaves (n : Str) (s : HSt) (m : H α) : Prop := ∀ a s1, m s = .ok a s1 → s1.macros.get n ≠ none

theorem Leaves.bind {n : Str} {s : HSt} {m : H α} {f : α → H β} (h : ∀ a s1, m s = .ok a s1 → Leaves n s1 (f a)) : Leaves n s (m >>= f) := by
  intro b s2 e
  rw [M.run_bind] at e
  cases e1 : m s with
  | ok a s1 => rw [e1] at e; exact h a s1 e1 b s2 e
  | err k s1 => rw [e1] at e; cases e
  | panic p => rw [e1] at e; cases e
theorem Leaves.fail {n : Str} {s : HSt} (k : ErrorKind) : Leaves n s (M.fail k : H α) := by intro b s1 e; cases e
theorem Leaves.ite {n : Str} {s : HSt} {c : Prop} [Decidable c] {a b : H α} (h1 : c → Leaves n s a) (h2 : ¬ c → Leaves n s b) : Leaves n s (if c then a else b) := by
  by_cases h : c
  · rw [if_pos h]; exact h1 h
  · rw [if_neg h]; exact h2 h

theorem More.glue {n : Str} {s : HSt} {m : H α} (h1 : ∀ M'' : Macros.Ctx, M''.get n = none → MoreAt M'' s m m) (h2 : Leaves n s m) : MoreAt M' s m m := by
  intro a s1 e
  refine ⟨(h1 [] rfl a s1 e).1, fun hc => ?_⟩
  cases hn : M'.get n with
  | none => exact (h1 M' hn a s1 e).2 hc
  | some d => exact absurd (hc n (by rw [hn]; simp)) (h2 a s1 e)

theorem more_newCommand (should : Option Bool) : MoreAt M' s (newCommand should) (newCommand should) := by
  refine More.seq More.braceArgument fun g _ => More.seq (More.onStr _ _) fun cs s => More.glue (n := cs) (fun M'' hM => ?_) ?_
  · refine More.get (More.ite ?_ (by more1) ?_)
    · show ((should.isSome && should != some ((s.macros ++ M'').contains cs)) = true) ↔ _
      rw [contains_append hM]
    refine More.seq More.optionalArgument fun n _ => ?_
    cases n with
    | none => more1
    | some n =>
      dsimp only
      cases parseU8 n.cs with
      | none => more1
      | some k =>
        refine More.seq More.optionalArgument fun d _ => More.ite Iff.rfl (by more1) (More.seq More.braceArgument fun r s => More.get ?_)
        refine More.ite ?_ (by more1) (More.macros fun m m1 h => ?_)
        · show (((s.macros ++ M'').contains cs && should.isNone) = true) ↔ _
          rw [contains_append hM]
        · obtain ⟨x, h1, -, h2⟩ := more_insertCommand (M' := M'') _ _ _ _ _ _ h
          exact ⟨x, h1, h2⟩
  · refine Leaves.bind fun st _ _ => Leaves.ite (fun _ => .fail _) fun _ => Leaves.bind fun n _ _ => ?_
    cases n with
    | none => exact .fail _
    | some n =>
      dsimp only
      cases parseU8 n.cs with
      | none => exact .fail _
      | some k =>
        refine Leaves.bind fun d _ _ => Leaves.ite (fun _ => .fail _) fun _ => Leaves.bind fun r _ _ => Leaves.bind fun st s e => ?_
        obtain rfl : st = s := by cases e; rfl
        refine Leaves.ite (fun h => ?_) fun _ => ?_
        · intro b s1 e
          cases e
          intro h0
          simp [Macros.Ctx.contains, h0] at h
        · intro b s1 e
          unfold H.macros at e
          have e : (match Macros.insertCommand st.macros cs k (d.map (·.cs)) r.cs with
            | .ok m => Res.ok PUnit.unit { st with macros := m }
            | .error (.inl e) => .err e st
            | .error (.inr p) => .panic p) = .ok b s1 := e
          cases e1 : Macros.insertCommand st.macros cs k (d.map (·.cs)) r.cs with
          | error x => rw [e1] at e; cases x <;> cases e
          | ok m1 =>
            rw [e1] at e
            cases e
            obtain ⟨x, rfl, h2, -⟩ := more_insertCommand (M' := []) _ _ _ _ _ _ e1
            obtain ⟨a, b⟩ := x
            cases h2
            unfold Macros.Ctx.get
            rw [List.lookup_cons]
            simp

theorem more_genfracDelim : MoreAt M' s genfracDelim genfracDelim := by
  refine More.seq More.argument fun a _ => ?_
  cases a with
  | token t =>
    cases t with
    | cs n =>
      dsimp only
      cases controlSequenceDelimiterMap n <;> more1
    | chr c x =>
      dsimp only
      cases charDelimiterMap c <;> more1
  | group g => exact More.ite Iff.rfl (by more1) (by more1)

theorem more_genfracBar : MoreAt M' s genfracBar genfracBar := by
  refine More.seq More.argument fun a _ => ?_
  cases a with
  | token t => more1
  | group g => exact More.ite Iff.rfl (by more1) (More.seq (More.onStr _ _) fun x _ => More.ite Iff.rfl (by more1) (by more1))

theorem more_genfracStyle : MoreAt M' s genfracStyle genfracStyle := by
  refine More.seq More.argument fun a _ => ?_
  have key : ∀ c s, MoreAt M' s (match styleOf c with | some s => (pure (some s) : H (Option Style)) | none => M.fail .argument)
      (match styleOf c with | some s => (pure (some s) : H (Option Style)) | none => M.fail .argument) := by
    intro c s
    cases styleOf c <;> more1
  cases a with
  | token t =>
    cases t with
    | cs n => more1
    | chr c x => exact key c _
  | group g =>
    obtain ⟨a, b, cs⟩ := g
    match cs with
    | [] => more1
    | [c] => exact key c _
    | _ :: _ :: _ => more1

theorem more_pairsArg : MoreAt M' s (pairsArg cf) (pairsArg cf) :=
  More.seq (more_groupArg _) fun g _ => More.seq (More.onStr _ _) fun n _ => by more1

theorem more_pairsMax (n : Nat) : MoreAt M' s (pairsMax cf n) (pairsMax cf n) :=
  More.ite Iff.rfl (by more1) (More.ite Iff.rfl (by more1) (by more1))

theorem more_subarrayAlign : MoreAt M' s subarrayAlign subarrayAlign := by
  refine More.seq More.argument fun a _ => ?_
  cases a with
  | token t => more1
  | group g => exact More.ite Iff.rfl (by more1) (More.ite Iff.rfl (by more1) (More.ite Iff.rfl (by more1) (by more1)))

theorem more_matrixEnv (ty : MatrixType) (spec : Bool) (style : Option Style) (wrap : Option (Char × Char)) :
    MoreAt M' s (matrixEnv ty spec style wrap) (matrixEnv ty spec style wrap) := by
  cases spec with
  | false => exact More.seq (More.pure) fun _ _ => by more1
  | true => exact More.seq more_optionalAlignment fun _ _ => by more1

theorem more_alignatEnv (g : Nat → Grouping) (k : GroupingKind) : MoreAt M' s (alignatEnv cf g k) (alignatEnv cf g k) :=
  More.seq more_pairsArg fun n _ => More.seq (more_pairsMax n) fun _ _ => by more1

theorem more_environments : ∀ x ∈ environments cf, ∀ s, MoreAt M' s x.2 x.2 := by
  unfold environments
  simp only [List.forall_mem_cons]
  refine ⟨fun _ => More.seq more_arrayEnvironment fun _ _ => by more1, fun _ => More.seq more_arrayEnvironment fun _ _ => by more1, ?_⟩
  refine ⟨fun _ => more_matrixEnv _ _ _ _, fun _ => more_matrixEnv _ _ _ _, fun _ => more_matrixEnv _ _ _ _, fun _ => more_matrixEnv _ _ _ _, fun _ => more_matrixEnv _ _ _ _,
    fun _ => more_matrixEnv _ _ _ _, fun _ => more_matrixEnv _ _ _ _, fun _ => more_matrixEnv _ _ _ _, fun _ => more_matrixEnv _ _ _ _, fun _ => more_matrixEnv _ _ _ _,
    fun _ => more_matrixEnv _ _ _ _, fun _ => more_matrixEnv _ _ _ _, fun _ => more_matrixEnv _ _ _ _, ?_⟩
  refine ⟨fun _ => by more1, fun _ => by more1, fun _ => by more1, fun _ => by more1, fun _ => by more1, fun _ => by more1, fun _ => by more1, fun _ => by more1, fun _ => by more1, fun _ => by more1, fun _ => by more1, fun _ => by more1, ?_⟩
  refine ⟨fun _ => more_alignatEnv _ _, fun _ => more_alignatEnv _ _, fun _ => more_alignatEnv _ _, fun _ => More.seq more_subarrayAlign fun _ _ => by more1, fun _ => by more1, fun _ => by more1, ?_⟩
  intro x hx; cases hx

theorem more_beginEnv : MoreAt M' s (beginEnv cf) (beginEnv cf) := by
  refine More.seq (more_groupArg _) fun g _ => ?_
  cases h : (environments cf).lookup g.cs with
  | none => more1
  | some m =>
    refine More.seq (more_environments _ (lookup_mem_gen h) _) fun env _ => ?_
    obtain ⟨gg, mx, k, style, wrap⟩ := env
    cases wrap with
    | none => exact More.seq (More.lexPure _) fun l _ => More.seq (More.groupContent _) fun c _ => More.push
    | some w =>
      obtain ⟨a, b⟩ := w
      exact More.seq (More.ev _) fun _ _ => More.seq (More.lexPure _) fun l _ => More.seq (More.groupContent _) fun c _ => More.push

theorem more_leftDelim : MoreAt M' s leftDelim leftDelim := by
  refine More.get ?_
  have key : ∀ s, MoreAt M' s (do let (c, _) ← H.lex delimiter; return some c : H (Option Char)) (do let (c, _) ← H.lex delimiter; return some c) :=
    fun s => More.seq (More.lex _) fun x _ => by more1
  obtain ⟨⟨a, b, cs⟩, x2, x3, x4, x5, x6, x7, x8⟩ := s
  show MoreAt M' _ (match cs with | '.' :: rest => _ | _ => _) (match cs with | '.' :: rest => _ | _ => _)
  split
  · exact More.seq (by more1) fun _ _ => by more1
  · exact key _

include hr

theorem more_handleArgument (a : HArg) : MoreAt M' s (handleArgument rec a) (handleArgument rec a) := by
  cases a with
  | token t => exact More.seq (by more1) fun _ _ => hr t _
  | group g => exact More.push

theorem more_atomGroup (cls : AtomClass) : MoreAt M' s (atomGroup rec cls) (atomGroup rec cls) := by
  refine More.seq More.argument fun a _ => ?_
  cases singleChar a with
  | some c => more1
  | none =>
    have key : ∀ s, MoreAt M' s (do H.ev (.begin_ .normal); handleArgument rec a; H.ev .end_)
        (do H.ev (.begin_ .normal); handleArgument rec a; H.ev .end_) :=
      fun s => More.seq (by more1) fun _ _ => More.seq (more_handleArgument hr a) fun _ _ => by more1
    cases cls <;> cases a <;> first | exact key _ | exact More.ev _

theorem more_fontGroup (f : Option Font) : MoreAt M' s (fontGroup rec f) (fontGroup rec f) := by
  refine More.seq More.argument fun a _ => More.seq (by more1) fun _ _ => ?_
  cases a with
  | token t => exact More.seq (hr t _) fun _ _ => by more1
  | group g => exact More.seq (More.push) fun _ _ => by more1

theorem more_accent (c : Char) (b : Bool) : MoreAt M' s (accent rec c b) (accent rec c b) :=
  More.seq More.argument fun a _ => More.seq (More.ev _) fun _ _ => More.seq (more_handleArgument hr a) fun _ _ => by more1

theorem more_underscript (c : Char) : MoreAt M' s (underscript rec c) (underscript rec c) :=
  More.seq More.argument fun a _ => More.seq (More.ev _) fun _ _ => More.seq (more_handleArgument hr a) fun _ _ => by more1

theorem more_fractionLike (l r : Option Char) (bar : Option Dim) (style : Option Style) :
    MoreAt M' s (fractionLike rec l r bar style) (fractionLike rec l r bar style) := by
  unfold fractionLike
  cases style <;> dsimp only
  all_goals
    repeat' (first
      | more1 | exact more_handleArgument hr _ | refine More.ite Iff.rfl ?_ ?_ | apply More.seq | intro _)

theorem more_scriptSwap {over : H HArg} (ho : ∀ s, MoreAt M' s over over) : MoreAt M' s (scriptSwap rec over) (scriptSwap rec over) := by
  refine More.get (More.seq (ho _) fun a _ => More.seq (more_handleArgument hr a) fun _ _ => More.get ?_)
  exact More.seq (More.modify (fun _ => rfl) fun _ => rfl) fun _ _ => More.seq More.argument fun b _ => More.seq (more_handleArgument hr b) fun _ _ => More.push

theorem more_execPrim (p : Prim) : MoreAt M' s (execPrim cf rec p) (execPrim cf rec p) := by
  cases p
  all_goals unfold execPrim
  all_goals dsimp only
  case frac => exact more_fractionLike hr _ _ _ _
  case fontGroup => exact more_fontGroup hr _
  case text => exact more_textArgument _
  case begin_ => exact more_beginEnv
  case newcommand => exact more_newCommand _
  case sized => exact more_sizedDelim _
  case operatorname =>
    refine More.seq More.allowMods fun _ _ => More.seq More.argument fun a _ => ?_
    cases a with
    | token t => cases t <;> more1
    | group g => more1
  case pmod => exact More.seq More.argument fun a _ => More.seq (More.push) fun _ _ => More.seq (more_handleArgument hr a) fun _ _ => by more1
  case atom cls =>
    exact More.ite Iff.rfl (More.seq More.allowMods fun _ _ => More.seq (More.setPos _) fun _ _ => more_atomGroup hr cls) (more_atomGroup hr cls)
  case dots =>
    refine More.get ?_
    show MoreAt M' s (match trimStart s.content.cs with | c :: _ => _ | [] => _) _
    cases trimStart s.content.cs with
    | nil => more1
    | cons c t => exact More.ite Iff.rfl (by more1) (by more1)
  case color => exact More.seq (more_groupArg _) fun g _ => More.seq More.setSkip fun _ _ => More.seq (more_colorOf _) fun c _ => by more1
  case textcolor =>
    refine More.seq (more_groupArg _) fun g _ => More.seq (more_colorOf _) fun c _ => More.seq More.argument fun a _ => More.seq More.push fun _ _ =>
      More.seq (more_handleArgument hr a) fun _ _ => More.ev _
  case colorbox =>
    refine More.seq (more_groupArg _) fun g _ => More.seq (more_colorOf _) fun c _ => More.seq More.push fun _ _ =>
      More.seq (more_textArgument none) fun _ _ => More.ev _
  case fcolorbox =>
    refine More.seq (more_groupArg _) fun g _ => More.seq (more_groupArg _) fun g _ => More.seq (more_colorOf _) fun c _ =>
      More.seq (more_colorOf _) fun c _ => More.seq More.push fun _ _ => More.seq (more_textArgument none) fun _ _ => More.ev _
  case left => exact More.seq more_leftDelim fun o _ => More.seq (More.groupContent _) fun c _ => More.seq more_leftDelim fun o _ => by more1
  case accent =>
    exact More.ite Iff.rfl (More.seq (More.setPos _) fun _ _ => more_accent hr _ _) (more_accent hr _ _)
  case under =>
    exact More.ite Iff.rfl (More.seq (More.setPos _) fun _ _ => more_underscript hr _) (more_underscript hr _)
  case hspace => exact More.seq (more_groupArg _) fun g _ => More.seq (More.onStr _ _) fun x _ => by more1
  case space3 =>
    refine More.seq (more_groupArg _) fun g _ => More.seq (More.onStr _ _) fun x _ => ?_
    refine More.seq (more_groupArg _) fun g _ => More.seq (More.onStr _ _) fun x _ => ?_
    exact More.seq (more_groupArg _) fun g _ => More.seq (More.onStr _ _) fun x _ => More.ev _
  case xarrow c =>
    refine More.seq More.optionalArgument fun b _ => More.seq More.argument fun a _ => ?_
    cases b with
    | none => exact More.seq (More.push) fun _ _ => more_handleArgument hr a
    | some g => exact More.seq (More.push) fun _ _ => More.seq (more_handleArgument hr (.group g)) fun _ _ => more_handleArgument hr a
  case genfrac => exact More.seq more_genfracDelim fun _ _ => More.seq more_genfracDelim fun _ _ => More.seq more_genfracBar fun _ _ => More.seq more_genfracStyle fun _ _ =>
      more_fractionLike hr _ _ _ _
  case overset => exact More.seq (More.ev _) fun _ _ => more_scriptSwap hr fun _ => More.argument
  case buildrel => exact More.seq (More.contentWithSuffix _) fun o _ => More.seq (More.ev _) fun _ _ => more_scriptSwap hr fun _ => More.argumentOf o
  case sideset => exact More.seq More.argument fun _ _ => More.seq More.argument fun _ _ => More.seq More.argument fun a _ => more_handleArgument hr a
  case sqrt =>
    refine More.seq More.optionalArgument fun i _ => ?_
    cases i with
    | none => exact More.seq (More.ev _) fun _ _ => More.seq More.argument fun a _ => more_handleArgument hr a
    | some g => exact More.seq (More.ev _) fun _ _ => More.seq More.argument fun a _ => More.seq (more_handleArgument hr a) fun _ _ => by more1
  case not_ => exact More.seq (More.ev _) fun _ _ => More.seq More.argument fun a _ => more_handleArgument hr a
  case newline =>
    refine More.get ?_
    show MoreAt M' s (match s.align with | some a => _ | none => _) _
    cases s.align with
    | none => more1
    | some a =>
      refine More.ite Iff.rfl (by more1) (More.seq (More.set rfl rfl) fun _ _ => More.seq (More.seq More.optionalArgument fun o _ => ?_) fun _ _ =>
        More.seq (More.lexPure _) fun _ _ => by more1)
      cases o with
      | none => more1
      | some g => exact More.seq (More.onStr _ _) fun _ _ => by more1
  case def_ =>
    refine More.seq (More.lex _) fun x _ => ?_
    obtain ⟨a, b, c⟩ := x
    exact More.seq More.setSkip fun _ _ => More.macros (more_define _ _ _)
  case let_ =>
    refine More.seq (More.lex _) fun x _ => ?_
    obtain ⟨a, b⟩ := x
    exact More.seq More.setSkip fun _ _ => More.macros (more_assign _ _)
  case futurelet =>
    refine More.seq (More.lex _) fun x _ => ?_
    exact More.seq (by more1) fun _ _ => More.seq (More.macros (more_assign _ _)) fun _ _ => by more1
  all_goals mores

omit hr
theorem more_handleToken (n : Nat) : ∀ t s, MoreAt M' s (handleToken cf n t) (handleToken cf n t) := by
  induction n with
  | zero => intro t s; exact More.boom _
  | succ n ih =>
    intro t s
    cases t with
    | cs name => exact more_execPrim ih _
    | chr c ctx => exact more_handleChar c ctx

theorem more_limits : MoreAt M' s limits limits := by
  refine More.get (More.ite Iff.rfl ?_ (by more1))
  show MoreAt M' s (match limitModifiers s.content.cs with | (some true, rest) => _ | (some false, rest) => _ | (none, rest) => _) _
  obtain ⟨o, rest⟩ := limitModifiers s.content.cs
  cases o with
  | none => more1
  | some b => cases b <;> more1

theorem more_scripts {rec : HTok → H PUnit} (hr : ∀ t s, MoreAt M' s (rec t) (rec t)) : MoreAt M' s (scripts rec) (scripts rec) := by
  refine More.get (More.ite Iff.rfl More.pure ?_)
  refine More.seq more_limits fun _ _ => More.seq (More.modify (fun _ => rfl) fun _ => rfl) fun _ s => More.get ?_
  obtain ⟨⟨src, stop, cs⟩, x2, x3, x4, x5, x6, x7, x8⟩ := s
  dsimp only [HSt.plus]
  cases cs with
  | nil => exact More.pure
  | cons c rest =>
    refine More.ite Iff.rfl ?_ More.pure
    refine More.seq (More.set rfl rfl) fun _ _ => More.seq More.argument fun a _ => More.seq (more_handleArgument hr a) fun _ s => More.get ?_
    refine More.ite Iff.rfl ?_ (More.ite Iff.rfl (More.fail _) (More.get More.pure))
    refine More.seq (More.set rfl rfl) fun _ _ => More.seq More.argument fun a _ => More.seq (more_handleArgument hr a) fun _ t => More.get ?_
    show MoreAt M' t (match t.content.cs.head? with | some '_' => _ | some '^' => _ | _ => _) (match t.content.cs.head? with | some '_' => _ | some '^' => _ | _ => _)
    split
    · exact More.fail _
    · exact More.fail _
    · exact More.get More.pure

theorem more_atom (t : HTok) : MoreAt M' s (atom cf t) (atom cf t) :=
  More.get (More.seq (more_handleToken _ t _) fun _ _ => More.get (more_scripts (more_handleToken _)))

end
end PL
