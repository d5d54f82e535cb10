import Verif.Lemmas.More
set_option autoImplicit false
/-!
# Macros that mean the same can be exchanged

A handler that succeeds does the same when the macros are replaced by others that have the same names and expand to the same texts.
-/
namespace PL
open Lex

variable {cf : Cfg} {α β : Type}

/-- The same names, and what expands in the first table expands to the same text in the second. -/
def Serves (cf : Cfg) (m m' : Macros.Ctx) : Prop := ∀ n, (m.get n = none ↔ m'.get n = none) ∧
  ∀ s new k, Macros.tryExpand cf m n s = some (.ok new k) → ∃ k', Macros.tryExpand cf m' n s = some (.ok new k')

theorem Serves.contains {m m' : Macros.Ctx} (h : Serves cf m m') (n : Str) : m'.contains n = m.contains n := by
  have := (h n).1
  unfold Macros.Ctx.contains
  cases h1 : m.get n with
  | none => rw [this.1 h1]
  | some d =>
    cases h2 : m'.get n with
    | none => rw [this.2 h2] at h1; cases h1
    | some d' => rfl

theorem Serves.cons {m m' : Macros.Ctx} (h : Serves cf m m') (x : Str × Macros.Definition) : Serves cf (x :: m) (x :: m') := by
  obtain ⟨a, d⟩ := x
  intro n
  have := h n
  unfold Macros.tryExpand Macros.Ctx.get at this ⊢
  rw [List.lookup_cons, List.lookup_cons]
  cases e : n == a with
  | true => exact ⟨Iff.rfl, fun s new k h => ⟨k, h⟩⟩
  | false => exact this

/-- The state with the other macros. -/
def swapped (p : HSt × Macros.Ctx) : HSt := { p.1 with macros := p.2 }

/-- When `m` succeeds, then `m'` does the same with the other macros. -/
def SwapAt (cf : Cfg) (p : HSt × Macros.Ctx) (m' m : H α) : Prop := Serves cf p.1.macros p.2 →
  ∀ a s1, m p.1 = .ok a s1 → ∃ m1, Serves cf s1.macros m1 ∧ m' (swapped p) = .ok a (swapped (s1, m1))

theorem Swap.seq {m' m : H α} {f' f : α → H β} {s : HSt × Macros.Ctx} (h : SwapAt cf s m' m) (hf : ∀ a s1, SwapAt cf s1 (f' a) (f a)) :
    SwapAt cf s (m' >>= f') (m >>= f) := by
  intro hs b s2 e
  rw [M.run_bind] at e
  cases e1 : m s.1 with
  | ok a s1 =>
    rw [e1] at e
    obtain ⟨m1, g1, h1⟩ := h hs a s1 e1
    obtain ⟨m2, g2, h2⟩ := hf a (s1, m1) g1 b s2 e
    refine ⟨m2, g2, ?_⟩
    rw [M.run_bind, h1]
    exact h2
  | err k s1 => rw [e1] at e; cases e
  | panic p => rw [e1] at e; cases e

theorem Swap.get {f' f : HSt → H β} {s : HSt × Macros.Ctx} (hf : SwapAt cf s (f' (swapped s)) (f s.1)) : SwapAt cf s (M.get >>= f') (M.get >>= f) := hf

theorem Swap.use {m' m : H α} {s : HSt × Macros.Ctx} (h : Serves cf s.1.macros s.2 → SwapAt cf s m' m) : SwapAt cf s m' m := fun hs => h hs hs

theorem Swap.pure {s : HSt × Macros.Ctx} {a : α} : SwapAt cf s (Pure.pure a : H α) (Pure.pure a) := by
  intro hs b s1 e
  cases e
  exact ⟨_, hs, rfl⟩
theorem Swap.fail {s : HSt × Macros.Ctx} {m' : H α} (k : ErrorKind) : SwapAt cf s m' (M.fail k : H α) := by intro hs b s1 e; cases e
theorem Swap.boom {s : HSt × Macros.Ctx} {m' : H α} (p : Panic) : SwapAt cf s m' (M.boom p : H α) := by intro hs b s1 e; cases e
theorem Swap.set {s : HSt × Macros.Ctx} {t t' : HSt} (h1 : t.macros = s.1.macros) (h2 : t' = swapped (t, s.2)) : SwapAt cf s (M.set t' : H PUnit) (M.set t) := by
  intro hs b s1 e
  cases e
  exact ⟨s.2, by rw [h1]; exact hs, by rw [h2]; rfl⟩
theorem Swap.modify {s : HSt × Macros.Ctx} {f' f : HSt → HSt} (h1 : ∀ s, (f s).macros = s.macros) (h2 : ∀ s m, f' (swapped (s, m)) = swapped (f s, m)) :
    SwapAt cf s (M.modify f' : H PUnit) (M.modify f) := by
  intro hs b s1 e
  rw [M.run_modify] at e
  cases e
  exact ⟨s.2, by rw [h1]; exact hs, by rw [M.run_modify]; exact congrArg _ (h2 s.1 s.2)⟩
theorem Swap.lex {s : HSt × Macros.Ctx} (m : L α) : SwapAt cf s (H.lex m) (H.lex m) := by
  intro hs b s1 e
  unfold H.lex at e ⊢
  dsimp only [swapped] at e ⊢
  revert e
  cases m s.1.content.cs <;> intro e <;> cases e
  exact ⟨s.2, hs, rfl⟩
theorem Swap.lexPure {s : HSt × Macros.Ctx} (m : Str → α × Str) : SwapAt cf s (H.lexPure m) (H.lexPure m) := Swap.lex _
theorem Swap.onStr {s : HSt × Macros.Ctx} (m : L α) (str : Str) : SwapAt cf s (H.onStr m str) (H.onStr m str) := by
  intro hs b s1 e
  unfold H.onStr at e ⊢
  revert e
  cases m str <;> intro e <;> cases e
  exact ⟨s.2, hs, rfl⟩
theorem Swap.argument {s : HSt × Macros.Ctx} : SwapAt cf s H.argument H.argument := by
  intro hs b s1 e
  unfold H.argument at e ⊢
  dsimp only [swapped] at e ⊢
  revert e
  cases Lex.argument s.1.content.cs <;> intro e <;> cases e
  exact ⟨s.2, hs, rfl⟩
theorem Swap.argumentOf {s : HSt × Macros.Ctx} (sl : Sl) : SwapAt cf s (H.argumentOf sl) (H.argumentOf sl) := by
  intro hs b s1 e
  unfold H.argumentOf at e ⊢
  revert e
  cases Lex.argument sl.cs <;> intro e <;> cases e
  exact ⟨s.2, hs, rfl⟩
theorem Swap.groupContent {s : HSt × Macros.Ctx} (k : GroupingKind) : SwapAt cf s (H.groupContent k) (H.groupContent k) := by
  intro hs b s1 e
  unfold H.groupContent at e ⊢
  dsimp only [swapped] at e ⊢
  revert e
  cases Lex.groupContent k s.1.content.cs <;> intro e <;> cases e
  exact ⟨s.2, hs, rfl⟩
theorem Swap.braceArgument {s : HSt × Macros.Ctx} : SwapAt cf s H.braceArgument H.braceArgument := by
  intro hs b s1 e
  unfold H.braceArgument at e ⊢
  dsimp only [swapped] at e ⊢
  revert e
  cases Lex.braceArgument s.1.content.cs <;> intro e <;> cases e
  exact ⟨s.2, hs, rfl⟩
theorem Swap.contentWithSuffix {s : HSt × Macros.Ctx} (k : Str) : SwapAt cf s (H.contentWithSuffix k) (H.contentWithSuffix k) := by
  intro hs b s1 e
  unfold H.contentWithSuffix at e ⊢
  dsimp only [swapped] at e ⊢
  revert e
  cases Lex.contentWithSuffix k s.1.content.cs <;> intro e <;> cases e
  exact ⟨s.2, hs, rfl⟩
theorem Swap.optionalArgument {s : HSt × Macros.Ctx} : SwapAt cf s H.optionalArgument H.optionalArgument := by
  intro hs b s1 e
  unfold H.optionalArgument at e ⊢
  dsimp only [swapped] at e ⊢
  revert e
  cases Lex.optionalArgument s.1.content.cs <;> intro e <;> cases e
  exact ⟨s.2, hs, rfl⟩
/-- A function that adds an entry which does not depend on the table. -/
theorem Swap.macros {s : HSt × Macros.Ctx} {f : Macros.Ctx → Except (ErrorKind ⊕ Panic) Macros.Ctx}
    (hf : ∀ M' m m1, f m = .ok m1 → ∃ x, m1 = x :: m ∧ f M' = .ok (x :: M')) : SwapAt cf s (H.macros f) (H.macros f) := by
  intro hs b s1 e
  unfold H.macros at e ⊢
  cases e1 : f s.1.macros with
  | error x => rw [e1] at e; cases x <;> cases e
  | ok m1 =>
    rw [e1] at e
    cases e
    obtain ⟨x, rfl, h2⟩ := hf s.2 _ _ e1
    refine ⟨x :: s.2, hs.cons x, ?_⟩
    have h3 : f (swapped s).macros = .ok (x :: s.2) := h2
    simp only [h3]
    rfl
theorem Swap.push {s : HSt × Macros.Ctx} {is : List Instr} : SwapAt cf s (H.push is) (H.push is) := Swap.modify (fun _ => rfl) fun _ _ => rfl
theorem Swap.ev {s : HSt × Macros.Ctx} (e : Event) : SwapAt cf s (H.ev e) (H.ev e) := Swap.push
theorem Swap.setContent {s : HSt × Macros.Ctx} {c : Sl} : SwapAt cf s (H.setContent c) (H.setContent c) := Swap.modify (fun _ => rfl) fun _ _ => rfl
theorem Swap.allowMods {s : HSt × Macros.Ctx} : SwapAt cf s H.allowMods H.allowMods := Swap.modify (fun _ => rfl) fun _ _ => rfl
theorem Swap.setPos {s : HSt × Macros.Ctx} (p : ScriptPos) : SwapAt cf s (H.setPos p) (H.setPos p) := Swap.modify (fun _ => rfl) fun _ _ => rfl
theorem Swap.setSkip {s : HSt × Macros.Ctx} : SwapAt cf s H.setSkip H.setSkip := Swap.modify (fun _ => rfl) fun _ _ => rfl
theorem Swap.setHarg {s : HSt × Macros.Ctx} : SwapAt cf s H.setHarg H.setHarg := Swap.modify (fun _ => rfl) fun _ _ => rfl

theorem Swap.ite {s : HSt × Macros.Ctx} {c c' : Prop} [Decidable c] [Decidable c'] (hc : c' ↔ c) {a a' b b' : H α} (h1 : SwapAt cf s a' a) (h2 : SwapAt cf s b' b) :
    SwapAt cf s (if c' then a' else b') (if c then a else b) := by
  by_cases h : c
  · rw [if_pos h, if_pos (hc.2 h)]; exact h1
  · rw [if_neg h, if_neg (fun x => h (hc.1 x))]; exact h2

/-- The basic steps. -/
macro "swap1" : tactic => `(tactic| first
  | exact Swap.fail _ | exact Swap.boom _ | exact Swap.ev _ | exact Swap.lex _ | exact Swap.lexPure _
  | exact Swap.onStr _ _ | exact Swap.argument | exact Swap.groupContent _ | exact Swap.braceArgument
  | exact Swap.contentWithSuffix _ | exact Swap.optionalArgument | exact Swap.allowMods
  | exact Swap.setPos _ | exact Swap.setSkip | exact Swap.setHarg | exact Swap.argumentOf _
  | exact Swap.push | exact Swap.setContent | exact Swap.pure | exact Swap.set rfl rfl
  | exact Swap.modify (fun _ => rfl) (fun _ _ => rfl))

/-- Sequences of basic steps. -/
macro "swaps" : tactic => `(tactic| repeat' (first
  | swap1 | assumption | refine Swap.ite Iff.rfl ?_ ?_ | apply Swap.get | apply Swap.seq | intro _))

section
variable {rec : HTok → H PUnit} (hr : ∀ t s, SwapAt cf s (rec t) (rec t)) {s : HSt × Macros.Ctx}

theorem swap_handleChar (c : Char) (ctx : Sl) : SwapAt cf s (handleChar c ctx) (handleChar c ctx) := by
  unfold handleChar
  refine Swap.get ?_
  refine Swap.ite Iff.rfl (by swap1) (Swap.ite Iff.rfl (Swap.ite Iff.rfl (by swap1) ?_) ?_)
  · swaps
  refine Swap.ite Iff.rfl (by swap1) (Swap.ite Iff.rfl (by swap1) (Swap.ite Iff.rfl ?_ (Swap.ite Iff.rfl ?_ ?_)))
  · show SwapAt cf s (match s.1.align with | some a => _ | none => _) _
    cases s.1.align with
    | none => swap1
    | some a => exact Swap.ite Iff.rfl (Swap.seq (by swap1) fun _ _ => by swap1) (by swap1)
  · swaps
  refine Swap.ite Iff.rfl (by swap1) (Swap.ite Iff.rfl (by swap1) (Swap.ite Iff.rfl ?_ ?_))
  · exact Swap.seq Swap.setContent fun _ _ => Swap.ev _
  · swap1

theorem swap_groupArg (e : ErrorKind) : SwapAt cf s (groupArg e) (groupArg e) := by
  refine Swap.seq Swap.argument fun a _ => ?_
  cases a <;> swap1

theorem swap_colorOf (x : Str) : SwapAt cf s (colorOf x) (colorOf x) := by
  unfold colorOf
  split <;> swap1

theorem swap_textArgument (f : Option Font) : SwapAt cf s (textArgument f) (textArgument f) := by
  refine Swap.seq (Swap.seq Swap.argument fun a _ => ?_) fun t _ => ?_
  · cases a with
    | token t => cases t <;> swap1
    | group g => swap1
  · cases f <;> swap1

theorem swap_sizedDelim (size : DelimSize) : SwapAt cf s (sizedDelim size) (sizedDelim size) := by
  unfold sizedDelim; swaps

theorem swap_arrayEnvironment : SwapAt cf s (arrayEnvironment cf) (arrayEnvironment cf) := by
  refine Swap.seq (swap_groupArg _) fun g _ => ?_
  cases columns cf 0 g.cs with
  | error x => cases x <;> swap1
  | ok x => exact Swap.ite Iff.rfl (by swap1) (by swap1)

theorem swap_optionalAlignment : SwapAt cf s optionalAlignment optionalAlignment := by
  refine Swap.seq Swap.optionalArgument fun g _ => ?_
  cases g with
  | none => swap1
  | some g => exact Swap.ite Iff.rfl (by swap1) (Swap.ite Iff.rfl (by swap1) (Swap.ite Iff.rfl (by swap1) (by swap1)))

theorem swap_insertCommand (name : Str) (k : Nat) (d : Option Str) (r : Str) (M' m m1 : Macros.Ctx) (h : Macros.insertCommand m name k d r = .ok m1) :
    ∃ x, m1 = x :: m ∧ Macros.insertCommand M' name k d r = .ok (x :: M') := by
  unfold Macros.insertCommand at h ⊢
  split at h
  · cases h
  · cases h
    exact ⟨_, rfl, rfl⟩

theorem swap_define (name pt rt : Str) (M' m m1 : Macros.Ctx) (h : Macros.define m name pt rt = .ok m1) :
    ∃ x, m1 = x :: m ∧ Macros.define M' name pt rt = .ok (x :: M') := by
  unfold Macros.define at h ⊢
  dsimp only at h ⊢
  generalize Macros.splitHash _ = l at h ⊢
  cases l with
  | nil => cases h
  | cons pre args =>
    dsimp only at h ⊢
    cases hp : Macros.parseParams 1 args with
    | error e => rw [hp] at h; cases h
    | ok params =>
      rw [hp] at h
      dsimp only at h ⊢
      cases hq : Macros.parseReplacement rt (params.length % 256) with
      | error e => rw [hq] at h; cases h
      | ok repl =>
        rw [hq] at h
        dsimp only at h ⊢
        cases h
        exact ⟨_, rfl, rfl⟩

theorem swap_assign (name : Str) (t : Tok) (M' m m1 : Macros.Ctx) (h : (.ok (m.assign name t) : Except (ErrorKind ⊕ Panic) Macros.Ctx) = .ok m1) :
    ∃ x, m1 = x :: m ∧ (.ok (M'.assign name t) : Except (ErrorKind ⊕ Panic) Macros.Ctx) = .ok (x :: M') := by
  cases h
  cases t <;> exact ⟨_, rfl, rfl⟩

theorem swap_newCommand (should : Option Bool) : SwapAt cf s (newCommand should) (newCommand should) := by
  refine Swap.seq Swap.braceArgument fun g _ => Swap.seq (Swap.onStr _ _) fun cs s => Swap.get (Swap.use fun hs => Swap.ite ?_ (by swap1) ?_)
  · show ((should.isSome && should != some (s.2.contains cs)) = true) ↔ _
    rw [hs.contains]
  refine Swap.seq Swap.optionalArgument fun n _ => ?_
  cases n with
  | none => swap1
  | some n =>
    dsimp only
    cases parseU8 n.cs with
    | none => swap1
    | some k =>
      refine Swap.seq Swap.optionalArgument fun d _ => Swap.ite Iff.rfl (by swap1) (Swap.seq Swap.braceArgument fun r s => Swap.get (Swap.use fun hs => ?_))
      refine Swap.ite ?_ (by swap1) (Swap.macros (swap_insertCommand _ _ _ _))
      show ((s.2.contains cs && should.isNone) = true) ↔ _
      rw [hs.contains]

theorem swap_genfracDelim : SwapAt cf s genfracDelim genfracDelim := by
  refine Swap.seq Swap.argument fun a _ => ?_
  cases a with
  | token t =>
    cases t with
    | cs n =>
      dsimp only
      cases controlSequenceDelimiterMap n <;> swap1
    | chr c x =>
      dsimp only
      cases charDelimiterMap c <;> swap1
  | group g => exact Swap.ite Iff.rfl (by swap1) (by swap1)

theorem swap_genfracBar : SwapAt cf s genfracBar genfracBar := by
  refine Swap.seq Swap.argument fun a _ => ?_
  cases a with
  | token t => swap1
  | group g => exact Swap.ite Iff.rfl (by swap1) (Swap.seq (Swap.onStr _ _) fun x _ => Swap.ite Iff.rfl (by swap1) (by swap1))

theorem swap_genfracStyle : SwapAt cf s genfracStyle genfracStyle := by
  refine Swap.seq Swap.argument fun a _ => ?_
  have key : ∀ c s, SwapAt cf s (match styleOf c with | some s => (pure (some s) : H (Option Style)) | none => M.fail .argument)
      (match styleOf c with | some s => (pure (some s) : H (Option Style)) | none => M.fail .argument) := by
    intro c s
    cases styleOf c <;> swap1
  cases a with
  | token t =>
    cases t with
    | cs n => swap1
    | chr c x => exact key c _
  | group g =>
    obtain ⟨a, b, cs⟩ := g
    match cs with
    | [] => swap1
    | [c] => exact key c _
    | _ :: _ :: _ => swap1

theorem swap_pairsArg : SwapAt cf s (pairsArg cf) (pairsArg cf) :=
  Swap.seq (swap_groupArg _) fun g _ => Swap.seq (Swap.onStr _ _) fun n _ => by swap1

theorem swap_pairsMax (n : Nat) : SwapAt cf s (pairsMax cf n) (pairsMax cf n) :=
  Swap.ite Iff.rfl (by swap1) (Swap.ite Iff.rfl (by swap1) (by swap1))

theorem swap_subarrayAlign : SwapAt cf s subarrayAlign subarrayAlign := by
  refine Swap.seq Swap.argument fun a _ => ?_
  cases a with
  | token t => swap1
  | group g => exact Swap.ite Iff.rfl (by swap1) (Swap.ite Iff.rfl (by swap1) (Swap.ite Iff.rfl (by swap1) (by swap1)))

theorem swap_matrixEnv (ty : MatrixType) (spec : Bool) (style : Option Style) (wrap : Option (Char × Char)) :
    SwapAt cf s (matrixEnv ty spec style wrap) (matrixEnv ty spec style wrap) := by
  cases spec with
  | false => exact Swap.seq (Swap.pure) fun _ _ => by swap1
  | true => exact Swap.seq swap_optionalAlignment fun _ _ => by swap1

theorem swap_alignatEnv (g : Nat → Grouping) (k : GroupingKind) : SwapAt cf s (alignatEnv cf g k) (alignatEnv cf g k) :=
  Swap.seq swap_pairsArg fun n _ => Swap.seq (swap_pairsMax n) fun _ _ => by swap1

theorem swap_environments : ∀ x ∈ environments cf, ∀ s, SwapAt cf s x.2 x.2 := by
  unfold environments
  simp only [List.forall_mem_cons]
  refine ⟨fun _ => Swap.seq swap_arrayEnvironment fun _ _ => by swap1, fun _ => Swap.seq swap_arrayEnvironment fun _ _ => by swap1, ?_⟩
  refine ⟨fun _ => swap_matrixEnv _ _ _ _, fun _ => swap_matrixEnv _ _ _ _, fun _ => swap_matrixEnv _ _ _ _, fun _ => swap_matrixEnv _ _ _ _, fun _ => swap_matrixEnv _ _ _ _,
    fun _ => swap_matrixEnv _ _ _ _, fun _ => swap_matrixEnv _ _ _ _, fun _ => swap_matrixEnv _ _ _ _, fun _ => swap_matrixEnv _ _ _ _, fun _ => swap_matrixEnv _ _ _ _,
    fun _ => swap_matrixEnv _ _ _ _, fun _ => swap_matrixEnv _ _ _ _, fun _ => swap_matrixEnv _ _ _ _, ?_⟩
  refine ⟨fun _ => by swap1, fun _ => by swap1, fun _ => by swap1, fun _ => by swap1, fun _ => by swap1, fun _ => by swap1, fun _ => by swap1, fun _ => by swap1, fun _ => by swap1, fun _ => by swap1, fun _ => by swap1, fun _ => by swap1, ?_⟩
  refine ⟨fun _ => swap_alignatEnv _ _, fun _ => swap_alignatEnv _ _, fun _ => swap_alignatEnv _ _, fun _ => Swap.seq swap_subarrayAlign fun _ _ => by swap1, fun _ => by swap1, fun _ => by swap1, ?_⟩
  intro x hx; cases hx

theorem swap_beginEnv : SwapAt cf s (beginEnv cf) (beginEnv cf) := by
  refine Swap.seq (swap_groupArg _) fun g _ => ?_
  cases h : (environments cf).lookup g.cs with
  | none => swap1
  | some m =>
    refine Swap.seq (swap_environments _ (lookup_mem_gen h) _) fun env _ => ?_
    obtain ⟨gg, mx, k, style, wrap⟩ := env
    cases wrap with
    | none => exact Swap.seq (Swap.lexPure _) fun l _ => Swap.seq (Swap.groupContent _) fun c _ => Swap.push
    | some w =>
      obtain ⟨a, b⟩ := w
      exact Swap.seq (Swap.ev _) fun _ _ => Swap.seq (Swap.lexPure _) fun l _ => Swap.seq (Swap.groupContent _) fun c _ => Swap.push

theorem swap_leftDelim : SwapAt cf s leftDelim leftDelim := by
  refine Swap.get ?_
  have key : ∀ s, SwapAt cf s (do let (c, _) ← H.lex delimiter; return some c : H (Option Char)) (do let (c, _) ← H.lex delimiter; return some c) :=
    fun s => Swap.seq (Swap.lex _) fun x _ => by swap1
  obtain ⟨⟨⟨a, b, cs⟩, x2, x3, x4, x5, x6, x7, x8⟩, x9⟩ := s
  show SwapAt cf _ (match cs with | '.' :: rest => _ | _ => _) (match cs with | '.' :: rest => _ | _ => _)
  split
  · exact Swap.seq (by swap1) fun _ _ => by swap1
  · exact key _

include hr

theorem swap_handleArgument (a : HArg) : SwapAt cf s (handleArgument rec a) (handleArgument rec a) := by
  cases a with
  | token t => exact Swap.seq (by swap1) fun _ _ => hr t _
  | group g => exact Swap.push

theorem swap_atomGroup (cls : AtomClass) : SwapAt cf s (atomGroup rec cls) (atomGroup rec cls) := by
  refine Swap.seq Swap.argument fun a _ => ?_
  cases singleChar a with
  | some c => swap1
  | none =>
    have key : ∀ s, SwapAt cf s (do H.ev (.begin_ .normal); handleArgument rec a; H.ev .end_)
        (do H.ev (.begin_ .normal); handleArgument rec a; H.ev .end_) :=
      fun s => Swap.seq (by swap1) fun _ _ => Swap.seq (swap_handleArgument hr a) fun _ _ => by swap1
    cases cls <;> cases a <;> first | exact key _ | exact Swap.ev _

theorem swap_fontGroup (f : Option Font) : SwapAt cf s (fontGroup rec f) (fontGroup rec f) := by
  refine Swap.seq Swap.argument fun a _ => Swap.seq (by swap1) fun _ _ => ?_
  cases a with
  | token t => exact Swap.seq (hr t _) fun _ _ => by swap1
  | group g => exact Swap.seq (Swap.push) fun _ _ => by swap1

theorem swap_accent (c : Char) (b : Bool) : SwapAt cf s (accent rec c b) (accent rec c b) :=
  Swap.seq Swap.argument fun a _ => Swap.seq (Swap.ev _) fun _ _ => Swap.seq (swap_handleArgument hr a) fun _ _ => by swap1

theorem swap_underscript (c : Char) : SwapAt cf s (underscript rec c) (underscript rec c) :=
  Swap.seq Swap.argument fun a _ => Swap.seq (Swap.ev _) fun _ _ => Swap.seq (swap_handleArgument hr a) fun _ _ => by swap1

theorem swap_fractionLike (l r : Option Char) (bar : Option Dim) (style : Option Style) :
    SwapAt cf s (fractionLike rec l r bar style) (fractionLike rec l r bar style) := by
  unfold fractionLike
  cases style <;> dsimp only
  all_goals
    repeat' (first
      | swap1 | exact swap_handleArgument hr _ | refine Swap.ite Iff.rfl ?_ ?_ | apply Swap.seq | intro _)

theorem swap_scriptSwap {over : H HArg} (ho : ∀ s, SwapAt cf s over over) : SwapAt cf s (scriptSwap rec over) (scriptSwap rec over) := by
  refine Swap.get (Swap.seq (ho _) fun a _ => Swap.seq (swap_handleArgument hr a) fun _ _ => Swap.get ?_)
  exact Swap.seq (Swap.modify (fun _ => rfl) fun _ _ => rfl) fun _ _ => Swap.seq Swap.argument fun b _ => Swap.seq (swap_handleArgument hr b) fun _ _ => Swap.push

theorem swap_execPrim (p : Prim) : SwapAt cf s (execPrim cf rec p) (execPrim cf rec p) := by
  cases p
  all_goals unfold execPrim
  all_goals dsimp only
  case frac => exact swap_fractionLike hr _ _ _ _
  case fontGroup => exact swap_fontGroup hr _
  case text => exact swap_textArgument _
  case begin_ => exact swap_beginEnv
  case newcommand => exact swap_newCommand _
  case sized => exact swap_sizedDelim _
  case operatorname =>
    refine Swap.seq Swap.allowMods fun _ _ => Swap.seq Swap.argument fun a _ => ?_
    cases a with
    | token t => cases t <;> swap1
    | group g => swap1
  case pmod => exact Swap.seq Swap.argument fun a _ => Swap.seq (Swap.push) fun _ _ => Swap.seq (swap_handleArgument hr a) fun _ _ => by swap1
  case atom cls =>
    exact Swap.ite Iff.rfl (Swap.seq Swap.allowMods fun _ _ => Swap.seq (Swap.setPos _) fun _ _ => swap_atomGroup hr cls) (swap_atomGroup hr cls)
  case dots =>
    refine Swap.get ?_
    show SwapAt cf s (match trimStart s.1.content.cs with | c :: _ => _ | [] => _) _
    cases trimStart s.1.content.cs with
    | nil => swap1
    | cons c t => exact Swap.ite Iff.rfl (by swap1) (by swap1)
  case color => exact Swap.seq (swap_groupArg _) fun g _ => Swap.seq Swap.setSkip fun _ _ => Swap.seq (swap_colorOf _) fun c _ => by swap1
  case textcolor =>
    refine Swap.seq (swap_groupArg _) fun g _ => Swap.seq (swap_colorOf _) fun c _ => Swap.seq Swap.argument fun a _ => Swap.seq Swap.push fun _ _ =>
      Swap.seq (swap_handleArgument hr a) fun _ _ => Swap.ev _
  case colorbox =>
    refine Swap.seq (swap_groupArg _) fun g _ => Swap.seq (swap_colorOf _) fun c _ => Swap.seq Swap.push fun _ _ =>
      Swap.seq (swap_textArgument none) fun _ _ => Swap.ev _
  case fcolorbox =>
    refine Swap.seq (swap_groupArg _) fun g _ => Swap.seq (swap_groupArg _) fun g _ => Swap.seq (swap_colorOf _) fun c _ =>
      Swap.seq (swap_colorOf _) fun c _ => Swap.seq Swap.push fun _ _ => Swap.seq (swap_textArgument none) fun _ _ => Swap.ev _
  case left => exact Swap.seq swap_leftDelim fun o _ => Swap.seq (Swap.groupContent _) fun c _ => Swap.seq swap_leftDelim fun o _ => by swap1
  case accent =>
    exact Swap.ite Iff.rfl (Swap.seq (Swap.setPos _) fun _ _ => swap_accent hr _ _) (swap_accent hr _ _)
  case under =>
    exact Swap.ite Iff.rfl (Swap.seq (Swap.setPos _) fun _ _ => swap_underscript hr _) (swap_underscript hr _)
  case hspace => exact Swap.seq (swap_groupArg _) fun g _ => Swap.seq (Swap.onStr _ _) fun x _ => by swap1
  case space3 =>
    refine Swap.seq (swap_groupArg _) fun g _ => Swap.seq (Swap.onStr _ _) fun x _ => ?_
    refine Swap.seq (swap_groupArg _) fun g _ => Swap.seq (Swap.onStr _ _) fun x _ => ?_
    exact Swap.seq (swap_groupArg _) fun g _ => Swap.seq (Swap.onStr _ _) fun x _ => Swap.ev _
  case xarrow c =>
    refine Swap.seq Swap.optionalArgument fun b _ => Swap.seq Swap.argument fun a _ => ?_
    cases b with
    | none => exact Swap.seq (Swap.push) fun _ _ => swap_handleArgument hr a
    | some g => exact Swap.seq (Swap.push) fun _ _ => Swap.seq (swap_handleArgument hr (.group g)) fun _ _ => swap_handleArgument hr a
  case genfrac => exact Swap.seq swap_genfracDelim fun _ _ => Swap.seq swap_genfracDelim fun _ _ => Swap.seq swap_genfracBar fun _ _ => Swap.seq swap_genfracStyle fun _ _ =>
      swap_fractionLike hr _ _ _ _
  case overset => exact Swap.seq (Swap.ev _) fun _ _ => swap_scriptSwap hr fun _ => Swap.argument
  case buildrel => exact Swap.seq (Swap.contentWithSuffix _) fun o _ => Swap.seq (Swap.ev _) fun _ _ => swap_scriptSwap hr fun _ => Swap.argumentOf o
  case sideset => exact Swap.seq Swap.argument fun _ _ => Swap.seq Swap.argument fun _ _ => Swap.seq Swap.argument fun a _ => swap_handleArgument hr a
  case sqrt =>
    refine Swap.seq Swap.optionalArgument fun i _ => ?_
    cases i with
    | none => exact Swap.seq (Swap.ev _) fun _ _ => Swap.seq Swap.argument fun a _ => swap_handleArgument hr a
    | some g => exact Swap.seq (Swap.ev _) fun _ _ => Swap.seq Swap.argument fun a _ => Swap.seq (swap_handleArgument hr a) fun _ _ => by swap1
  case not_ => exact Swap.seq (Swap.ev _) fun _ _ => Swap.seq Swap.argument fun a _ => swap_handleArgument hr a
  case newline =>
    refine Swap.get ?_
    show SwapAt cf s (match s.1.align with | some a => _ | none => _) _
    cases s.1.align with
    | none => swap1
    | some a =>
      refine Swap.ite Iff.rfl (by swap1) (Swap.seq (Swap.set rfl rfl) fun _ _ => Swap.seq (Swap.seq Swap.optionalArgument fun o _ => ?_) fun _ _ =>
        Swap.seq (Swap.lexPure _) fun _ _ => by swap1)
      cases o with
      | none => swap1
      | some g => exact Swap.seq (Swap.onStr _ _) fun _ _ => by swap1
  case def_ =>
    refine Swap.seq (Swap.lex _) fun x _ => ?_
    obtain ⟨a, b, c⟩ := x
    exact Swap.seq Swap.setSkip fun _ _ => Swap.macros (swap_define _ _ _)
  case let_ =>
    refine Swap.seq (Swap.lex _) fun x _ => ?_
    obtain ⟨a, b⟩ := x
    exact Swap.seq Swap.setSkip fun _ _ => Swap.macros (swap_assign _ _)
  case futurelet =>
    refine Swap.seq (Swap.lex _) fun x _ => ?_
    exact Swap.seq (by swap1) fun _ _ => Swap.seq (Swap.macros (swap_assign _ _)) fun _ _ => by swap1
  all_goals swaps

omit hr
theorem swap_handleToken (n : Nat) : ∀ t s, SwapAt cf s (handleToken cf n t) (handleToken cf n t) := by
  induction n with
  | zero => intro t s; exact Swap.boom _
  | succ n ih =>
    intro t s
    cases t with
    | cs name => exact swap_execPrim ih _
    | chr c ctx => exact swap_handleChar c ctx

theorem swap_limits : SwapAt cf s limits limits := by
  refine Swap.get (Swap.ite Iff.rfl ?_ (by swap1))
  show SwapAt cf s (match limitModifiers s.1.content.cs with | (some true, rest) => _ | (some false, rest) => _ | (none, rest) => _) _
  obtain ⟨o, rest⟩ := limitModifiers s.1.content.cs
  cases o with
  | none => swap1
  | some b => cases b <;> swap1

theorem swap_scripts {rec : HTok → H PUnit} (hr : ∀ t s, SwapAt cf s (rec t) (rec t)) : SwapAt cf s (scripts rec) (scripts rec) := by
  refine Swap.get (Swap.ite Iff.rfl Swap.pure ?_)
  refine Swap.seq swap_limits fun _ _ => Swap.seq (Swap.modify (fun _ => rfl) fun _ _ => rfl) fun _ s => Swap.get ?_
  obtain ⟨⟨⟨src, stop, cs⟩, x2, x3, x4, x5, x6, x7, x8⟩, x9⟩ := s
  dsimp only [swapped]
  cases cs with
  | nil => exact Swap.pure
  | cons c rest =>
    refine Swap.ite Iff.rfl ?_ Swap.pure
    refine Swap.seq (Swap.set rfl rfl) fun _ _ => Swap.seq Swap.argument fun a _ => Swap.seq (swap_handleArgument hr a) fun _ s => Swap.get ?_
    refine Swap.ite Iff.rfl ?_ (Swap.ite Iff.rfl (Swap.fail _) (Swap.get Swap.pure))
    refine Swap.seq (Swap.set rfl rfl) fun _ _ => Swap.seq Swap.argument fun a _ => Swap.seq (swap_handleArgument hr a) fun _ t => Swap.get ?_
    show SwapAt cf t (match t.1.content.cs.head? with | some '_' => _ | some '^' => _ | _ => _) (match t.1.content.cs.head? with | some '_' => _ | some '^' => _ | _ => _)
    split
    · exact Swap.fail _
    · exact Swap.fail _
    · exact Swap.get Swap.pure

theorem swap_atom (t : HTok) : SwapAt cf s (atom cf t) (atom cf t) :=
  Swap.get (Swap.seq (swap_handleToken _ t _) fun _ _ => Swap.get (swap_scripts (swap_handleToken _)))

end
end PL
