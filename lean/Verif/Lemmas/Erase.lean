import Verif.Lemmas.Exec
set_option autoImplicit false
/-!
# Handlers do not depend on where their text is stored

`er` forgets the allocation and the offset of slices. Every handler commutes with it.
-/
namespace PL
open Lex

variable {cf : Cfg} {α β : Type}

/-- Forget where a slice is stored. -/
def Sl.er (s : Sl) : Sl := ⟨0, 0, s.cs⟩
def Instr.er : Instr → Instr
  | .ev e => .ev e
  | .sub s A => .sub s.er A
def HTok.er : HTok → HTok
  | .cs n => .cs n
  | .chr c s => .chr c s.er
def HArg.er : HArg → HArg
  | .token t => .token t.er
  | .group s => .group s.er
def HSt.er (s : HSt) : HSt := { s with content := s.content.er, buf := s.buf.map Instr.er }
def Res.mapBoth {σ : Type} (f : α → α) (g : σ → σ) : Res σ α → Res σ α
  | .ok a s => .ok (f a) (g s)
  | .err e s => .err e (g s)
  | .panic p => .panic p

theorem Sl.er_part (w : Sl) (g : Str) (n : Nat) (r : Str) : (w.part g n r).er = w.er.part g n r := by
  unfold Sl.part Sl.er
  simp
theorem HTok.er_ofTok (s : Sl) (t : Tok) : (HTok.ofTok s t).er = HTok.ofTok s.er t := by
  cases t <;> rfl
theorem HArg.er_ofArg (s : Sl) (r : Str) (a : Arg) : (HArg.ofArg s r a).er = HArg.ofArg s.er r a := by
  cases a with
  | token t => exact congrArg _ (HTok.er_ofTok s t)
  | group g => exact congrArg _ (Sl.er_part s g 1 r)

/-- `m'` on the erased state does what `m` does, up to erasure. -/
def Hom (e : α → α) (m' m : H α) : Prop := ∀ s, m' s.er = (m s).mapBoth e HSt.er

theorem Hom.bind {e : α → α} {e2 : β → β} {m' m : H α} {f' f : α → H β} (h : Hom e m' m) (hf : ∀ a, Hom e2 (f' (e a)) (f a)) :
    Hom e2 (m' >>= f') (m >>= f) := by
  intro s
  rw [M.run_bind, M.run_bind, h s]
  cases m s with
  | ok a s' => exact hf a s'
  | err e s' => rfl
  | panic p => rfl

theorem Hom.pure {e : α → α} {a a' : α} (h : a' = e a) : Hom e (Pure.pure a' : H α) (Pure.pure a) := by
  intro s; rw [h]; rfl
theorem Hom.fail {e : α → α} (k : ErrorKind) : Hom e (M.fail k : H α) (M.fail k) := fun _ => rfl
theorem Hom.boom {e : α → α} (p : Panic) : Hom e (M.boom p : H α) (M.boom p) := fun _ => rfl
theorem Hom.get : Hom HSt.er (M.get : H HSt) M.get := fun _ => rfl
theorem Hom.set {s s' : HSt} (h : s' = s.er) : Hom id (M.set s' : H PUnit) (M.set s) := by
  intro t; rw [h]; rfl
theorem Hom.modify {f' f : HSt → HSt} (h : ∀ s, f' s.er = (f s).er) : Hom id (M.modify f' : H PUnit) (M.modify f) := by
  intro t; simp only [M.run_modify, h]; rfl

theorem Hom.lex (m : L α) : Hom id (H.lex m) (H.lex m) := by
  intro s
  unfold H.lex
  show (match m s.content.cs with | .ok a r => _ | .err e r => _ | .panic p => _) = _
  cases m s.content.cs <;> rfl
theorem Hom.lexPure (m : Str → α × Str) : Hom id (H.lexPure m) (H.lexPure m) := Hom.lex _
theorem Hom.onStr (m : L α) (str : Str) : Hom id (H.onStr m str) (H.onStr m str) := by
  intro s
  unfold H.onStr
  cases m str <;> rfl
theorem Hom.argument : Hom HArg.er H.argument H.argument := by
  intro s
  unfold H.argument
  show (match Lex.argument s.content.cs with | .ok a r => _ | .err e r => _ | .panic p => _) = _
  cases Lex.argument s.content.cs with
  | ok a r => simp only [Res.mapBoth, HArg.er_ofArg]; rfl
  | err e r => rfl
  | panic p => rfl
theorem Hom.argumentOf (sl : Sl) : Hom HArg.er (H.argumentOf sl.er) (H.argumentOf sl) := by
  intro s
  unfold H.argumentOf
  show (match Lex.argument sl.cs with | .ok a r => _ | .err e r => _ | .panic p => _) = _
  cases Lex.argument sl.cs with
  | ok a r => simp only [Res.mapBoth, HArg.er_ofArg]
  | err e r => rfl
  | panic p => rfl
theorem Hom.groupContent (k : GroupingKind) : Hom Sl.er (H.groupContent k) (H.groupContent k) := by
  intro s
  unfold H.groupContent
  show (match Lex.groupContent k s.content.cs with | .ok a r => _ | .err e r => _ | .panic p => _) = _
  cases Lex.groupContent k s.content.cs with
  | ok a r => simp only [Res.mapBoth, Sl.er_part]; rfl
  | err e r => rfl
  | panic p => rfl
theorem Hom.braceArgument : Hom Sl.er H.braceArgument H.braceArgument := by
  intro s
  unfold H.braceArgument
  show (match Lex.braceArgument s.content.cs with | .ok a r => _ | .err e r => _ | .panic p => _) = _
  cases Lex.braceArgument s.content.cs with
  | ok a r => simp only [Res.mapBoth, Sl.er_part]; rfl
  | err e r => rfl
  | panic p => rfl
theorem Hom.contentWithSuffix (k : Str) : Hom Sl.er (H.contentWithSuffix k) (H.contentWithSuffix k) := by
  intro s
  unfold H.contentWithSuffix
  show (match Lex.contentWithSuffix k s.content.cs with | .ok a r => _ | .err e r => _ | .panic p => _) = _
  cases Lex.contentWithSuffix k s.content.cs with
  | ok a r => simp only [Res.mapBoth, Sl.er_part]; rfl
  | err e r => rfl
  | panic p => rfl
theorem Hom.optionalArgument : Hom (Option.map Sl.er) H.optionalArgument H.optionalArgument := by
  intro s
  unfold H.optionalArgument
  show (match Lex.optionalArgument s.content.cs with | .ok a r => _ | .err e r => _ | .panic p => _) = _
  cases Lex.optionalArgument s.content.cs with
  | ok a r =>
    cases a with
    | none => rfl
    | some g => simp only [Res.mapBoth, Option.map, Sl.er_part]; rfl
  | err e r => rfl
  | panic p => rfl
theorem Hom.macros (f : Macros.Ctx → Except (ErrorKind ⊕ Panic) Macros.Ctx) : Hom id (H.macros f) (H.macros f) := by
  intro s
  unfold H.macros
  show (match f s.macros with | .ok m => _ | .error (.inl e) => _ | .error (.inr p) => _) = _
  cases f s.macros with
  | ok m => rfl
  | error x => cases x <;> rfl
theorem Hom.push {is' is : List Instr} (h : is' = is.map Instr.er) : Hom id (H.push is') (H.push is) := by
  refine Hom.modify fun s => ?_
  simp [HSt.er, h]
theorem Hom.ev (e : Event) : Hom id (H.ev e) (H.ev e) := Hom.push rfl
theorem Hom.setContent {c' c : Sl} (h : c' = c.er) : Hom id (H.setContent c') (H.setContent c) :=
  Hom.modify fun s => by rw [h]; rfl
theorem Hom.allowMods : Hom id H.allowMods H.allowMods := Hom.modify fun _ => rfl
theorem Hom.setPos (p : ScriptPos) : Hom id (H.setPos p) (H.setPos p) := Hom.modify fun _ => rfl
theorem Hom.setSkip : Hom id H.setSkip H.setSkip := Hom.modify fun _ => rfl
theorem Hom.setHarg : Hom id H.setHarg H.setHarg := Hom.modify fun _ => rfl

theorem Hom.ite {e : α → α} {c c' : Prop} [Decidable c] [Decidable c'] (hc : c' ↔ c) {a a' b b' : H α} (h1 : Hom e a' a) (h2 : Hom e b' b) :
    Hom e (if c' then a' else b') (if c then a else b) := by
  by_cases h : c
  · rw [if_pos h, if_pos (hc.2 h)]; exact h1
  · rw [if_neg h, if_neg (fun x => h (hc.1 x))]; exact h2

/-- The basic steps. -/
macro "hom1" : tactic => `(tactic| first
  | exact Hom.fail _ | exact Hom.boom _ | exact Hom.ev _ | exact Hom.get | exact Hom.lex _ | exact Hom.lexPure _
  | exact Hom.onStr _ _ | exact Hom.argument | exact Hom.groupContent _ | exact Hom.braceArgument
  | exact Hom.contentWithSuffix _ | exact Hom.optionalArgument | exact Hom.macros _ | exact Hom.allowMods
  | exact Hom.setPos _ | exact Hom.setSkip | exact Hom.setHarg | exact Hom.argumentOf _
  | exact Hom.push rfl | exact Hom.setContent rfl | exact Hom.pure rfl | exact Hom.set rfl
  | exact Hom.modify (fun _ => rfl))

/-- Sequences of basic steps; arguments and recursive calls are left. -/
macro "homs" : tactic => `(tactic| repeat' (first
  | hom1 | assumption | refine Hom.ite Iff.rfl ?_ ?_ | apply Hom.bind | intro _))

section
variable {rec : HTok → H PUnit} (hr : ∀ t, Hom id (rec t.er) (rec t))

theorem hom_handleChar (c : Char) (ctx : Sl) : Hom id (handleChar c ctx.er) (handleChar c ctx) := by
  unfold handleChar
  refine Hom.bind Hom.get fun st => ?_
  refine Hom.ite Iff.rfl (by hom1) (Hom.ite Iff.rfl (Hom.ite Iff.rfl (by hom1) ?_) ?_)
  · homs
  refine Hom.ite Iff.rfl (by hom1) (Hom.ite Iff.rfl (by hom1) (Hom.ite Iff.rfl ?_ (Hom.ite Iff.rfl ?_ ?_)))
  · show Hom id (match st.align with | some a => _ | none => _) _
    cases st.align with
    | none => hom1
    | some a => exact Hom.ite Iff.rfl (Hom.bind (by hom1) fun _ => by hom1) (by hom1)
  · homs
  refine Hom.ite Iff.rfl (by hom1) (Hom.ite Iff.rfl (by hom1) (Hom.ite Iff.rfl ?_ ?_))
  · exact Hom.bind (Hom.setContent rfl) fun _ => Hom.ev _
  · hom1

theorem hom_groupArg (e : ErrorKind) : Hom Sl.er (groupArg e) (groupArg e) := by
  refine Hom.bind Hom.argument fun a => ?_
  cases a <;> hom1

theorem hom_colorOf (s : Str) : Hom id (colorOf s) (colorOf s) := by
  unfold colorOf
  cases Lex.color s <;> hom1

theorem singleChar_er (a : HArg) : singleChar a.er = singleChar a := by
  cases a with
  | token t => cases t <;> rfl
  | group g => rfl

theorem hom_textArgument (f : Option Font) : Hom id (textArgument f) (textArgument f) := by
  refine Hom.bind (e := id) (Hom.bind Hom.argument fun a => ?_) fun t => ?_
  · cases a with
    | token t => cases t <;> hom1
    | group g => hom1
  · cases f <;> hom1

theorem hom_sizedDelim (size : DelimSize) : Hom id (sizedDelim size) (sizedDelim size) := by
  unfold sizedDelim; homs

theorem hom_arrayEnvironment : Hom id (arrayEnvironment cf) (arrayEnvironment cf) := by
  refine Hom.bind (hom_groupArg _) fun g => ?_
  show Hom id (match columns cf 0 g.cs with | .error (.inl e) => _ | .error (.inr p) => _ | .ok (cols, n) => _) _
  cases columns cf 0 g.cs with
  | error x => cases x <;> hom1
  | ok x => exact Hom.ite Iff.rfl (by hom1) (by hom1)

theorem hom_optionalAlignment : Hom id optionalAlignment optionalAlignment := by
  refine Hom.bind Hom.optionalArgument fun g => ?_
  cases g with
  | none => hom1
  | some g => exact Hom.ite Iff.rfl (by hom1) (Hom.ite Iff.rfl (by hom1) (Hom.ite Iff.rfl (by hom1) (by hom1)))

theorem hom_newCommand (should : Option Bool) : Hom id (newCommand should) (newCommand should) := by
  refine Hom.bind Hom.braceArgument fun g => Hom.bind (Hom.onStr _ _) fun cs => Hom.bind Hom.get fun st => Hom.ite Iff.rfl (by hom1) ?_
  refine Hom.bind Hom.optionalArgument fun n => ?_
  cases n with
  | none => hom1
  | some n =>
    dsimp only [Option.map, Sl.er]
    cases parseU8 n.cs with
    | none => hom1
    | some k =>
      refine Hom.bind Hom.optionalArgument fun d => Hom.ite Iff.rfl (by hom1) (Hom.bind Hom.braceArgument fun r => Hom.bind Hom.get fun st => ?_)
      refine Hom.ite Iff.rfl (by hom1) ?_
      cases d <;> hom1

theorem hom_genfracDelim : Hom id genfracDelim genfracDelim := by
  refine Hom.bind Hom.argument fun a => ?_
  cases a with
  | token t =>
    cases t with
    | cs n =>
      dsimp only [HArg.er, HTok.er]
      cases controlSequenceDelimiterMap n <;> hom1
    | chr c x =>
      dsimp only [HArg.er, HTok.er]
      cases charDelimiterMap c <;> hom1
  | group g => exact Hom.ite Iff.rfl (by hom1) (by hom1)

theorem hom_genfracBar : Hom id genfracBar genfracBar := by
  refine Hom.bind Hom.argument fun a => ?_
  cases a with
  | token t => hom1
  | group g => exact Hom.ite Iff.rfl (by hom1) (Hom.bind (Hom.onStr _ _) fun x => Hom.ite Iff.rfl (by hom1) (by hom1))

theorem hom_genfracStyle : Hom id genfracStyle genfracStyle := by
  refine Hom.bind Hom.argument fun a => ?_
  have key : ∀ c, Hom id (match styleOf c with | some s => (pure (some s) : H (Option Style)) | none => M.fail .argument)
      (match styleOf c with | some s => (pure (some s) : H (Option Style)) | none => M.fail .argument) := by
    intro c
    cases styleOf c <;> hom1
  cases a with
  | token t =>
    cases t with
    | cs n => hom1
    | chr c x => exact key c
  | group g =>
    obtain ⟨a, b, cs⟩ := g
    match cs with
    | [] => hom1
    | [c] => exact key c
    | _ :: _ :: _ => hom1

theorem hom_pairsArg : Hom id (pairsArg cf) (pairsArg cf) :=
  Hom.bind (hom_groupArg _) fun g => Hom.bind (Hom.onStr _ _) fun n => by hom1

theorem hom_pairsMax (n : Nat) : Hom id (pairsMax cf n) (pairsMax cf n) :=
  Hom.ite Iff.rfl (by hom1) (Hom.ite Iff.rfl (by hom1) (by hom1))

theorem hom_subarrayAlign : Hom id subarrayAlign subarrayAlign := by
  refine Hom.bind Hom.argument fun a => ?_
  cases a with
  | token t => hom1
  | group g => exact Hom.ite Iff.rfl (by hom1) (Hom.ite Iff.rfl (by hom1) (Hom.ite Iff.rfl (by hom1) (by hom1)))

theorem hom_matrixEnv (ty : MatrixType) (spec : Bool) (style : Option Style) (wrap : Option (Char × Char)) :
    Hom id (matrixEnv ty spec style wrap) (matrixEnv ty spec style wrap) := by
  cases spec with
  | false => exact Hom.bind (e := id) (Hom.pure rfl) fun _ => by hom1
  | true => exact Hom.bind hom_optionalAlignment fun _ => by hom1

theorem hom_alignatEnv (g : Nat → Grouping) (k : GroupingKind) : Hom id (alignatEnv cf g k) (alignatEnv cf g k) :=
  Hom.bind hom_pairsArg fun n => Hom.bind (hom_pairsMax n) fun _ => by hom1

theorem hom_environments : ∀ x ∈ environments cf, Hom id x.2 x.2 := by
  unfold environments
  simp only [List.forall_mem_cons]
  refine ⟨Hom.bind hom_arrayEnvironment fun _ => by hom1, Hom.bind hom_arrayEnvironment fun _ => by hom1, ?_⟩
  refine ⟨hom_matrixEnv _ _ _ _, hom_matrixEnv _ _ _ _, hom_matrixEnv _ _ _ _, hom_matrixEnv _ _ _ _, hom_matrixEnv _ _ _ _,
    hom_matrixEnv _ _ _ _, hom_matrixEnv _ _ _ _, hom_matrixEnv _ _ _ _, hom_matrixEnv _ _ _ _, hom_matrixEnv _ _ _ _,
    hom_matrixEnv _ _ _ _, hom_matrixEnv _ _ _ _, hom_matrixEnv _ _ _ _, ?_⟩
  refine ⟨by hom1, by hom1, by hom1, by hom1, by hom1, by hom1, by hom1, by hom1, by hom1, by hom1, by hom1, by hom1, ?_⟩
  refine ⟨hom_alignatEnv _ _, hom_alignatEnv _ _, hom_alignatEnv _ _, Hom.bind hom_subarrayAlign fun _ => by hom1, by hom1, by hom1, ?_⟩
  intro x hx; cases hx

theorem lookup_mem_gen {γ : Type} {l : List (Str × γ)} {k : Str} {v : γ} (h : l.lookup k = some v) : (k, v) ∈ l := by
  induction l with
  | nil => cases h
  | cons x l ih =>
    obtain ⟨a, b⟩ := x
    rw [List.lookup_cons] at h
    split at h
    · rename_i he
      have := eq_of_beq he
      cases h; rw [this]; exact List.mem_cons_self
    · exact List.mem_cons_of_mem _ (ih h)

theorem hom_beginEnv : Hom id (beginEnv cf) (beginEnv cf) := by
  refine Hom.bind (hom_groupArg _) fun g => ?_
  show Hom id (match (environments cf).lookup g.cs with | none => _ | some m => _) _
  cases h : (environments cf).lookup g.cs with
  | none => hom1
  | some m =>
    refine Hom.bind (hom_environments _ (lookup_mem_gen h)) fun env => ?_
    obtain ⟨gg, mx, k, style, wrap⟩ := env
    have tail : ∀ lines : List Line, ∀ c : Sl, Hom id
        (H.push ([.ev (.begin_ gg)] ++
        (match style with
          | some s => [.ev (.stateChange (.style s))]
          | none => []) ++
        (if lines.isEmpty then [] else [.ev (.flow (.startLines lines))]) ++
        [.sub c.er (some ⟨0, mx⟩), .ev .end_] ++
        (if wrap.isSome then [.ev .end_] else [])))
        (H.push ([.ev (.begin_ gg)] ++
        (match style with
          | some s => [.ev (.stateChange (.style s))]
          | none => []) ++
        (if lines.isEmpty then [] else [.ev (.flow (.startLines lines))]) ++
        [.sub c (some ⟨0, mx⟩), .ev .end_] ++
        (if wrap.isSome then [.ev .end_] else []))) := by
      intro lines c
      refine Hom.push ?_
      cases style <;> cases lines <;> cases wrap <;> rfl
    cases wrap with
    | none => exact Hom.bind (Hom.lexPure _) fun l => Hom.bind (Hom.groupContent _) fun c => tail l c
    | some w =>
      obtain ⟨a, b⟩ := w
      exact Hom.bind (Hom.ev _) fun _ => Hom.bind (Hom.lexPure _) fun l => Hom.bind (Hom.groupContent _) fun c => tail l c

theorem hom_leftDelim : Hom id leftDelim leftDelim := by
  refine Hom.bind Hom.get fun st => ?_
  have key : Hom id (do let (c, _) ← H.lex delimiter; return some c : H (Option Char)) (do let (c, _) ← H.lex delimiter; return some c) :=
    Hom.bind (Hom.lex _) fun x => by hom1
  obtain ⟨⟨a, b, cs⟩, x2, x3, x4, x5, x6, x7, x8⟩ := st
  show Hom id (match cs with | '.' :: rest => _ | _ => _) (match cs with | '.' :: rest => _ | _ => _)
  split
  · exact Hom.bind (by hom1) fun _ => by hom1
  · exact key

include hr

theorem hom_handleArgument (a : HArg) : Hom id (handleArgument rec a.er) (handleArgument rec a) := by
  cases a with
  | token t => exact Hom.bind (by hom1) fun _ => hr t
  | group g => exact Hom.push rfl

theorem hom_atomGroup (cls : AtomClass) : Hom id (atomGroup rec cls) (atomGroup rec cls) := by
  refine Hom.bind Hom.argument fun a => ?_
  rw [singleChar_er]
  cases singleChar a with
  | some c => hom1
  | none =>
    have key : Hom id (do H.ev (.begin_ .normal); handleArgument rec a.er; H.ev .end_)
        (do H.ev (.begin_ .normal); handleArgument rec a; H.ev .end_) :=
      Hom.bind (by hom1) fun _ => Hom.bind (hom_handleArgument hr a) fun _ => by hom1
    cases cls <;> cases a <;> first | exact key | exact Hom.ev _

theorem hom_fontGroup (f : Option Font) : Hom id (fontGroup rec f) (fontGroup rec f) := by
  refine Hom.bind Hom.argument fun a => Hom.bind (by hom1) fun _ => ?_
  cases a with
  | token t => exact Hom.bind (hr t) fun _ => by hom1
  | group g => exact Hom.bind (Hom.push rfl) fun _ => by hom1

theorem hom_accent (c : Char) (b : Bool) : Hom id (accent rec c b) (accent rec c b) :=
  Hom.bind Hom.argument fun a => Hom.bind (Hom.ev _) fun _ => Hom.bind (hom_handleArgument hr a) fun _ => by hom1

theorem hom_underscript (c : Char) : Hom id (underscript rec c) (underscript rec c) :=
  Hom.bind Hom.argument fun a => Hom.bind (Hom.ev _) fun _ => Hom.bind (hom_handleArgument hr a) fun _ => by hom1

theorem hom_fractionLike (l r : Option Char) (bar : Option Dim) (style : Option Style) :
    Hom id (fractionLike rec l r bar style) (fractionLike rec l r bar style) := by
  unfold fractionLike
  cases style <;> dsimp only
  all_goals
    repeat' (first
      | hom1 | exact hom_handleArgument hr _ | refine Hom.ite Iff.rfl ?_ ?_ | apply Hom.bind | intro _)

theorem hom_scriptSwap {over' over : H HArg} (ho : Hom HArg.er over' over) : Hom id (scriptSwap rec over') (scriptSwap rec over) := by
  refine Hom.bind Hom.get fun st => Hom.bind ho fun a => Hom.bind (hom_handleArgument hr a) fun _ => Hom.bind Hom.get fun st2 => ?_
  refine Hom.bind (Hom.modify fun s => ?_) fun _ => Hom.bind Hom.argument fun b => Hom.bind (hom_handleArgument hr b) fun _ => Hom.push ?_
  · simp [HSt.er, List.map_take]
  · simp [HSt.er, List.map_drop]

theorem hom_execPrim (p : Prim) : Hom id (execPrim cf rec p) (execPrim cf rec p) := by
  cases p
  all_goals unfold execPrim
  all_goals dsimp only
  case frac => exact hom_fractionLike hr _ _ _ _
  case fontGroup => exact hom_fontGroup hr _
  case text => exact hom_textArgument _
  case begin_ => exact hom_beginEnv
  case newcommand => exact hom_newCommand _
  case sized => exact hom_sizedDelim _
  case operatorname =>
    refine Hom.bind Hom.allowMods fun _ => Hom.bind Hom.argument fun a => ?_
    cases a with
    | token t => cases t <;> hom1
    | group g => hom1
  case pmod => exact Hom.bind Hom.argument fun a => Hom.bind (Hom.push rfl) fun _ => Hom.bind (hom_handleArgument hr a) fun _ => by hom1
  case atom cls =>
    exact Hom.ite Iff.rfl (Hom.bind Hom.allowMods fun _ => Hom.bind (Hom.setPos _) fun _ => hom_atomGroup hr cls) (hom_atomGroup hr cls)
  case dots =>
    refine Hom.bind Hom.get fun st => ?_
    show Hom id (match trimStart st.content.cs with | c :: _ => _ | [] => _) _
    cases trimStart st.content.cs with
    | nil => hom1
    | cons c t => exact Hom.ite Iff.rfl (by hom1) (by hom1)
  case color => exact Hom.bind (hom_groupArg _) fun g => Hom.bind Hom.setSkip fun _ => Hom.bind (hom_colorOf _) fun c => by hom1
  case textcolor =>
    refine Hom.bind (hom_groupArg _) fun g => Hom.bind (hom_colorOf _) fun c => Hom.bind Hom.argument fun a => Hom.bind (Hom.push ?_) fun _ =>
      Hom.bind (hom_handleArgument hr a) fun _ => Hom.ev _
    rfl
  case colorbox =>
    refine Hom.bind (hom_groupArg _) fun g => Hom.bind (hom_colorOf _) fun c => Hom.bind (Hom.push ?_) fun _ =>
      Hom.bind (hom_textArgument none) fun _ => Hom.ev _
    rfl
  case fcolorbox =>
    refine Hom.bind (hom_groupArg _) fun g => Hom.bind (hom_groupArg _) fun g => Hom.bind (hom_colorOf _) fun c =>
      Hom.bind (hom_colorOf _) fun c => Hom.bind (Hom.push ?_) fun _ => Hom.bind (hom_textArgument none) fun _ => Hom.ev _
    rfl
  case left => exact Hom.bind hom_leftDelim fun o => Hom.bind (Hom.groupContent _) fun c => Hom.bind hom_leftDelim fun o => by hom1
  case accent =>
    exact Hom.ite Iff.rfl (Hom.bind (Hom.setPos _) fun _ => hom_accent hr _ _) (hom_accent hr _ _)
  case under =>
    exact Hom.ite Iff.rfl (Hom.bind (Hom.setPos _) fun _ => hom_underscript hr _) (hom_underscript hr _)
  case hspace => exact Hom.bind (hom_groupArg _) fun g => Hom.bind (Hom.onStr _ _) fun x => by hom1
  case space3 =>
    refine Hom.bind (hom_groupArg _) fun g => Hom.bind (Hom.onStr _ _) fun x => ?_
    refine Hom.bind (hom_groupArg _) fun g => Hom.bind (Hom.onStr _ _) fun x => ?_
    exact Hom.bind (hom_groupArg _) fun g => Hom.bind (Hom.onStr _ _) fun x => Hom.ev _
  case xarrow c =>
    refine Hom.bind Hom.optionalArgument fun b => Hom.bind Hom.argument fun a => ?_
    cases b with
    | none => exact Hom.bind (Hom.push rfl) fun _ => hom_handleArgument hr a
    | some g => exact Hom.bind (Hom.push rfl) fun _ => Hom.bind (hom_handleArgument hr (.group g)) fun _ => hom_handleArgument hr a
  case genfrac => exact Hom.bind hom_genfracDelim fun _ => Hom.bind hom_genfracDelim fun _ => Hom.bind hom_genfracBar fun _ => Hom.bind hom_genfracStyle fun _ =>
      hom_fractionLike hr _ _ _ _
  case overset => exact Hom.bind (Hom.ev _) fun _ => hom_scriptSwap hr Hom.argument
  case buildrel => exact Hom.bind (Hom.contentWithSuffix _) fun o => Hom.bind (Hom.ev _) fun _ => hom_scriptSwap hr (Hom.argumentOf o)
  case sideset => exact Hom.bind Hom.argument fun _ => Hom.bind Hom.argument fun _ => Hom.bind Hom.argument fun a => hom_handleArgument hr a
  case sqrt =>
    refine Hom.bind Hom.optionalArgument fun i => ?_
    cases i with
    | none => exact Hom.bind (Hom.ev _) fun _ => Hom.bind Hom.argument fun a => hom_handleArgument hr a
    | some g => exact Hom.bind (Hom.ev _) fun _ => Hom.bind Hom.argument fun a => Hom.bind (hom_handleArgument hr a) fun _ => by hom1
  case not_ => exact Hom.bind (Hom.ev _) fun _ => Hom.bind Hom.argument fun a => hom_handleArgument hr a
  case newline =>
    refine Hom.bind Hom.get fun st => ?_
    show Hom id (match st.align with | some a => _ | none => _) _
    cases st.align with
    | none => hom1
    | some a =>
      refine Hom.ite Iff.rfl (by hom1) (Hom.bind (Hom.set rfl) fun _ => Hom.bind (e := id) (Hom.bind Hom.optionalArgument fun o => ?_) fun _ =>
        Hom.bind (Hom.lexPure _) fun _ => by hom1)
      cases o with
      | none => hom1
      | some g => exact Hom.bind (Hom.onStr _ _) fun _ => by hom1
  all_goals homs

omit hr
theorem hom_handleToken (n : Nat) : ∀ t : HTok, Hom id (handleToken cf n t.er) (handleToken cf n t) := by
  induction n with
  | zero => intro t; exact Hom.boom _
  | succ n ih =>
    intro t
    cases t with
    | cs name => exact hom_execPrim ih _
    | chr c ctx => exact hom_handleChar c ctx

theorem hom_limits : Hom id limits limits := by
  refine Hom.bind Hom.get fun st => Hom.ite Iff.rfl ?_ (by hom1)
  show Hom id (match limitModifiers st.content.cs with | (some true, rest) => _ | (some false, rest) => _ | (none, rest) => _) _
  obtain ⟨o, rest⟩ := limitModifiers st.content.cs
  cases o with
  | none => hom1
  | some b => cases b <;> hom1


theorem hom_scripts {rec : HTok → H PUnit} (hr : ∀ t, Hom id (rec t.er) (rec t)) : Hom id (scripts rec) (scripts rec) := by
  refine Hom.bind Hom.get fun st => Hom.ite Iff.rfl (Hom.pure rfl) ?_
  refine Hom.bind hom_limits fun _ => Hom.bind (Hom.modify fun _ => rfl) fun _ => Hom.bind Hom.get fun s => ?_
  obtain ⟨⟨src, stop, cs⟩, x2, x3, x4, x5, x6, x7, x8⟩ := s
  dsimp only [HSt.er, Sl.er]
  cases cs with
  | nil => exact Hom.pure rfl
  | cons c rest =>
    refine Hom.ite Iff.rfl ?_ (Hom.pure rfl)
    refine Hom.bind (Hom.set rfl) fun _ => Hom.bind Hom.argument fun a => Hom.bind (hom_handleArgument hr a) fun _ => Hom.bind Hom.get fun s => ?_
    have last : Hom id (do
        let s' ← M.get
        return some ⟨.script (if s.buf.length = s'.buf.length then (if (decide (c = '_')) = true then .sub else .sup) else .subSup) s'.pos,
          if decide (c = '_') = true then x2.length else s.buf.length, if decide (c = '_') = true then s.buf.length else x2.length⟩ : H (Option Desc))
        (do
        let s' ← M.get
        return some ⟨.script (if s.buf.length = s'.buf.length then (if (decide (c = '_')) = true then .sub else .sup) else .subSup) s'.pos,
          if decide (c = '_') = true then x2.length else s.buf.length, if decide (c = '_') = true then s.buf.length else x2.length⟩) := by
      refine Hom.bind Hom.get fun s' => Hom.pure ?_
      simp [HSt.er]
    have e1 : (HSt.er s).buf.length = s.buf.length := by simp [HSt.er]
    have e2 : (x2.map Instr.er).length = x2.length := by simp
    simp only [e1, e2]
    refine Hom.ite Iff.rfl ?_ (Hom.ite Iff.rfl (Hom.fail _) last)
    refine Hom.bind (Hom.set rfl) fun _ => Hom.bind Hom.argument fun a => Hom.bind (hom_handleArgument hr a) fun _ => Hom.bind Hom.get fun t => ?_
    show Hom id (match t.content.cs.head? with | some '_' => _ | some '^' => _ | _ => _) (match t.content.cs.head? with | some '_' => _ | some '^' => _ | _ => _)
    split
    · exact Hom.fail _
    · exact Hom.fail _
    · exact last

theorem hom_atom (t : HTok) : Hom id (atom cf t.er) (atom cf t) :=
  Hom.bind Hom.get fun _ => Hom.bind (hom_handleToken _ t) fun _ => Hom.bind Hom.get fun _ => hom_scripts (hom_handleToken _)

end
end PL
