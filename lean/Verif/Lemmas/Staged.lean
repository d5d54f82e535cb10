import Verif.Lemmas.Erase
set_option autoImplicit false
/-!
# Handlers only add to what is staged

`pre b` puts instructions in front of those that are staged. Every handler commutes with it.
-/
namespace PL
open Lex

variable {cf : Cfg} {α β : Type} {pb : List Instr}

/-- More instructions staged before the others. -/
def HSt.pre (pb : List Instr) (s : HSt) : HSt := { s with buf := pb ++ s.buf }

/-- `m'` on the state with more staged does what `m` does, up to what is staged before. -/
def Adds (pb : List Instr) (e : α → α) (m' m : H α) : Prop := ∀ s, m' (s.pre pb) = (m s).mapBoth e (HSt.pre pb)

theorem Adds.bind {e : α → α} {e2 : β → β} {m' m : H α} {f' f : α → H β} (h : Adds pb e m' m) (hf : ∀ a, Adds pb e2 (f' (e a)) (f a)) :
    Adds pb e2 (m' >>= f') (m >>= f) := by
  intro s
  rw [M.run_bind, M.run_bind, h s]
  cases m s with
  | ok a s' => exact hf a s'
  | err e s' => rfl
  | panic p => rfl

theorem Adds.pure {e : α → α} {a a' : α} (h : a' = e a) : Adds pb e (Pure.pure a' : H α) (Pure.pure a) := by
  intro s; rw [h]; rfl
theorem Adds.fail {e : α → α} (k : ErrorKind) : Adds pb e (M.fail k : H α) (M.fail k) := fun _ => rfl
theorem Adds.boom {e : α → α} (p : Panic) : Adds pb e (M.boom p : H α) (M.boom p) := fun _ => rfl
theorem Adds.get : Adds pb (HSt.pre pb) (M.get : H HSt) M.get := fun _ => rfl
theorem Adds.set {s s' : HSt} (h : s' = s.pre pb) : Adds pb id (M.set s' : H PUnit) (M.set s) := by
  intro t; rw [h]; rfl
theorem Adds.modify {f' f : HSt → HSt} (h : ∀ s, f' (s.pre pb) = (f s).pre pb) : Adds pb id (M.modify f' : H PUnit) (M.modify f) := by
  intro t; simp only [M.run_modify, h]; rfl

theorem Adds.lex (m : L α) : Adds pb id (H.lex m) (H.lex m) := by
  intro s
  unfold H.lex
  show (match m s.content.cs with | .ok a r => _ | .err e r => _ | .panic p => _) = _
  cases m s.content.cs <;> rfl
theorem Adds.lexPure (m : Str → α × Str) : Adds pb id (H.lexPure m) (H.lexPure m) := Adds.lex _
theorem Adds.onStr (m : L α) (str : Str) : Adds pb id (H.onStr m str) (H.onStr m str) := by
  intro s
  unfold H.onStr
  cases m str <;> rfl
theorem Adds.argument : Adds pb id H.argument H.argument := by
  intro s
  unfold H.argument
  show (match Lex.argument s.content.cs with | .ok a r => _ | .err e r => _ | .panic p => _) = _
  cases Lex.argument s.content.cs with
  | ok a r => simp only [Res.mapBoth, id]; rfl
  | err e r => rfl
  | panic p => rfl
theorem Adds.argumentOf (sl : Sl) : Adds pb id (H.argumentOf sl) (H.argumentOf sl) := by
  intro s
  unfold H.argumentOf
  show (match Lex.argument sl.cs with | .ok a r => _ | .err e r => _ | .panic p => _) = _
  cases Lex.argument sl.cs with
  | ok a r => simp only [Res.mapBoth, id]
  | err e r => rfl
  | panic p => rfl
theorem Adds.groupContent (k : GroupingKind) : Adds pb id (H.groupContent k) (H.groupContent k) := by
  intro s
  unfold H.groupContent
  show (match Lex.groupContent k s.content.cs with | .ok a r => _ | .err e r => _ | .panic p => _) = _
  cases Lex.groupContent k s.content.cs with
  | ok a r => simp only [Res.mapBoth, id]; rfl
  | err e r => rfl
  | panic p => rfl
theorem Adds.braceArgument : Adds pb id H.braceArgument H.braceArgument := by
  intro s
  unfold H.braceArgument
  show (match Lex.braceArgument s.content.cs with | .ok a r => _ | .err e r => _ | .panic p => _) = _
  cases Lex.braceArgument s.content.cs with
  | ok a r => simp only [Res.mapBoth, id]; rfl
  | err e r => rfl
  | panic p => rfl
theorem Adds.contentWithSuffix (k : Str) : Adds pb id (H.contentWithSuffix k) (H.contentWithSuffix k) := by
  intro s
  unfold H.contentWithSuffix
  show (match Lex.contentWithSuffix k s.content.cs with | .ok a r => _ | .err e r => _ | .panic p => _) = _
  cases Lex.contentWithSuffix k s.content.cs with
  | ok a r => simp only [Res.mapBoth, id]; rfl
  | err e r => rfl
  | panic p => rfl
theorem Adds.optionalArgument : Adds pb (Option.map id) H.optionalArgument H.optionalArgument := by
  intro s
  unfold H.optionalArgument
  show (match Lex.optionalArgument s.content.cs with | .ok a r => _ | .err e r => _ | .panic p => _) = _
  cases Lex.optionalArgument s.content.cs with
  | ok a r =>
    cases a with
    | none => rfl
    | some g => simp only [Res.mapBoth, Option.map, id]; rfl
  | err e r => rfl
  | panic p => rfl
theorem Adds.macros (f : Macros.Ctx → Except (ErrorKind ⊕ Panic) Macros.Ctx) : Adds pb id (H.macros f) (H.macros f) := by
  intro s
  unfold H.macros
  show (match f s.macros with | .ok m => _ | .error (.inl e) => _ | .error (.inr p) => _) = _
  cases f s.macros with
  | ok m => rfl
  | error x => cases x <;> rfl
theorem Adds.push {is' is : List Instr} (h : is' = is.map id) : Adds pb id (H.push is') (H.push is) := by
  refine Adds.modify fun s => ?_
  simp [HSt.pre, h]
theorem Adds.ev (e : Event) : Adds pb id (H.ev e) (H.ev e) := Adds.push rfl
theorem Adds.setContent {c' c : Sl} (h : c' = c) : Adds pb id (H.setContent c') (H.setContent c) :=
  Adds.modify fun s => by rw [h]; rfl
theorem Adds.allowMods : Adds pb id H.allowMods H.allowMods := Adds.modify fun _ => rfl
theorem Adds.setPos (p : ScriptPos) : Adds pb id (H.setPos p) (H.setPos p) := Adds.modify fun _ => rfl
theorem Adds.setSkip : Adds pb id H.setSkip H.setSkip := Adds.modify fun _ => rfl
theorem Adds.setHarg : Adds pb id H.setHarg H.setHarg := Adds.modify fun _ => rfl

theorem Adds.ite {e : α → α} {c c' : Prop} [Decidable c] [Decidable c'] (hc : c' ↔ c) {a a' b b' : H α} (h1 : Adds pb e a' a) (h2 : Adds pb e b' b) :
    Adds pb e (if c' then a' else b') (if c then a else b) := by
  by_cases h : c
  · rw [if_pos h, if_pos (hc.2 h)]; exact h1
  · rw [if_neg h, if_neg (fun x => h (hc.1 x))]; exact h2

/-- The basic steps. -/
macro "adds1" : tactic => `(tactic| first
  | exact Adds.fail _ | exact Adds.boom _ | exact Adds.ev _ | exact Adds.get | exact Adds.lex _ | exact Adds.lexPure _
  | exact Adds.onStr _ _ | exact Adds.argument | exact Adds.groupContent _ | exact Adds.braceArgument
  | exact Adds.contentWithSuffix _ | exact Adds.optionalArgument | exact Adds.macros _ | exact Adds.allowMods
  | exact Adds.setPos _ | exact Adds.setSkip | exact Adds.setHarg | exact Adds.argumentOf _
  | exact Adds.push rfl | exact Adds.setContent rfl | exact Adds.pure rfl | exact Adds.set rfl
  | exact Adds.modify (fun _ => rfl))

/-- Sequences of basic steps; arguments and recursive calls are left. -/
macro "addss" : tactic => `(tactic| repeat' (first
  | adds1 | assumption | refine Adds.ite Iff.rfl ?_ ?_ | apply Adds.bind | intro _))

section
variable {rec : HTok → H PUnit} (hr : ∀ t, Adds pb id (rec t) (rec t))

theorem adds_handleChar (c : Char) (ctx : Sl) : Adds pb id (handleChar c ctx) (handleChar c ctx) := by
  unfold handleChar
  refine Adds.bind Adds.get fun st => ?_
  refine Adds.ite Iff.rfl (by adds1) (Adds.ite Iff.rfl (Adds.ite Iff.rfl (by adds1) ?_) ?_)
  · addss
  refine Adds.ite Iff.rfl (by adds1) (Adds.ite Iff.rfl (by adds1) (Adds.ite Iff.rfl ?_ (Adds.ite Iff.rfl ?_ ?_)))
  · show Adds pb id (match st.align with | some a => _ | none => _) _
    cases st.align with
    | none => adds1
    | some a => exact Adds.ite Iff.rfl (Adds.bind (by adds1) fun _ => by adds1) (by adds1)
  · addss
  refine Adds.ite Iff.rfl (by adds1) (Adds.ite Iff.rfl (by adds1) (Adds.ite Iff.rfl ?_ ?_))
  · exact Adds.bind (Adds.setContent rfl) fun _ => Adds.ev _
  · adds1

theorem adds_groupArg (e : ErrorKind) : Adds pb id (groupArg e) (groupArg e) := by
  refine Adds.bind Adds.argument fun a => ?_
  cases a <;> adds1

theorem adds_colorOf (s : Str) : Adds pb id (colorOf s) (colorOf s) := by
  unfold colorOf
  cases Lex.color s <;> adds1

theorem adds_textArgument (f : Option Font) : Adds pb id (textArgument f) (textArgument f) := by
  refine Adds.bind (e := id) (Adds.bind Adds.argument fun a => ?_) fun t => ?_
  · cases a with
    | token t => cases t <;> adds1
    | group g => adds1
  · cases f <;> adds1

theorem adds_sizedDelim (size : DelimSize) : Adds pb id (sizedDelim size) (sizedDelim size) := by
  unfold sizedDelim; addss

theorem adds_arrayEnvironment : Adds pb id (arrayEnvironment cf) (arrayEnvironment cf) := by
  refine Adds.bind (adds_groupArg _) fun g => ?_
  show Adds pb id (match columns cf 0 g.cs with | .error (.inl e) => _ | .error (.inr p) => _ | .ok (cols, n) => _) _
  cases columns cf 0 g.cs with
  | error x => cases x <;> adds1
  | ok x => exact Adds.ite Iff.rfl (by adds1) (by adds1)

theorem adds_optionalAlignment : Adds pb id optionalAlignment optionalAlignment := by
  refine Adds.bind Adds.optionalArgument fun g => ?_
  cases g with
  | none => adds1
  | some g => exact Adds.ite Iff.rfl (by adds1) (Adds.ite Iff.rfl (by adds1) (Adds.ite Iff.rfl (by adds1) (by adds1)))

theorem adds_newCommand (should : Option Bool) : Adds pb id (newCommand should) (newCommand should) := by
  refine Adds.bind Adds.braceArgument fun g => Adds.bind (Adds.onStr _ _) fun cs => Adds.bind Adds.get fun st => Adds.ite Iff.rfl (by adds1) ?_
  refine Adds.bind Adds.optionalArgument fun n => ?_
  cases n with
  | none => adds1
  | some n =>
    dsimp only [Option.map, id]
    cases parseU8 n.cs with
    | none => adds1
    | some k =>
      refine Adds.bind Adds.optionalArgument fun d => Adds.ite Iff.rfl (by adds1) (Adds.bind Adds.braceArgument fun r => Adds.bind Adds.get fun st => ?_)
      refine Adds.ite Iff.rfl (by adds1) ?_
      cases d <;> adds1

theorem adds_genfracDelim : Adds pb id genfracDelim genfracDelim := by
  refine Adds.bind Adds.argument fun a => ?_
  cases a with
  | token t =>
    cases t with
    | cs n =>
      dsimp only [id, id]
      cases controlSequenceDelimiterMap n <;> adds1
    | chr c x =>
      dsimp only [id, id]
      cases charDelimiterMap c <;> adds1
  | group g => exact Adds.ite Iff.rfl (by adds1) (by adds1)

theorem adds_genfracBar : Adds pb id genfracBar genfracBar := by
  refine Adds.bind Adds.argument fun a => ?_
  cases a with
  | token t => adds1
  | group g => exact Adds.ite Iff.rfl (by adds1) (Adds.bind (Adds.onStr _ _) fun x => Adds.ite Iff.rfl (by adds1) (by adds1))

theorem adds_genfracStyle : Adds pb id genfracStyle genfracStyle := by
  refine Adds.bind Adds.argument fun a => ?_
  have key : ∀ c, Adds pb id (match styleOf c with | some s => (pure (some s) : H (Option Style)) | none => M.fail .argument)
      (match styleOf c with | some s => (pure (some s) : H (Option Style)) | none => M.fail .argument) := by
    intro c
    cases styleOf c <;> adds1
  cases a with
  | token t =>
    cases t with
    | cs n => adds1
    | chr c x => exact key c
  | group g =>
    obtain ⟨a, b, cs⟩ := g
    match cs with
    | [] => adds1
    | [c] => exact key c
    | _ :: _ :: _ => adds1

theorem adds_pairsArg : Adds pb id (pairsArg cf) (pairsArg cf) :=
  Adds.bind (adds_groupArg _) fun g => Adds.bind (Adds.onStr _ _) fun n => by adds1

theorem adds_pairsMax (n : Nat) : Adds pb id (pairsMax cf n) (pairsMax cf n) :=
  Adds.ite Iff.rfl (by adds1) (Adds.ite Iff.rfl (by adds1) (by adds1))

theorem adds_subarrayAlign : Adds pb id subarrayAlign subarrayAlign := by
  refine Adds.bind Adds.argument fun a => ?_
  cases a with
  | token t => adds1
  | group g => exact Adds.ite Iff.rfl (by adds1) (Adds.ite Iff.rfl (by adds1) (Adds.ite Iff.rfl (by adds1) (by adds1)))

theorem adds_matrixEnv (ty : MatrixType) (spec : Bool) (style : Option Style) (wrap : Option (Char × Char)) :
    Adds pb id (matrixEnv ty spec style wrap) (matrixEnv ty spec style wrap) := by
  cases spec with
  | false => exact Adds.bind (e := id) (Adds.pure rfl) fun _ => by adds1
  | true => exact Adds.bind adds_optionalAlignment fun _ => by adds1

theorem adds_alignatEnv (g : Nat → Grouping) (k : GroupingKind) : Adds pb id (alignatEnv cf g k) (alignatEnv cf g k) :=
  Adds.bind adds_pairsArg fun n => Adds.bind (adds_pairsMax n) fun _ => by adds1

theorem adds_environments : ∀ x ∈ environments cf, Adds pb id x.2 x.2 := by
  unfold environments
  simp only [List.forall_mem_cons]
  refine ⟨Adds.bind adds_arrayEnvironment fun _ => by adds1, Adds.bind adds_arrayEnvironment fun _ => by adds1, ?_⟩
  refine ⟨adds_matrixEnv _ _ _ _, adds_matrixEnv _ _ _ _, adds_matrixEnv _ _ _ _, adds_matrixEnv _ _ _ _, adds_matrixEnv _ _ _ _,
    adds_matrixEnv _ _ _ _, adds_matrixEnv _ _ _ _, adds_matrixEnv _ _ _ _, adds_matrixEnv _ _ _ _, adds_matrixEnv _ _ _ _,
    adds_matrixEnv _ _ _ _, adds_matrixEnv _ _ _ _, adds_matrixEnv _ _ _ _, ?_⟩
  refine ⟨by adds1, by adds1, by adds1, by adds1, by adds1, by adds1, by adds1, by adds1, by adds1, by adds1, by adds1, by adds1, ?_⟩
  refine ⟨adds_alignatEnv _ _, adds_alignatEnv _ _, adds_alignatEnv _ _, Adds.bind adds_subarrayAlign fun _ => by adds1, by adds1, by adds1, ?_⟩
  intro x hx; cases hx

theorem adds_beginEnv : Adds pb id (beginEnv cf) (beginEnv cf) := by
  refine Adds.bind (adds_groupArg _) fun g => ?_
  show Adds pb id (match (environments cf).lookup g.cs with | none => _ | some m => _) _
  cases h : (environments cf).lookup g.cs with
  | none => adds1
  | some m =>
    refine Adds.bind (adds_environments _ (lookup_mem_gen h)) fun env => ?_
    obtain ⟨gg, mx, k, style, wrap⟩ := env
    have tail : ∀ lines : List Line, ∀ c : Sl, Adds pb id
        (H.push ([.ev (.begin_ gg)] ++
        (match style with
          | some s => [.ev (.stateChange (.style s))]
          | none => []) ++
        (if lines.isEmpty then [] else [.ev (.flow (.startLines lines))]) ++
        [.sub c (some ⟨0, mx⟩), .ev .end_] ++
        (if wrap.isSome then [.ev .end_] else [])))
        (H.push ([.ev (.begin_ gg)] ++
        (match style with
          | some s => [.ev (.stateChange (.style s))]
          | none => []) ++
        (if lines.isEmpty then [] else [.ev (.flow (.startLines lines))]) ++
        [.sub c (some ⟨0, mx⟩), .ev .end_] ++
        (if wrap.isSome then [.ev .end_] else []))) := by
      intro lines c
      refine Adds.push ?_
      cases style <;> cases lines <;> cases wrap <;> rfl
    cases wrap with
    | none => exact Adds.bind (Adds.lexPure _) fun l => Adds.bind (Adds.groupContent _) fun c => tail l c
    | some w =>
      obtain ⟨a, b⟩ := w
      exact Adds.bind (Adds.ev _) fun _ => Adds.bind (Adds.lexPure _) fun l => Adds.bind (Adds.groupContent _) fun c => tail l c

theorem adds_leftDelim : Adds pb id leftDelim leftDelim := by
  refine Adds.bind Adds.get fun st => ?_
  have key : Adds pb id (do let (c, _) ← H.lex delimiter; return some c : H (Option Char)) (do let (c, _) ← H.lex delimiter; return some c) :=
    Adds.bind (Adds.lex _) fun x => by adds1
  obtain ⟨⟨a, b, cs⟩, x2, x3, x4, x5, x6, x7, x8⟩ := st
  show Adds pb id (match cs with | '.' :: rest => _ | _ => _) (match cs with | '.' :: rest => _ | _ => _)
  split
  · exact Adds.bind (by adds1) fun _ => by adds1
  · exact key

include hr

theorem adds_handleArgument (a : HArg) : Adds pb id (handleArgument rec a) (handleArgument rec a) := by
  cases a with
  | token t => exact Adds.bind (by adds1) fun _ => hr t
  | group g => exact Adds.push rfl

theorem adds_atomGroup (cls : AtomClass) : Adds pb id (atomGroup rec cls) (atomGroup rec cls) := by
  refine Adds.bind Adds.argument fun a => ?_
  dsimp only [id]
  cases singleChar a with
  | some c => adds1
  | none =>
    have key : Adds pb id (do H.ev (.begin_ .normal); handleArgument rec a; H.ev .end_)
        (do H.ev (.begin_ .normal); handleArgument rec a; H.ev .end_) :=
      Adds.bind (by adds1) fun _ => Adds.bind (adds_handleArgument hr a) fun _ => by adds1
    cases cls <;> cases a <;> first | exact key | exact Adds.ev _

theorem adds_fontGroup (f : Option Font) : Adds pb id (fontGroup rec f) (fontGroup rec f) := by
  refine Adds.bind Adds.argument fun a => Adds.bind (by adds1) fun _ => ?_
  cases a with
  | token t => exact Adds.bind (hr t) fun _ => by adds1
  | group g => exact Adds.bind (Adds.push rfl) fun _ => by adds1

theorem adds_accent (c : Char) (b : Bool) : Adds pb id (accent rec c b) (accent rec c b) :=
  Adds.bind Adds.argument fun a => Adds.bind (Adds.ev _) fun _ => Adds.bind (adds_handleArgument hr a) fun _ => by adds1

theorem adds_underscript (c : Char) : Adds pb id (underscript rec c) (underscript rec c) :=
  Adds.bind Adds.argument fun a => Adds.bind (Adds.ev _) fun _ => Adds.bind (adds_handleArgument hr a) fun _ => by adds1

theorem adds_fractionLike (l r : Option Char) (bar : Option Dim) (style : Option Style) :
    Adds pb id (fractionLike rec l r bar style) (fractionLike rec l r bar style) := by
  unfold fractionLike
  cases style <;> dsimp only
  all_goals
    repeat' (first
      | adds1 | exact adds_handleArgument hr _ | refine Adds.ite Iff.rfl ?_ ?_ | apply Adds.bind | intro _)

theorem adds_scriptSwap {over' over : H HArg} (ho : Adds pb id over' over) : Adds pb id (scriptSwap rec over') (scriptSwap rec over) := by
  refine Adds.bind Adds.get fun st => Adds.bind ho fun a => Adds.bind (adds_handleArgument hr a) fun _ => Adds.bind Adds.get fun st2 => ?_
  refine Adds.bind (Adds.modify fun s => ?_) fun _ => Adds.bind Adds.argument fun b => Adds.bind (adds_handleArgument hr b) fun _ => Adds.push ?_
  · simp [HSt.pre, List.take_append]
    exact List.take_of_length_le (by omega)
  · simp [HSt.pre, List.drop_append]

theorem adds_execPrim (p : Prim) : Adds pb id (execPrim cf rec p) (execPrim cf rec p) := by
  cases p
  all_goals unfold execPrim
  all_goals dsimp only
  case frac => exact adds_fractionLike hr _ _ _ _
  case fontGroup => exact adds_fontGroup hr _
  case text => exact adds_textArgument _
  case begin_ => exact adds_beginEnv
  case newcommand => exact adds_newCommand _
  case sized => exact adds_sizedDelim _
  case operatorname =>
    refine Adds.bind Adds.allowMods fun _ => Adds.bind Adds.argument fun a => ?_
    cases a with
    | token t => cases t <;> adds1
    | group g => adds1
  case pmod => exact Adds.bind Adds.argument fun a => Adds.bind (Adds.push rfl) fun _ => Adds.bind (adds_handleArgument hr a) fun _ => by adds1
  case atom cls =>
    exact Adds.ite Iff.rfl (Adds.bind Adds.allowMods fun _ => Adds.bind (Adds.setPos _) fun _ => adds_atomGroup hr cls) (adds_atomGroup hr cls)
  case dots =>
    refine Adds.bind Adds.get fun st => ?_
    show Adds pb id (match trimStart st.content.cs with | c :: _ => _ | [] => _) _
    cases trimStart st.content.cs with
    | nil => adds1
    | cons c t => exact Adds.ite Iff.rfl (by adds1) (by adds1)
  case color => exact Adds.bind (adds_groupArg _) fun g => Adds.bind Adds.setSkip fun _ => Adds.bind (adds_colorOf _) fun c => by adds1
  case textcolor =>
    refine Adds.bind (adds_groupArg _) fun g => Adds.bind (adds_colorOf _) fun c => Adds.bind Adds.argument fun a => Adds.bind (Adds.push ?_) fun _ =>
      Adds.bind (adds_handleArgument hr a) fun _ => Adds.ev _
    rfl
  case colorbox =>
    refine Adds.bind (adds_groupArg _) fun g => Adds.bind (adds_colorOf _) fun c => Adds.bind (Adds.push ?_) fun _ =>
      Adds.bind (adds_textArgument none) fun _ => Adds.ev _
    rfl
  case fcolorbox =>
    refine Adds.bind (adds_groupArg _) fun g => Adds.bind (adds_groupArg _) fun g => Adds.bind (adds_colorOf _) fun c =>
      Adds.bind (adds_colorOf _) fun c => Adds.bind (Adds.push ?_) fun _ => Adds.bind (adds_textArgument none) fun _ => Adds.ev _
    rfl
  case left => exact Adds.bind adds_leftDelim fun o => Adds.bind (Adds.groupContent _) fun c => Adds.bind adds_leftDelim fun o => by adds1
  case accent =>
    exact Adds.ite Iff.rfl (Adds.bind (Adds.setPos _) fun _ => adds_accent hr _ _) (adds_accent hr _ _)
  case under =>
    exact Adds.ite Iff.rfl (Adds.bind (Adds.setPos _) fun _ => adds_underscript hr _) (adds_underscript hr _)
  case hspace => exact Adds.bind (adds_groupArg _) fun g => Adds.bind (Adds.onStr _ _) fun x => by adds1
  case space3 =>
    refine Adds.bind (adds_groupArg _) fun g => Adds.bind (Adds.onStr _ _) fun x => ?_
    refine Adds.bind (adds_groupArg _) fun g => Adds.bind (Adds.onStr _ _) fun x => ?_
    exact Adds.bind (adds_groupArg _) fun g => Adds.bind (Adds.onStr _ _) fun x => Adds.ev _
  case xarrow c =>
    refine Adds.bind Adds.optionalArgument fun b => Adds.bind Adds.argument fun a => ?_
    cases b with
    | none => exact Adds.bind (Adds.push rfl) fun _ => adds_handleArgument hr a
    | some g => exact Adds.bind (Adds.push rfl) fun _ => Adds.bind (adds_handleArgument hr (.group g)) fun _ => adds_handleArgument hr a
  case genfrac => exact Adds.bind adds_genfracDelim fun _ => Adds.bind adds_genfracDelim fun _ => Adds.bind adds_genfracBar fun _ => Adds.bind adds_genfracStyle fun _ =>
      adds_fractionLike hr _ _ _ _
  case overset => exact Adds.bind (Adds.ev _) fun _ => adds_scriptSwap hr Adds.argument
  case buildrel => exact Adds.bind (Adds.contentWithSuffix _) fun o => Adds.bind (Adds.ev _) fun _ => adds_scriptSwap hr (Adds.argumentOf o)
  case sideset => exact Adds.bind Adds.argument fun _ => Adds.bind Adds.argument fun _ => Adds.bind Adds.argument fun a => adds_handleArgument hr a
  case sqrt =>
    refine Adds.bind Adds.optionalArgument fun i => ?_
    cases i with
    | none => exact Adds.bind (Adds.ev _) fun _ => Adds.bind Adds.argument fun a => adds_handleArgument hr a
    | some g => exact Adds.bind (Adds.ev _) fun _ => Adds.bind Adds.argument fun a => Adds.bind (adds_handleArgument hr a) fun _ => by adds1
  case not_ => exact Adds.bind (Adds.ev _) fun _ => Adds.bind Adds.argument fun a => adds_handleArgument hr a
  case newline =>
    refine Adds.bind Adds.get fun st => ?_
    show Adds pb id (match st.align with | some a => _ | none => _) _
    cases st.align with
    | none => adds1
    | some a =>
      refine Adds.ite Iff.rfl (by adds1) (Adds.bind (Adds.set rfl) fun _ => Adds.bind (e := id) (Adds.bind Adds.optionalArgument fun o => ?_) fun _ =>
        Adds.bind (Adds.lexPure _) fun _ => by adds1)
      cases o with
      | none => adds1
      | some g => exact Adds.bind (Adds.onStr _ _) fun _ => by adds1
  all_goals addss

omit hr
theorem adds_handleToken (n : Nat) : ∀ t : HTok, Adds pb id (handleToken cf n t) (handleToken cf n t) := by
  induction n with
  | zero => intro t; exact Adds.boom _
  | succ n ih =>
    intro t
    cases t with
    | cs name => exact adds_execPrim ih _
    | chr c ctx => exact adds_handleChar c ctx

theorem adds_limits : Adds pb id limits limits := by
  refine Adds.bind Adds.get fun st => Adds.ite Iff.rfl ?_ (by adds1)
  show Adds pb id (match limitModifiers st.content.cs with | (some true, rest) => _ | (some false, rest) => _ | (none, rest) => _) _
  obtain ⟨o, rest⟩ := limitModifiers st.content.cs
  cases o with
  | none => adds1
  | some b => cases b <;> adds1


/-- Positions in what is staged, after more instructions. -/
def Desc.shift (n : Nat) (d : Desc) : Desc := ⟨d.event, n + d.sub, n + d.sup⟩

theorem adds_scripts {rec : HTok → H PUnit} (hr : ∀ t, Adds pb id (rec t) (rec t)) : Adds pb (Option.map (Desc.shift pb.length)) (scripts rec) (scripts rec) := by
  refine Adds.bind Adds.get fun st => Adds.ite Iff.rfl (Adds.pure rfl) ?_
  refine Adds.bind adds_limits fun _ => Adds.bind (Adds.modify fun _ => rfl) fun _ => Adds.bind Adds.get fun s => ?_
  obtain ⟨⟨src, stop, cs⟩, x2, x3, x4, x5, x6, x7, x8⟩ := s
  dsimp only [HSt.pre, id]
  cases cs with
  | nil => exact Adds.pure rfl
  | cons c rest =>
    refine Adds.ite Iff.rfl ?_ (Adds.pure rfl)
    refine Adds.bind (Adds.set rfl) fun _ => Adds.bind Adds.argument fun a => Adds.bind (adds_handleArgument hr a) fun _ => Adds.bind Adds.get fun s => ?_
    have e1 : (HSt.pre pb s).buf.length = pb.length + s.buf.length := by simp [HSt.pre]
    have e2 : (pb ++ x2).length = pb.length + x2.length := by simp
    simp only [e1, e2]
    have last : Adds pb (Option.map (Desc.shift pb.length)) (do
        let s' ← M.get
        return some ⟨.script (if pb.length + s.buf.length = s'.buf.length then (if (decide (c = '_')) = true then .sub else .sup) else .subSup) s'.pos,
          if decide (c = '_') = true then pb.length + x2.length else pb.length + s.buf.length,
          if decide (c = '_') = true then pb.length + s.buf.length else pb.length + x2.length⟩ : H (Option Desc))
        (do
        let s' ← M.get
        return some ⟨.script (if s.buf.length = s'.buf.length then (if (decide (c = '_')) = true then .sub else .sup) else .subSup) s'.pos,
          if decide (c = '_') = true then x2.length else s.buf.length, if decide (c = '_') = true then s.buf.length else x2.length⟩) := by
      refine Adds.bind Adds.get fun s' => Adds.pure ?_
      have e3 : (HSt.pre pb s').buf.length = pb.length + s'.buf.length := by simp [HSt.pre]
      rw [e3]
      unfold Desc.shift Option.map
      dsimp only
      simp only [Nat.add_left_cancel_iff]
      congr 2 <;> split <;> rfl
    refine Adds.ite Iff.rfl ?_ (Adds.ite Iff.rfl (Adds.fail _) last)
    refine Adds.bind (Adds.set rfl) fun _ => Adds.bind Adds.argument fun a => Adds.bind (adds_handleArgument hr a) fun _ => Adds.bind Adds.get fun t => ?_
    show Adds pb _ (match t.content.cs.head? with | some '_' => _ | some '^' => _ | _ => _) (match t.content.cs.head? with | some '_' => _ | some '^' => _ | _ => _)
    split
    · exact Adds.fail _
    · exact Adds.fail _
    · exact last

theorem adds_atom (t : HTok) : Adds pb (Option.map (Desc.shift pb.length)) (atom cf t) (atom cf t) :=
  Adds.bind Adds.get fun _ => Adds.bind (adds_handleToken _ t) fun _ => Adds.bind Adds.get fun _ => adds_scripts (adds_handleToken _)

end

def PSt.pre (pb : List Instr) (s : PSt) : PSt := { s with h := s.h.pre pb }

theorem liftH_pre (t : HTok) (s : PSt) : liftH (atom cf t) (s.pre pb) = (liftH (atom cf t) s).mapBoth (Option.map (Desc.shift pb.length)) (PSt.pre pb) := by
  have h := adds_atom (cf := cf) (pb := pb) t s.h
  unfold liftH
  dsimp only [PSt.pre]
  rw [h]
  cases atom cf t s.h <;> rfl

theorem parseLoop_pre (n : Nat) : ∀ s : PSt, parseLoop cf n (s.pre pb) = (parseLoop cf n s).mapBoth (Option.map (Desc.shift pb.length)) (PSt.pre pb) := by
  induction n with
  | zero => intro s; rfl
  | succ n ih =>
    intro s
    unfold parseLoop
    dsimp only [PSt.pre, HSt.pre]
    cases token s.h.content.cs with
    | panic p => rfl
    | err e rest =>
      dsimp only
      split <;> rfl
    | ok t rest =>
      dsimp only
      cases t with
      | chr c r => exact liftH_pre _ { s with h := { s.h with content := { s.h.content with cs := rest } } }
      | cs name =>
        dsimp only
        cases Macros.tryExpand cf s.h.macros name rest with
        | none => exact liftH_pre _ { s with h := { s.h with content := { s.h.content with cs := rest } } }
        | some x =>
          cases x with
          | panic p => rfl
          | err e =>
            dsimp only
            split <;> rfl
          | ok new consumed =>
            dsimp only
            split
            · rfl
            · split
              · rfl
              · rename_i sp' _
                exact ih ⟨{ s.h with content := ⟨s.sp.nalloc + 1, blen new, new⟩ }, sp'⟩

/-- What a script event is followed by. -/
inductive Inserted (pb : List Instr) : Option Desc → List Instr → List Instr → Prop
  | plain {l} : Inserted pb none l (pb ++ l)
  | script {d l} : Inserted pb (some d) (.ev d.event :: l) (.ev d.event :: (pb ++ l))

theorem unstage_pre (buf stack : List Instr) (d : Option Desc) : match unstage buf stack d with
    | .error p => unstage (pb ++ buf) stack (d.map (Desc.shift pb.length)) = .error p
    | .ok l => ∃ l', unstage (pb ++ buf) stack (d.map (Desc.shift pb.length)) = .ok l' ∧ Inserted pb d l l' := by
  cases d with
  | none => exact ⟨_, rfl, by rw [List.append_assoc]; exact .plain⟩
  | some d =>
    have e1 : ∀ n, (pb ++ buf).drop (pb.length + n) = buf.drop n := by intro n; simp [List.drop_append]
    have e2 : ∀ n, (pb ++ buf).take (pb.length + n) = pb ++ buf.take n := by
      intro n; simp [List.take_append]; exact List.take_of_length_le (by omega)
    unfold unstage
    dsimp only [Option.map, Desc.shift]
    have e3 : (pb.length + d.sub > pb.length + d.sup) = (d.sub > d.sup) := by simp
    have e4 : ∀ n, (pb.length + n > (pb ++ buf).length) = (n > buf.length) := by simp
    have e5 : pb.length + d.sub - (pb.length + d.sup) = d.sub - d.sup := by omega
    simp only [e1, e2, e3, e4, e5]
    by_cases h : d.sub > d.sup
    · simp only [if_pos h]
      by_cases h1 : d.sup > buf.length
      · simp only [if_pos h1]
      · simp only [if_neg h1]
        cases fillSlots (buf.drop d.sup).reverse (d.sub - d.sup) (List.replicate (buf.drop d.sup).reverse.length none) with
        | none => rfl
        | some slots =>
          dsimp only
          cases slots.mapM id with
          | none => rfl
          | some added => exact ⟨_, rfl, by simp only [List.append_assoc, List.cons_append]; exact .script⟩
    · simp only [if_neg h]
      by_cases h1 : d.sub > buf.length
      · simp only [if_pos h1]
      · simp only [if_neg h1]
        exact ⟨_, rfl, by simp only [List.append_assoc, List.cons_append]; exact .script⟩

/-- More instructions staged. -/
def State.pre (pb : List Instr) (s : State) : State := { s with buf := pb ++ s.buf }

/-- What the step is when more is staged. -/
theorem step_pre (s : State) : match step cf s with
    | .done => step cf (s.pre pb) = .done
    | .panic p => step cf (s.pre pb) = .panic p
    | .item i s' => step cf (s.pre pb) = .item i (s'.pre pb)
    | .again s' => (∃ c A rest, s.stack = .sub c A :: rest ∧ trimStart c.cs = [] ∧ step cf (s.pre pb) = .again (s'.pre pb)) ∨
      (∃ c A rest, s.stack = .sub c A :: rest ∧ trimStart c.cs ≠ [] ∧
        ∃ d st l, parse cf (startSt s c A) = .ok d st ∧ step cf (s.pre pb) = .again { s' with stack := l } ∧ Inserted pb d s'.stack l) := by
  cases hs : s.stack with
  | nil =>
    unfold step
    dsimp only [State.pre]
    rw [hs]
  | cons x rest =>
    cases x with
    | ev e =>
      unfold step
      dsimp only [State.pre]
      rw [hs]
    | sub c A =>
      by_cases hne : trimStart c.cs = []
      · have e : ∀ t : State, t.stack = .sub c A :: rest → step cf t = .again { t with stack := rest } := by
          intro t ht
          unfold step
          rw [ht]
          simp only
          rw [if_pos (by simp [hne])]
        rw [e s hs, e (s.pre pb) hs]
        exact .inl ⟨c, A, rest, rfl, hne, rfl⟩
      · have e : ∀ t : State, t.stack = .sub c A :: rest → step cf t = match parse cf (startSt t c A) with
            | .panic p => .panic p
            | .err e st =>
              match errorContext cf st.sp (st.h.content.ptr cf) with
              | .error p => .panic p
              | .ok (ctx, sp) => .item (.err e ctx) ⟨.sub st.h.content st.h.align :: rest, st.h.buf, st.h.macros, sp⟩
            | .ok desc st =>
              match unstage st.h.buf (.sub st.h.content st.h.align :: rest) desc with
              | .error p => .panic p
              | .ok stack => .again ⟨stack, [], st.h.macros, st.sp⟩ := by
          intro t ht
          unfold step
          rw [ht]
          simp only
          rw [if_neg (by simpa using hne)]
          rfl
        have h1 : parse cf (startSt (s.pre pb) c A) = (parse cf (startSt s c A)).mapBoth (Option.map (Desc.shift pb.length)) (PSt.pre pb) :=
          parseLoop_pre _ (startSt s c A)
        rw [e s hs, e (s.pre pb) hs, h1]
        cases hp : parse cf (startSt s c A) with
        | panic p => rfl
        | err k st =>
          dsimp only [Res.mapBoth, PSt.pre, HSt.pre]
          cases errorContext cf st.sp (st.h.content.ptr cf) <;> rfl
        | ok d st =>
          dsimp only [Res.mapBoth, PSt.pre, HSt.pre]
          have h2 := unstage_pre (pb := pb) st.h.buf (.sub st.h.content st.h.align :: rest) d
          cases hu : unstage st.h.buf (.sub st.h.content st.h.align :: rest) d with
          | error p => rw [hu] at h2; rw [h2]
          | ok l =>
            rw [hu] at h2
            obtain ⟨l', h3, h4⟩ := h2
            rw [h3]
            exact .inr ⟨c, A, rest, rfl, hne, d, st, l', hp, rfl, h4⟩

end PL
