import Verif.Lemmas.Erase
set_option autoImplicit false
/-!
# Handlers do not depend on how far their text is from the end

`pin` forgets the offset of slices, but not the allocation. Every handler commutes with it. As in `Erase`.
-/
namespace PL
open Lex

variable {cf : Cfg} {α β : Type}

/-- Forget where in its allocation a slice begins. -/
def Sl.pin (s : Sl) : Sl := ⟨s.src, 0, s.cs⟩
def Instr.pin : Instr → Instr
  | .ev e => .ev e
  | .sub s A => .sub s.pin A
def HTok.pin : HTok → HTok
  | .cs n => .cs n
  | .chr c s => .chr c s.pin
def HArg.pin : HArg → HArg
  | .token t => .token t.pin
  | .group s => .group s.pin
def HSt.pin (s : HSt) : HSt := { s with content := s.content.pin, buf := s.buf.map Instr.pin }

theorem Sl.pin_part (w : Sl) (g : Str) (n : Nat) (r : Str) : (w.part g n r).pin = w.pin.part g n r := by
  unfold Sl.part Sl.pin
  simp
theorem HTok.pin_ofTok (s : Sl) (t : Tok) : (HTok.ofTok s t).pin = HTok.ofTok s.pin t := by
  cases t <;> rfl
theorem HArg.pin_ofArg (s : Sl) (r : Str) (a : Arg) : (HArg.ofArg s r a).pin = HArg.ofArg s.pin r a := by
  cases a with
  | token t => exact congrArg _ (HTok.pin_ofTok s t)
  | group g => exact congrArg _ (Sl.pin_part s g 1 r)

/-- `m'` on the erased state does what `m` does, up to erasure. -/
def Pinned (e : α → α) (m' m : H α) : Prop := ∀ s, m' s.pin = (m s).mapBoth e HSt.pin

theorem Pinned.bind {e : α → α} {e2 : β → β} {m' m : H α} {f' f : α → H β} (h : Pinned e m' m) (hf : ∀ a, Pinned e2 (f' (e a)) (f a)) :
    Pinned e2 (m' >>= f') (m >>= f) := by
  intro s
  rw [M.run_bind, M.run_bind, h s]
  cases m s with
  | ok a s' => exact hf a s'
  | err e s' => rfl
  | panic p => rfl

theorem Pinned.pure {e : α → α} {a a' : α} (h : a' = e a) : Pinned e (Pure.pure a' : H α) (Pure.pure a) := by
  intro s; rw [h]; rfl
theorem Pinned.fail {e : α → α} (k : ErrorKind) : Pinned e (M.fail k : H α) (M.fail k) := fun _ => rfl
theorem Pinned.boom {e : α → α} (p : Panic) : Pinned e (M.boom p : H α) (M.boom p) := fun _ => rfl
theorem Pinned.get : Pinned HSt.pin (M.get : H HSt) M.get := fun _ => rfl
theorem Pinned.set {s s' : HSt} (h : s' = s.pin) : Pinned id (M.set s' : H PUnit) (M.set s) := by
  intro t; rw [h]; rfl
theorem Pinned.modify {f' f : HSt → HSt} (h : ∀ s, f' s.pin = (f s).pin) : Pinned id (M.modify f' : H PUnit) (M.modify f) := by
  intro t; simp only [M.run_modify, h]; rfl

theorem Pinned.lex (m : L α) : Pinned id (H.lex m) (H.lex m) := by
  intro s
  unfold H.lex
  show (match m s.content.cs with | .ok a r => _ | .err e r => _ | .panic p => _) = _
  cases m s.content.cs <;> rfl
theorem Pinned.lexPure (m : Str → α × Str) : Pinned id (H.lexPure m) (H.lexPure m) := Pinned.lex _
theorem Pinned.onStr (m : L α) (str : Str) : Pinned id (H.onStr m str) (H.onStr m str) := by
  intro s
  unfold H.onStr
  cases m str <;> rfl
theorem Pinned.argument : Pinned HArg.pin H.argument H.argument := by
  intro s
  unfold H.argument
  show (match Lex.argument s.content.cs with | .ok a r => _ | .err e r => _ | .panic p => _) = _
  cases Lex.argument s.content.cs with
  | ok a r => simp only [Res.mapBoth, HArg.pin_ofArg]; rfl
  | err e r => rfl
  | panic p => rfl
theorem Pinned.argumentOf (sl : Sl) : Pinned HArg.pin (H.argumentOf sl.pin) (H.argumentOf sl) := by
  intro s
  unfold H.argumentOf
  show (match Lex.argument sl.cs with | .ok a r => _ | .err e r => _ | .panic p => _) = _
  cases Lex.argument sl.cs with
  | ok a r => simp only [Res.mapBoth, HArg.pin_ofArg]
  | err e r => rfl
  | panic p => rfl
theorem Pinned.groupContent (k : GroupingKind) : Pinned Sl.pin (H.groupContent k) (H.groupContent k) := by
  intro s
  unfold H.groupContent
  show (match Lex.groupContent k s.content.cs with | .ok a r => _ | .err e r => _ | .panic p => _) = _
  cases Lex.groupContent k s.content.cs with
  | ok a r => simp only [Res.mapBoth, Sl.pin_part]; rfl
  | err e r => rfl
  | panic p => rfl
theorem Pinned.braceArgument : Pinned Sl.pin H.braceArgument H.braceArgument := by
  intro s
  unfold H.braceArgument
  show (match Lex.braceArgument s.content.cs with | .ok a r => _ | .err e r => _ | .panic p => _) = _
  cases Lex.braceArgument s.content.cs with
  | ok a r => simp only [Res.mapBoth, Sl.pin_part]; rfl
  | err e r => rfl
  | panic p => rfl
theorem Pinned.contentWithSuffix (k : Str) : Pinned Sl.pin (H.contentWithSuffix k) (H.contentWithSuffix k) := by
  intro s
  unfold H.contentWithSuffix
  show (match Lex.contentWithSuffix k s.content.cs with | .ok a r => _ | .err e r => _ | .panic p => _) = _
  cases Lex.contentWithSuffix k s.content.cs with
  | ok a r => simp only [Res.mapBoth, Sl.pin_part]; rfl
  | err e r => rfl
  | panic p => rfl
theorem Pinned.optionalArgument : Pinned (Option.map Sl.pin) H.optionalArgument H.optionalArgument := by
  intro s
  unfold H.optionalArgument
  show (match Lex.optionalArgument s.content.cs with | .ok a r => _ | .err e r => _ | .panic p => _) = _
  cases Lex.optionalArgument s.content.cs with
  | ok a r =>
    cases a with
    | none => rfl
    | some g => simp only [Res.mapBoth, Option.map, Sl.pin_part]; rfl
  | err e r => rfl
  | panic p => rfl
theorem Pinned.macros (f : Macros.Ctx → Except (ErrorKind ⊕ Panic) Macros.Ctx) : Pinned id (H.macros f) (H.macros f) := by
  intro s
  unfold H.macros
  show (match f s.macros with | .ok m => _ | .error (.inl e) => _ | .error (.inr p) => _) = _
  cases f s.macros with
  | ok m => rfl
  | error x => cases x <;> rfl
theorem Pinned.push {is' is : List Instr} (h : is' = is.map Instr.pin) : Pinned id (H.push is') (H.push is) := by
  refine Pinned.modify fun s => ?_
  simp [HSt.pin, h]
theorem Pinned.ev (e : Event) : Pinned id (H.ev e) (H.ev e) := Pinned.push rfl
theorem Pinned.setContent {c' c : Sl} (h : c' = c.pin) : Pinned id (H.setContent c') (H.setContent c) :=
  Pinned.modify fun s => by rw [h]; rfl
theorem Pinned.allowMods : Pinned id H.allowMods H.allowMods := Pinned.modify fun _ => rfl
theorem Pinned.setPos (p : ScriptPos) : Pinned id (H.setPos p) (H.setPos p) := Pinned.modify fun _ => rfl
theorem Pinned.setSkip : Pinned id H.setSkip H.setSkip := Pinned.modify fun _ => rfl
theorem Pinned.setHarg : Pinned id H.setHarg H.setHarg := Pinned.modify fun _ => rfl

theorem Pinned.ite {e : α → α} {c c' : Prop} [Decidable c] [Decidable c'] (hc : c' ↔ c) {a a' b b' : H α} (h1 : Pinned e a' a) (h2 : Pinned e b' b) :
    Pinned e (if c' then a' else b') (if c then a else b) := by
  by_cases h : c
  · rw [if_pos h, if_pos (hc.2 h)]; exact h1
  · rw [if_neg h, if_neg (fun x => h (hc.1 x))]; exact h2

/-- The basic steps. -/
macro "pin1" : tactic => `(tactic| first
  | exact Pinned.fail _ | exact Pinned.boom _ | exact Pinned.ev _ | exact Pinned.get | exact Pinned.lex _ | exact Pinned.lexPure _
  | exact Pinned.onStr _ _ | exact Pinned.argument | exact Pinned.groupContent _ | exact Pinned.braceArgument
  | exact Pinned.contentWithSuffix _ | exact Pinned.optionalArgument | exact Pinned.macros _ | exact Pinned.allowMods
  | exact Pinned.setPos _ | exact Pinned.setSkip | exact Pinned.setHarg | exact Pinned.argumentOf _
  | exact Pinned.push rfl | exact Pinned.setContent rfl | exact Pinned.pure rfl | exact Pinned.set rfl
  | exact Pinned.modify (fun _ => rfl))

/-- Sequences of basic steps; arguments and recursive calls are left. -/
macro "homs" : tactic => `(tactic| repeat' (first
  | pin1 | assumption | refine Pinned.ite Iff.rfl ?_ ?_ | apply Pinned.bind | intro _))

section
variable {rec : HTok → H PUnit} (hr : ∀ t, Pinned id (rec t.pin) (rec t))

theorem pin_handleChar (c : Char) (ctx : Sl) : Pinned id (handleChar c ctx.pin) (handleChar c ctx) := by
  unfold handleChar
  refine Pinned.bind Pinned.get fun st => ?_
  refine Pinned.ite Iff.rfl (by pin1) (Pinned.ite Iff.rfl (Pinned.ite Iff.rfl (by pin1) ?_) ?_)
  · homs
  refine Pinned.ite Iff.rfl (by pin1) (Pinned.ite Iff.rfl (by pin1) (Pinned.ite Iff.rfl ?_ (Pinned.ite Iff.rfl ?_ ?_)))
  · show Pinned id (match st.align with | some a => _ | none => _) _
    cases st.align with
    | none => pin1
    | some a => exact Pinned.ite Iff.rfl (Pinned.bind (by pin1) fun _ => by pin1) (by pin1)
  · homs
  refine Pinned.ite Iff.rfl (by pin1) (Pinned.ite Iff.rfl (by pin1) (Pinned.ite Iff.rfl ?_ ?_))
  · exact Pinned.bind (Pinned.setContent rfl) fun _ => Pinned.ev _
  · pin1

theorem pin_groupArg (e : ErrorKind) : Pinned Sl.pin (groupArg e) (groupArg e) := by
  refine Pinned.bind Pinned.argument fun a => ?_
  cases a <;> pin1

theorem pin_colorOf (s : Str) : Pinned id (colorOf s) (colorOf s) := by
  unfold colorOf
  cases Lex.color s <;> pin1

theorem singleChar_pin (a : HArg) : singleChar a.pin = singleChar a := by
  cases a with
  | token t => cases t <;> rfl
  | group g => rfl

theorem pin_textArgument (f : Option Font) : Pinned id (textArgument f) (textArgument f) := by
  refine Pinned.bind (e := id) (Pinned.bind Pinned.argument fun a => ?_) fun t => ?_
  · cases a with
    | token t => cases t <;> pin1
    | group g => pin1
  · cases f <;> pin1

theorem pin_sizedDelim (size : DelimSize) : Pinned id (sizedDelim size) (sizedDelim size) := by
  unfold sizedDelim; homs

theorem pin_arrayEnvironment : Pinned id (arrayEnvironment cf) (arrayEnvironment cf) := by
  refine Pinned.bind (pin_groupArg _) fun g => ?_
  show Pinned id (match columns cf 0 g.cs with | .error (.inl e) => _ | .error (.inr p) => _ | .ok (cols, n) => _) _
  cases columns cf 0 g.cs with
  | error x => cases x <;> pin1
  | ok x => exact Pinned.ite Iff.rfl (by pin1) (by pin1)

theorem pin_optionalAlignment : Pinned id optionalAlignment optionalAlignment := by
  refine Pinned.bind Pinned.optionalArgument fun g => ?_
  cases g with
  | none => pin1
  | some g => exact Pinned.ite Iff.rfl (by pin1) (Pinned.ite Iff.rfl (by pin1) (Pinned.ite Iff.rfl (by pin1) (by pin1)))

theorem pin_newCommand (should : Option Bool) : Pinned id (newCommand should) (newCommand should) := by
  refine Pinned.bind Pinned.braceArgument fun g => Pinned.bind (Pinned.onStr _ _) fun cs => Pinned.bind Pinned.get fun st => Pinned.ite Iff.rfl (by pin1) ?_
  refine Pinned.bind Pinned.optionalArgument fun n => ?_
  cases n with
  | none => pin1
  | some n =>
    dsimp only [Option.map, Sl.pin]
    cases parseU8 n.cs with
    | none => pin1
    | some k =>
      refine Pinned.bind Pinned.optionalArgument fun d => Pinned.ite Iff.rfl (by pin1) (Pinned.bind Pinned.braceArgument fun r => Pinned.bind Pinned.get fun st => ?_)
      refine Pinned.ite Iff.rfl (by pin1) ?_
      cases d <;> pin1

theorem pin_genfracDelim : Pinned id genfracDelim genfracDelim := by
  refine Pinned.bind Pinned.argument fun a => ?_
  cases a with
  | token t =>
    cases t with
    | cs n =>
      dsimp only [HArg.pin, HTok.pin]
      cases controlSequenceDelimiterMap n <;> pin1
    | chr c x =>
      dsimp only [HArg.pin, HTok.pin]
      cases charDelimiterMap c <;> pin1
  | group g => exact Pinned.ite Iff.rfl (by pin1) (by pin1)

theorem pin_genfracBar : Pinned id genfracBar genfracBar := by
  refine Pinned.bind Pinned.argument fun a => ?_
  cases a with
  | token t => pin1
  | group g => exact Pinned.ite Iff.rfl (by pin1) (Pinned.bind (Pinned.onStr _ _) fun x => Pinned.ite Iff.rfl (by pin1) (by pin1))

theorem pin_genfracStyle : Pinned id genfracStyle genfracStyle := by
  refine Pinned.bind Pinned.argument fun a => ?_
  have key : ∀ c, Pinned id (match styleOf c with | some s => (pure (some s) : H (Option Style)) | none => M.fail .argument)
      (match styleOf c with | some s => (pure (some s) : H (Option Style)) | none => M.fail .argument) := by
    intro c
    cases styleOf c <;> pin1
  cases a with
  | token t =>
    cases t with
    | cs n => pin1
    | chr c x => exact key c
  | group g =>
    obtain ⟨a, b, cs⟩ := g
    match cs with
    | [] => pin1
    | [c] => exact key c
    | _ :: _ :: _ => pin1

theorem pin_pairsArg : Pinned id (pairsArg cf) (pairsArg cf) :=
  Pinned.bind (pin_groupArg _) fun g => Pinned.bind (Pinned.onStr _ _) fun n => by pin1

theorem pin_pairsMax (n : Nat) : Pinned id (pairsMax cf n) (pairsMax cf n) :=
  Pinned.ite Iff.rfl (by pin1) (Pinned.ite Iff.rfl (by pin1) (by pin1))

theorem pin_subarrayAlign : Pinned id subarrayAlign subarrayAlign := by
  refine Pinned.bind Pinned.argument fun a => ?_
  cases a with
  | token t => pin1
  | group g => exact Pinned.ite Iff.rfl (by pin1) (Pinned.ite Iff.rfl (by pin1) (Pinned.ite Iff.rfl (by pin1) (by pin1)))

theorem pin_matrixEnv (ty : MatrixType) (spec : Bool) (style : Option Style) (wrap : Option (Char × Char)) :
    Pinned id (matrixEnv ty spec style wrap) (matrixEnv ty spec style wrap) := by
  cases spec with
  | false => exact Pinned.bind (e := id) (Pinned.pure rfl) fun _ => by pin1
  | true => exact Pinned.bind pin_optionalAlignment fun _ => by pin1

theorem pin_alignatEnv (g : Nat → Grouping) (k : GroupingKind) : Pinned id (alignatEnv cf g k) (alignatEnv cf g k) :=
  Pinned.bind pin_pairsArg fun n => Pinned.bind (pin_pairsMax n) fun _ => by pin1

theorem pin_environments : ∀ x ∈ environments cf, Pinned id x.2 x.2 := by
  unfold environments
  simp only [List.forall_mem_cons]
  refine ⟨Pinned.bind pin_arrayEnvironment fun _ => by pin1, Pinned.bind pin_arrayEnvironment fun _ => by pin1, ?_⟩
  refine ⟨pin_matrixEnv _ _ _ _, pin_matrixEnv _ _ _ _, pin_matrixEnv _ _ _ _, pin_matrixEnv _ _ _ _, pin_matrixEnv _ _ _ _,
    pin_matrixEnv _ _ _ _, pin_matrixEnv _ _ _ _, pin_matrixEnv _ _ _ _, pin_matrixEnv _ _ _ _, pin_matrixEnv _ _ _ _,
    pin_matrixEnv _ _ _ _, pin_matrixEnv _ _ _ _, pin_matrixEnv _ _ _ _, ?_⟩
  refine ⟨by pin1, by pin1, by pin1, by pin1, by pin1, by pin1, by pin1, by pin1, by pin1, by pin1, by pin1, by pin1, ?_⟩
  refine ⟨pin_alignatEnv _ _, pin_alignatEnv _ _, pin_alignatEnv _ _, Pinned.bind pin_subarrayAlign fun _ => by pin1, by pin1, by pin1, ?_⟩
  intro x hx; cases hx

theorem pin_beginEnv : Pinned id (beginEnv cf) (beginEnv cf) := by
  refine Pinned.bind (pin_groupArg _) fun g => ?_
  show Pinned id (match (environments cf).lookup g.cs with | none => _ | some m => _) _
  cases h : (environments cf).lookup g.cs with
  | none => pin1
  | some m =>
    refine Pinned.bind (pin_environments _ (lookup_mem_gen h)) fun env => ?_
    obtain ⟨gg, mx, k, style, wrap⟩ := env
    have tail : ∀ lines : List Line, ∀ c : Sl, Pinned id
        (H.push ([.ev (.begin_ gg)] ++
        (match style with
          | some s => [.ev (.stateChange (.style s))]
          | none => []) ++
        (if lines.isEmpty then [] else [.ev (.flow (.startLines lines))]) ++
        [.sub c.pin (some ⟨0, mx⟩), .ev .end_] ++
        (if wrap.isSome then [.ev .end_] else [])))
        (H.push ([.ev (.begin_ gg)] ++
        (match style with
          | some s => [.ev (.stateChange (.style s))]
          | none => []) ++
        (if lines.isEmpty then [] else [.ev (.flow (.startLines lines))]) ++
        [.sub c (some ⟨0, mx⟩), .ev .end_] ++
        (if wrap.isSome then [.ev .end_] else []))) := by
      intro lines c
      refine Pinned.push ?_
      cases style <;> cases lines <;> cases wrap <;> rfl
    cases wrap with
    | none => exact Pinned.bind (Pinned.lexPure _) fun l => Pinned.bind (Pinned.groupContent _) fun c => tail l c
    | some w =>
      obtain ⟨a, b⟩ := w
      exact Pinned.bind (Pinned.ev _) fun _ => Pinned.bind (Pinned.lexPure _) fun l => Pinned.bind (Pinned.groupContent _) fun c => tail l c

theorem pin_leftDelim : Pinned id leftDelim leftDelim := by
  refine Pinned.bind Pinned.get fun st => ?_
  have key : Pinned id (do let (c, _) ← H.lex delimiter; return some c : H (Option Char)) (do let (c, _) ← H.lex delimiter; return some c) :=
    Pinned.bind (Pinned.lex _) fun x => by pin1
  obtain ⟨⟨a, b, cs⟩, x2, x3, x4, x5, x6, x7, x8⟩ := st
  show Pinned id (match cs with | '.' :: rest => _ | _ => _) (match cs with | '.' :: rest => _ | _ => _)
  split
  · exact Pinned.bind (by pin1) fun _ => by pin1
  · exact key

include hr

theorem pin_handleArgument (a : HArg) : Pinned id (handleArgument rec a.pin) (handleArgument rec a) := by
  cases a with
  | token t => exact Pinned.bind (by pin1) fun _ => hr t
  | group g => exact Pinned.push rfl

theorem pin_atomGroup (cls : AtomClass) : Pinned id (atomGroup rec cls) (atomGroup rec cls) := by
  refine Pinned.bind Pinned.argument fun a => ?_
  rw [singleChar_pin]
  cases singleChar a with
  | some c => pin1
  | none =>
    have key : Pinned id (do H.ev (.begin_ .normal); handleArgument rec a.pin; H.ev .end_)
        (do H.ev (.begin_ .normal); handleArgument rec a; H.ev .end_) :=
      Pinned.bind (by pin1) fun _ => Pinned.bind (pin_handleArgument hr a) fun _ => by pin1
    cases cls <;> cases a <;> first | exact key | exact Pinned.ev _

theorem pin_fontGroup (f : Option Font) : Pinned id (fontGroup rec f) (fontGroup rec f) := by
  refine Pinned.bind Pinned.argument fun a => Pinned.bind (by pin1) fun _ => ?_
  cases a with
  | token t => exact Pinned.bind (hr t) fun _ => by pin1
  | group g => exact Pinned.bind (Pinned.push rfl) fun _ => by pin1

theorem pin_accent (c : Char) (b : Bool) : Pinned id (accent rec c b) (accent rec c b) :=
  Pinned.bind Pinned.argument fun a => Pinned.bind (Pinned.ev _) fun _ => Pinned.bind (pin_handleArgument hr a) fun _ => by pin1

theorem pin_underscript (c : Char) : Pinned id (underscript rec c) (underscript rec c) :=
  Pinned.bind Pinned.argument fun a => Pinned.bind (Pinned.ev _) fun _ => Pinned.bind (pin_handleArgument hr a) fun _ => by pin1

theorem pin_fractionLike (l r : Option Char) (bar : Option Dim) (style : Option Style) :
    Pinned id (fractionLike rec l r bar style) (fractionLike rec l r bar style) := by
  unfold fractionLike
  cases style <;> dsimp only
  all_goals
    repeat' (first
      | pin1 | exact pin_handleArgument hr _ | refine Pinned.ite Iff.rfl ?_ ?_ | apply Pinned.bind | intro _)

theorem pin_scriptSwap {over' over : H HArg} (ho : Pinned HArg.pin over' over) : Pinned id (scriptSwap rec over') (scriptSwap rec over) := by
  refine Pinned.bind Pinned.get fun st => Pinned.bind ho fun a => Pinned.bind (pin_handleArgument hr a) fun _ => Pinned.bind Pinned.get fun st2 => ?_
  refine Pinned.bind (Pinned.modify fun s => ?_) fun _ => Pinned.bind Pinned.argument fun b => Pinned.bind (pin_handleArgument hr b) fun _ => Pinned.push ?_
  · simp [HSt.pin, List.map_take]
  · simp [HSt.pin, List.map_drop]

theorem pin_execPrim (p : Prim) : Pinned id (execPrim cf rec p) (execPrim cf rec p) := by
  cases p
  all_goals unfold execPrim
  all_goals dsimp only
  case frac => exact pin_fractionLike hr _ _ _ _
  case fontGroup => exact pin_fontGroup hr _
  case text => exact pin_textArgument _
  case begin_ => exact pin_beginEnv
  case newcommand => exact pin_newCommand _
  case sized => exact pin_sizedDelim _
  case operatorname =>
    refine Pinned.bind Pinned.allowMods fun _ => Pinned.bind Pinned.argument fun a => ?_
    cases a with
    | token t => cases t <;> pin1
    | group g => pin1
  case pmod => exact Pinned.bind Pinned.argument fun a => Pinned.bind (Pinned.push rfl) fun _ => Pinned.bind (pin_handleArgument hr a) fun _ => by pin1
  case atom cls =>
    exact Pinned.ite Iff.rfl (Pinned.bind Pinned.allowMods fun _ => Pinned.bind (Pinned.setPos _) fun _ => pin_atomGroup hr cls) (pin_atomGroup hr cls)
  case dots =>
    refine Pinned.bind Pinned.get fun st => ?_
    show Pinned id (match trimStart st.content.cs with | c :: _ => _ | [] => _) _
    cases trimStart st.content.cs with
    | nil => pin1
    | cons c t => exact Pinned.ite Iff.rfl (by pin1) (by pin1)
  case color => exact Pinned.bind (pin_groupArg _) fun g => Pinned.bind Pinned.setSkip fun _ => Pinned.bind (pin_colorOf _) fun c => by pin1
  case textcolor =>
    refine Pinned.bind (pin_groupArg _) fun g => Pinned.bind (pin_colorOf _) fun c => Pinned.bind Pinned.argument fun a => Pinned.bind (Pinned.push ?_) fun _ =>
      Pinned.bind (pin_handleArgument hr a) fun _ => Pinned.ev _
    rfl
  case colorbox =>
    refine Pinned.bind (pin_groupArg _) fun g => Pinned.bind (pin_colorOf _) fun c => Pinned.bind (Pinned.push ?_) fun _ =>
      Pinned.bind (pin_textArgument none) fun _ => Pinned.ev _
    rfl
  case fcolorbox =>
    refine Pinned.bind (pin_groupArg _) fun g => Pinned.bind (pin_groupArg _) fun g => Pinned.bind (pin_colorOf _) fun c =>
      Pinned.bind (pin_colorOf _) fun c => Pinned.bind (Pinned.push ?_) fun _ => Pinned.bind (pin_textArgument none) fun _ => Pinned.ev _
    rfl
  case left => exact Pinned.bind pin_leftDelim fun o => Pinned.bind (Pinned.groupContent _) fun c => Pinned.bind pin_leftDelim fun o => by pin1
  case accent =>
    exact Pinned.ite Iff.rfl (Pinned.bind (Pinned.setPos _) fun _ => pin_accent hr _ _) (pin_accent hr _ _)
  case under =>
    exact Pinned.ite Iff.rfl (Pinned.bind (Pinned.setPos _) fun _ => pin_underscript hr _) (pin_underscript hr _)
  case hspace => exact Pinned.bind (pin_groupArg _) fun g => Pinned.bind (Pinned.onStr _ _) fun x => by pin1
  case space3 =>
    refine Pinned.bind (pin_groupArg _) fun g => Pinned.bind (Pinned.onStr _ _) fun x => ?_
    refine Pinned.bind (pin_groupArg _) fun g => Pinned.bind (Pinned.onStr _ _) fun x => ?_
    exact Pinned.bind (pin_groupArg _) fun g => Pinned.bind (Pinned.onStr _ _) fun x => Pinned.ev _
  case xarrow c =>
    refine Pinned.bind Pinned.optionalArgument fun b => Pinned.bind Pinned.argument fun a => ?_
    cases b with
    | none => exact Pinned.bind (Pinned.push rfl) fun _ => pin_handleArgument hr a
    | some g => exact Pinned.bind (Pinned.push rfl) fun _ => Pinned.bind (pin_handleArgument hr (.group g)) fun _ => pin_handleArgument hr a
  case genfrac => exact Pinned.bind pin_genfracDelim fun _ => Pinned.bind pin_genfracDelim fun _ => Pinned.bind pin_genfracBar fun _ => Pinned.bind pin_genfracStyle fun _ =>
      pin_fractionLike hr _ _ _ _
  case overset => exact Pinned.bind (Pinned.ev _) fun _ => pin_scriptSwap hr Pinned.argument
  case buildrel => exact Pinned.bind (Pinned.contentWithSuffix _) fun o => Pinned.bind (Pinned.ev _) fun _ => pin_scriptSwap hr (Pinned.argumentOf o)
  case sideset => exact Pinned.bind Pinned.argument fun _ => Pinned.bind Pinned.argument fun _ => Pinned.bind Pinned.argument fun a => pin_handleArgument hr a
  case sqrt =>
    refine Pinned.bind Pinned.optionalArgument fun i => ?_
    cases i with
    | none => exact Pinned.bind (Pinned.ev _) fun _ => Pinned.bind Pinned.argument fun a => pin_handleArgument hr a
    | some g => exact Pinned.bind (Pinned.ev _) fun _ => Pinned.bind Pinned.argument fun a => Pinned.bind (pin_handleArgument hr a) fun _ => by pin1
  case not_ => exact Pinned.bind (Pinned.ev _) fun _ => Pinned.bind Pinned.argument fun a => pin_handleArgument hr a
  case newline =>
    refine Pinned.bind Pinned.get fun st => ?_
    show Pinned id (match st.align with | some a => _ | none => _) _
    cases st.align with
    | none => pin1
    | some a =>
      refine Pinned.ite Iff.rfl (by pin1) (Pinned.bind (Pinned.set rfl) fun _ => Pinned.bind (e := id) (Pinned.bind Pinned.optionalArgument fun o => ?_) fun _ =>
        Pinned.bind (Pinned.lexPure _) fun _ => by pin1)
      cases o with
      | none => pin1
      | some g => exact Pinned.bind (Pinned.onStr _ _) fun _ => by pin1
  all_goals homs

omit hr
theorem pin_handleToken (n : Nat) : ∀ t : HTok, Pinned id (handleToken cf n t.pin) (handleToken cf n t) := by
  induction n with
  | zero => intro t; exact Pinned.boom _
  | succ n ih =>
    intro t
    cases t with
    | cs name => exact pin_execPrim ih _
    | chr c ctx => exact pin_handleChar c ctx

theorem pin_limits : Pinned id limits limits := by
  refine Pinned.bind Pinned.get fun st => Pinned.ite Iff.rfl ?_ (by pin1)
  show Pinned id (match limitModifiers st.content.cs with | (some true, rest) => _ | (some false, rest) => _ | (none, rest) => _) _
  obtain ⟨o, rest⟩ := limitModifiers st.content.cs
  cases o with
  | none => pin1
  | some b => cases b <;> pin1


theorem pin_scripts {rec : HTok → H PUnit} (hr : ∀ t, Pinned id (rec t.pin) (rec t)) : Pinned id (scripts rec) (scripts rec) := by
  refine Pinned.bind Pinned.get fun st => Pinned.ite Iff.rfl (Pinned.pure rfl) ?_
  refine Pinned.bind pin_limits fun _ => Pinned.bind (Pinned.modify fun _ => rfl) fun _ => Pinned.bind Pinned.get fun s => ?_
  obtain ⟨⟨src, stop, cs⟩, x2, x3, x4, x5, x6, x7, x8⟩ := s
  dsimp only [HSt.pin, Sl.pin]
  cases cs with
  | nil => exact Pinned.pure rfl
  | cons c rest =>
    refine Pinned.ite Iff.rfl ?_ (Pinned.pure rfl)
    refine Pinned.bind (Pinned.set rfl) fun _ => Pinned.bind Pinned.argument fun a => Pinned.bind (pin_handleArgument hr a) fun _ => Pinned.bind Pinned.get fun s => ?_
    have last : Pinned id (do
        let s' ← M.get
        return some ⟨.script (if s.buf.length = s'.buf.length then (if (decide (c = '_')) = true then .sub else .sup) else .subSup) s'.pos,
          if decide (c = '_') = true then x2.length else s.buf.length, if decide (c = '_') = true then s.buf.length else x2.length⟩ : H (Option Desc))
        (do
        let s' ← M.get
        return some ⟨.script (if s.buf.length = s'.buf.length then (if (decide (c = '_')) = true then .sub else .sup) else .subSup) s'.pos,
          if decide (c = '_') = true then x2.length else s.buf.length, if decide (c = '_') = true then s.buf.length else x2.length⟩) := by
      refine Pinned.bind Pinned.get fun s' => Pinned.pure ?_
      simp [HSt.pin]
    have e1 : (HSt.pin s).buf.length = s.buf.length := by simp [HSt.pin]
    have e2 : (x2.map Instr.pin).length = x2.length := by simp
    simp only [e1, e2]
    refine Pinned.ite Iff.rfl ?_ (Pinned.ite Iff.rfl (Pinned.fail _) last)
    refine Pinned.bind (Pinned.set rfl) fun _ => Pinned.bind Pinned.argument fun a => Pinned.bind (pin_handleArgument hr a) fun _ => Pinned.bind Pinned.get fun t => ?_
    show Pinned id (match t.content.cs.head? with | some '_' => _ | some '^' => _ | _ => _) (match t.content.cs.head? with | some '_' => _ | some '^' => _ | _ => _)
    split
    · exact Pinned.fail _
    · exact Pinned.fail _
    · exact last

theorem pin_atom (t : HTok) : Pinned id (atom cf t.pin) (atom cf t) :=
  Pinned.bind Pinned.get fun _ => Pinned.bind (pin_handleToken _ t) fun _ => Pinned.bind Pinned.get fun _ => pin_scripts (pin_handleToken _)

end
end PL
