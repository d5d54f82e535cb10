import Verif.Lemmas.Ext
import Verif.Lemmas.Color
import Verif.Lemmas.Fits
import Verif.Spec.Origin
set_option autoImplicit false
set_option linter.unusedSectionVars false
/-!
# Where texts come from

Every handler takes the texts it stages from what it reads: a property of texts that holds for the parts of a text is kept.
-/
namespace PL
open Lex Spec

/-- A property that holds for the parts of a text it holds for. -/
class Cut (Q : Str → Prop) : Prop where
  cut : ∀ a b c : Str, Q (a ++ b ++ c) → Q b

theorem Cut.infix {Q : Str → Prop} [Cut Q] {a b : Str} (h : a <:+: b) (hb : Q b) : Q a := by
  obtain ⟨x, y, rfl⟩ := h
  exact Cut.cut _ _ _ hb

variable {cf : Cfg} {α β : Type} {Q : Str → Prop} [Cut Q]

def InstrFrom (Q : Str → Prop) : Instr → Prop
  | .ev e => Origin Q e
  | .sub x _ => Q x.cs

def HTok.comes (Q : Str → Prop) : HTok → Prop
  | .cs _ => True
  | .chr _ ctx => Q ctx.cs

def HArg.comes (Q : Str → Prop) : HArg → Prop
  | .token t => t.comes Q
  | .group g => Q g.cs

def HSt.comes (Q : Str → Prop) (s : HSt) : Prop := Q s.content.cs ∧ ∀ i ∈ s.buf, InstrFrom Q i

/-- `m` keeps the bound, and its result satisfies `P`. -/
def Froms (Q : Str → Prop) (P : α → Prop) (m : H α) : Prop :=
  ∀ s, s.comes Q → Sat (fun a s' => P a ∧ s'.comes Q) (fun _ s' => s'.comes Q) (fun _ => True) (m s)

theorem Froms.bind {P : α → Prop} {R : β → Prop} {m : H α} {f : α → H β} (h : Froms Q P m) (hf : ∀ a, P a → Froms Q R (f a)) : Froms Q R (m >>= f) :=
  fun s hs => Sat.bind (h s hs) fun a s' h' => hf a h'.1 s' h'.2
theorem Froms.mono {P R : α → Prop} {m : H α} (h : Froms Q P m) (hq : ∀ a, P a → R a) : Froms Q R m :=
  fun s hs => (h s hs).mono (fun a _ h => ⟨hq a h.1, h.2⟩) (fun _ _ h => h) (fun _ h => h)
theorem Froms.pure {P : α → Prop} {a : α} (h : P a) : Froms Q P (Pure.pure a) := fun _ hs => ⟨h, hs⟩
theorem Froms.fail {P : α → Prop} {k : ErrorKind} : Froms Q P (M.fail k) := fun _ hs => hs
theorem Froms.boom {P : α → Prop} (p : Panic) : Froms Q P (M.boom p) := fun _ _ => trivial
theorem Froms.get : Froms Q (HSt.comes Q) M.get := fun _ hs => ⟨hs, hs⟩
theorem Froms.set {s : HSt} (h : s.comes Q) : Froms Q Any (M.set s) := fun _ _ => ⟨trivial, h⟩
theorem Froms.modify {f : HSt → HSt} (h : ∀ s, s.comes Q → (f s).comes Q) : Froms Q Any (M.modify f) := fun s hs => ⟨trivial, h s hs⟩
theorem Froms.ite {P : α → Prop} {c : Prop} [Decidable c] {a b : H α} (h1 : Froms Q P a) (h2 : Froms Q P b) : Froms Q P (if c then a else b) := by
  split
  · exact h1
  · exact h2

theorem from_cs {s : HSt} (h : s.comes Q) {r : Str} (hr : r <:+: s.content.cs) : HSt.comes Q { s with content := { s.content with cs := r } } :=
  ⟨Cut.infix hr h.1, h.2⟩

theorem Froms.lexWith {P : α → Prop} {m : L α} (hm : ∀ s, Good cf s (m s)) (hp : ∀ s a r, Q s → m s = .ok a r → P a) : Froms Q P (H.lex m) := by
  intro s hs
  have hg := hm s.content.cs
  unfold H.lex
  cases hr : m s.content.cs with
  | ok a r => rw [hr] at hg; exact ⟨hp _ _ _ hs.1 hr, from_cs hs hg.isInfix⟩
  | err e r => rw [hr] at hg; exact from_cs hs hg.isInfix
  | panic p => exact trivial
theorem Froms.lex {m : L α} (hm : ∀ s, Good cf s (m s)) : Froms Q Any (H.lex m) := Froms.lexWith hm fun _ _ _ _ _ => trivial
theorem Froms.onStr {m : L α} (str : Str) : Froms Q Any (H.onStr m str) := by
  intro s hs
  unfold H.onStr
  cases hr : m str with
  | ok a r => exact ⟨trivial, hs⟩
  | err e r => exact hs
  | panic p => exact trivial

theorem arg_comes {sl : Sl} {a : Arg} {r : Str} (h : Lex.argument sl.cs = .ok a r) (hs : Q sl.cs) : (HArg.ofArg sl r a).comes Q := by
  have hf := arg_facts h
  cases a with
  | group g =>
    obtain ⟨w, _, e⟩ := hf
    exact Cut.infix ⟨w ++ ['{'], '}' :: r, by rw [e]; simp [Sl.part]⟩ hs
  | token tok =>
    have ht := token_facts hf
    cases tok with
    | cs name => exact trivial
    | chr c r' =>
      obtain ⟨rfl, k, hk, e, -⟩ := ht
      exact Cut.infix ⟨k, [], by rw [e]; simp⟩ hs

theorem Froms.argument : Froms Q (HArg.comes Q) H.argument := by
  intro s hs
  have hg := good_argument (cf := ⟨true, fun _ => 0⟩) s.content.cs
  unfold H.argument
  cases hr : Lex.argument s.content.cs with
  | ok a r => rw [hr] at hg; exact ⟨arg_comes hr hs.1, from_cs hs hg.isInfix⟩
  | err e r => rw [hr] at hg; exact from_cs hs hg.isInfix
  | panic p => exact trivial
theorem Froms.argumentOf {sl : Sl} (h : Q sl.cs) : Froms Q (HArg.comes Q) (H.argumentOf sl) := by
  intro s hs
  unfold H.argumentOf
  cases hr : Lex.argument sl.cs with
  | ok a r => exact ⟨arg_comes hr h, hs⟩
  | err e r => exact hs
  | panic p => exact trivial
theorem Froms.groupContent (k : GroupingKind) : Froms Q (fun g => Q g.cs) (H.groupContent k) := by
  intro s hs
  have hg := good_groupContent (cf := ⟨true, fun _ => 0⟩) k s.content.cs
  unfold H.groupContent
  cases hr : Lex.groupContent k s.content.cs with
  | ok g r =>
    rw [hr] at hg
    refine ⟨?_, from_cs hs hg.isInfix⟩
    exact Cut.infix ⟨[], k.closingStr ++ r, by rw [groupContent_eq hr]; simp [Sl.part]⟩ hs.1
  | err e r => rw [hr] at hg; exact from_cs hs hg.isInfix
  | panic p => exact trivial
theorem Froms.braceArgument : Froms Q (fun g => Q g.cs) H.braceArgument := by
  intro s hs
  have hg := good_braceArgument (cf := ⟨true, fun _ => 0⟩) s.content.cs
  unfold H.braceArgument
  cases hr : Lex.braceArgument s.content.cs with
  | ok g r =>
    rw [hr] at hg
    refine ⟨?_, from_cs hs hg.isInfix⟩
    obtain ⟨w, _, e⟩ := braceArgument_eq hr
    exact Cut.infix ⟨w ++ ['{'], '}' :: r, by rw [e]; simp [Sl.part]⟩ hs.1
  | err e r => rw [hr] at hg; exact from_cs hs hg.isInfix
  | panic p => exact trivial
theorem Froms.contentWithSuffix {d : Str} (hd : 1 < blen d) : Froms Q (fun g => Q g.cs) (H.contentWithSuffix d) := by
  intro s hs
  have hg := good_contentWithSuffix (cf := ⟨true, fun _ => 0⟩) hd s.content.cs
  unfold H.contentWithSuffix
  cases hr : Lex.contentWithSuffix d s.content.cs with
  | ok g r =>
    rw [hr] at hg
    refine ⟨?_, from_cs hs hg.isInfix⟩
    have h1 : g <+: s.content.cs := by
      have h := Macros.contentWithSuffix_ok.1 hr
      generalize s.content.cs = t at h
      clear hr hg hs
      induction h with
      | found => exact List.nil_prefix
      | @comment line s a r _ _ _ ih => obtain ⟨t, rfl⟩ := ih; exact ⟨t, by simp⟩
      | @escaped c s a r _ _ ih => obtain ⟨t, rfl⟩ := ih; exact ⟨t, by simp⟩
      | @braces s g s' a r _ h _ ih => obtain ⟨t, rfl⟩ := ih; rw [h.eq]; exact ⟨t, by simp⟩
      | @char c s a r _ _ _ _ _ ih => obtain ⟨t, rfl⟩ := ih; exact ⟨t, by simp⟩
    exact Cut.infix h1.isInfix hs.1
  | err e r => rw [hr] at hg; exact from_cs hs hg.isInfix
  | panic p => exact trivial
theorem Froms.optionalArgument : Froms Q (fun g : Option Sl => ∀ x, g = some x → Q x.cs) H.optionalArgument := by
  intro s hs
  have hg := good_optionalArgument (cf := ⟨true, fun _ => 0⟩) s.content.cs
  unfold H.optionalArgument
  cases hr : Lex.optionalArgument s.content.cs with
  | ok g r =>
    rw [hr] at hg
    refine ⟨?_, from_cs hs hg.isInfix⟩
    intro x hx
    rcases optionalArgument_eq hr with ⟨rfl, -⟩ | ⟨w, t, -, e, ⟨rfl, -⟩ | ⟨g', rfl, e2⟩⟩
    · cases hx
    · cases hx
    · cases hx
      exact Cut.infix ⟨w ++ ['['], ']' :: r, by rw [e, e2]; simp [Sl.part]⟩ hs.1
  | err e r => rw [hr] at hg; exact from_cs hs hg.isInfix
  | panic p => exact trivial
theorem Froms.macros {f : Macros.Ctx → Except (ErrorKind ⊕ Panic) Macros.Ctx} : Froms Q Any (H.macros f) := by
  intro s hs
  unfold H.macros
  cases hf : f s.macros with
  | ok m => exact ⟨trivial, hs⟩
  | error x => cases x with
    | inl e => exact hs
    | inr p => exact trivial
theorem Froms.push {is : List Instr} (h : ∀ i ∈ is, InstrFrom Q i) : Froms Q Any (H.push is) := by
  refine Froms.modify fun s hs => ⟨hs.1, ?_⟩
  intro i hi
  rcases List.mem_append.1 hi with hi | hi
  · exact hs.2 i hi
  · exact h i hi
theorem Froms.ev {e : Event} (h : Origin Q e) : Froms Q Any (H.ev e) := Froms.push fun i hi => by
  rw [List.mem_singleton] at hi; rw [hi]; exact h
theorem Froms.setContent {c : Sl} (h : Q c.cs) : Froms Q Any (H.setContent c) := Froms.modify fun _ hs => ⟨h, hs.2⟩
theorem Froms.allowMods : Froms Q Any H.allowMods := Froms.modify fun _ hs => hs
theorem Froms.setPos (p : ScriptPos) : Froms Q Any (H.setPos p) := Froms.modify fun _ hs => hs
theorem Froms.setSkip : Froms Q Any H.setSkip := Froms.modify fun _ hs => hs
theorem Froms.setHarg : Froms Q Any H.setHarg := Froms.modify fun _ hs => hs


theorem Froms.lines : Froms Q Any (H.lexPure horizontalLines) := by
  intro s hs
  unfold H.lexPure H.lex
  exact ⟨trivial, from_cs hs (horizontalLines_suffix s.content.cs).isInfix⟩

/-- What is staged in one go. -/
macro "comesl" : tactic => `(tactic| repeat' (first
  | exact List.forall_mem_nil _ | refine List.forall_mem_cons.2 ⟨?_, ?_⟩ | exact trivial | assumption))

/-- The basic steps. -/
macro "comes1" : tactic => `(tactic| first
  | exact Froms.fail | exact Froms.boom _ | exact Froms.ev trivial | exact Froms.get
  | exact Froms.argument | exact Froms.groupContent _ | exact Froms.braceArgument | exact Froms.optionalArgument
  | exact Froms.allowMods | exact Froms.setPos _ | exact Froms.setSkip | exact Froms.setHarg
  | exact Froms.pure trivial | exact Froms.push (by comesl))

section
variable {rec : HTok → H PUnit} (hr : ∀ t, t.comes Q → Froms Q Any (rec t))

theorem from_plain (c : Char) : Origin Q (plainCharEvent c) := by
  unfold plainCharEvent
  repeat' split
  all_goals exact trivial

theorem from_handleChar (c : Char) {ctx : Sl} (hc : Q ctx.cs) : Froms Q Any (handleChar c ctx) := by
  unfold handleChar
  refine Froms.bind Froms.get fun st hst => ?_
  refine Froms.ite (by comes1) (Froms.ite (Froms.ite (by comes1) ?_) ?_)
  · exact Froms.bind (by comes1) fun _ _ => Froms.bind (Froms.setContent hc) fun _ _ => by comes1
  refine Froms.ite (by comes1) (Froms.ite (by comes1) (Froms.ite ?_ (Froms.ite ?_ ?_)))
  · cases st.align with
    | none => comes1
    | some a => exact Froms.ite (Froms.bind (Froms.set hst) fun _ _ => by comes1) (by comes1)
  · exact Froms.bind (Froms.groupContent _) fun g hg => Froms.push (by comesl)
  refine Froms.ite (by comes1) (Froms.ite ?_ (Froms.ite ?_ ?_))
  · exact Froms.ev (.inr rfl)
  · refine Froms.bind (Froms.setContent ?_) fun _ _ => Froms.ev ?_
    · exact Cut.infix (List.drop_suffix _ _).isInfix hc
    · exact Cut.infix (List.take_prefix _ _).isInfix hc
  · exact Froms.ev (from_plain c)

theorem from_groupArg {e : ErrorKind} : Froms Q (fun g => Q g.cs) (groupArg e) := by
  refine Froms.bind Froms.argument fun a ha => ?_
  cases a with
  | token t => exact Froms.fail
  | group g => exact Froms.pure ha

theorem from_colorOf (s : Str) : Froms Q Any (colorOf s) := by
  unfold colorOf
  cases h : Lex.color s with
  | some c => exact Froms.pure trivial
  | none => comes1
  | panic => comes1

theorem from_textArgument (f : Option Font) : Froms Q Any (textArgument f) := by
  refine Froms.bind (P := fun t => Q t) (Froms.bind Froms.argument fun a ha => ?_) fun t ht => ?_
  · cases a with
    | token t =>
      cases t with
      | cs n => comes1
      | chr c x => exact Froms.pure ha
    | group g => exact Froms.pure ha
  · cases f with
    | none => exact Froms.ev (.inl ht)
    | some f =>
      have : InstrFrom Q (.ev (.content (.text t))) := .inl ht
      exact Froms.push (by comesl)

theorem from_delimiter : Froms Q Any (H.lex delimiter) := Froms.lex (cf := ⟨true, fun _ => 0⟩) good_delimiter

theorem from_sizedDelim (size : DelimSize) : Froms Q Any (sizedDelim size) := Froms.bind from_delimiter fun x _ => by comes1

theorem from_arrayEnvironment : Froms Q (fun x => Origin Q (.begin_ x.1)) (arrayEnvironment cf) := by
  refine Froms.bind from_groupArg fun g hg => ?_
  cases h : columns cf 0 g.cs with
  | error x => cases x with
    | inl e => exact Froms.fail
    | inr p => comes1
  | ok x =>
    obtain ⟨cols, m⟩ := x
    exact Froms.ite (by comes1) (Froms.pure trivial)

theorem from_optionalAlignment : Froms Q Any optionalAlignment := by
  refine Froms.bind Froms.optionalArgument fun g _ => ?_
  cases g with
  | none => comes1
  | some g => exact Froms.ite (by comes1) (Froms.ite (by comes1) (Froms.ite (by comes1) (by comes1)))

theorem from_newCommand (should : Option Bool) : Froms Q Any (newCommand should) := by
  refine Froms.bind Froms.braceArgument fun g _ => Froms.bind (Froms.onStr _) fun cs _ => Froms.bind Froms.get fun st _ => Froms.ite ?_ ?_
  · exact Froms.fail
  refine Froms.bind Froms.optionalArgument fun n _ => ?_
  cases n with
  | none => comes1
  | some n =>
    dsimp only
    cases parseU8 n.cs with
    | none => comes1
    | some k =>
      refine Froms.bind Froms.optionalArgument fun d _ => ?_
      split
      · comes1
      · rename_i hk
        refine Froms.bind Froms.braceArgument fun r _ => Froms.bind Froms.get fun st _ => ?_
        exact Froms.ite (by comes1) Froms.macros

theorem from_genfracDelim : Froms Q Any genfracDelim := by
  refine Froms.bind Froms.argument fun a _ => ?_
  cases a with
  | token t =>
    dsimp only
    split <;> comes1
  | group g => exact Froms.ite (by comes1) (by comes1)

theorem from_genfracBar : Froms Q Any genfracBar := by
  refine Froms.bind Froms.argument fun a _ => ?_
  cases a with
  | token t => comes1
  | group g => exact Froms.ite (by comes1) (Froms.bind (Froms.onStr _) fun x _ => Froms.ite (by comes1) (by comes1))

theorem from_genfracStyle : Froms Q Any genfracStyle := by
  refine Froms.bind Froms.argument fun a _ => ?_
  repeat' split
  all_goals comes1

theorem from_pairsArg : Froms Q Any (pairsArg cf) :=
  Froms.bind from_groupArg fun g _ => Froms.bind (Froms.onStr _) fun n _ => by comes1

theorem from_pairsMax (n : Nat) : Froms Q Any (pairsMax cf n) :=
  Froms.ite (by comes1) (Froms.ite (by comes1) (by comes1))

theorem from_subarrayAlign : Froms Q Any subarrayAlign := by
  refine Froms.bind Froms.argument fun a _ => ?_
  cases a with
  | token t => comes1
  | group g => exact Froms.ite (by comes1) (Froms.ite (by comes1) (Froms.ite (by comes1) (by comes1)))

/-- The group an environment starts. -/
def EnvFrom (Q : Str → Prop) (e : Env) : Prop := Origin Q (.begin_ e.g)

theorem from_matrixEnv (ty : MatrixType) (spec : Bool) (style : Option Style) (wrap : Option (Char × Char)) :
    Froms Q (EnvFrom Q) (matrixEnv ty spec style wrap) := by
  cases spec with
  | false => exact Froms.bind (P := Any) (Froms.pure trivial) fun _ _ => Froms.pure trivial
  | true => exact Froms.bind from_optionalAlignment fun _ _ => Froms.pure trivial

theorem from_alignatEnv {g : Nat → Grouping} (hg : ∀ n, Origin Q (.begin_ (g n))) (k : GroupingKind) : Froms Q (EnvFrom Q) (alignatEnv cf g k) :=
  Froms.bind from_pairsArg fun n _ => Froms.bind (from_pairsMax n) fun _ _ => Froms.pure (hg n)

theorem from_environments : ∀ x ∈ environments cf, Froms Q (EnvFrom Q) x.2 := by
  unfold environments
  simp only [List.forall_mem_cons]
  refine ⟨Froms.bind from_arrayEnvironment fun _ h => Froms.pure h, Froms.bind from_arrayEnvironment fun _ h => Froms.pure h, ?_⟩
  refine ⟨from_matrixEnv _ _ _ _, from_matrixEnv _ _ _ _, from_matrixEnv _ _ _ _, from_matrixEnv _ _ _ _, from_matrixEnv _ _ _ _,
    from_matrixEnv _ _ _ _, from_matrixEnv _ _ _ _, from_matrixEnv _ _ _ _, from_matrixEnv _ _ _ _, from_matrixEnv _ _ _ _,
    from_matrixEnv _ _ _ _, from_matrixEnv _ _ _ _, from_matrixEnv _ _ _ _, ?_⟩
  refine ⟨by comes1, by comes1, by comes1, by comes1, by comes1, by comes1, by comes1, by comes1, by comes1, by comes1, by comes1, by comes1, ?_⟩
  refine ⟨from_alignatEnv (fun _ => by exact trivial) _, from_alignatEnv (fun _ => by exact trivial) _, from_alignatEnv (fun _ => by exact trivial) _,
    Froms.bind from_subarrayAlign fun _ _ => by comes1, by comes1, by comes1, ?_⟩
  intro x hx; cases hx

theorem from_beginEnv : Froms Q Any (beginEnv cf) := by
  refine Froms.bind from_groupArg fun g _ => ?_
  cases h : (environments cf).lookup g.cs with
  | none => comes1
  | some m =>
    refine Froms.bind (from_environments _ (lookup_mem_gen h)) fun env henv => ?_
    obtain ⟨gg, mx, k, style, wrap⟩ := env
    have hgg : InstrFrom Q (.ev (.begin_ gg)) := henv
    clear henv
    have tail : ∀ lines : List Line, ∀ c : Sl, Q c.cs → Froms Q Any
        (H.push ([.ev (.begin_ gg)] ++
        (match style with
          | some s => [.ev (.stateChange (.style s))]
          | none => []) ++
        (if lines.isEmpty then [] else [.ev (.flow (.startLines lines))]) ++
        [.sub c (some ⟨0, mx⟩), .ev .end_] ++
        (if wrap.isSome then [.ev .end_] else []))) := by
      intro lines c hc
      refine Froms.push ?_
      have hll : InstrFrom Q (.ev (.flow (.startLines lines))) := trivial
      have hcc : InstrFrom Q (.sub c (some ⟨0, mx⟩)) := hc
      intro i hi
      simp only [List.mem_append] at hi
      rcases hi with (((hi | hi) | hi) | hi) | hi
      · rw [List.mem_singleton] at hi; rw [hi]; exact hgg
      · cases style with
        | none => cases hi
        | some s => rw [List.mem_singleton] at hi; rw [hi]; exact trivial
      · split at hi
        · cases hi
        · rw [List.mem_singleton] at hi; rw [hi]; exact hll
      · simp only [List.mem_cons, List.not_mem_nil, or_false] at hi
        rcases hi with rfl | rfl
        · exact hcc
        · exact trivial
      · split at hi
        · rw [List.mem_singleton] at hi; rw [hi]; exact trivial
        · cases hi
    cases wrap with
    | none => exact Froms.bind Froms.lines fun l hl => Froms.bind (Froms.groupContent _) fun c hc => tail l c hc
    | some w =>
      obtain ⟨a, b⟩ := w
      exact Froms.bind (Froms.ev trivial) fun _ _ => Froms.bind Froms.lines fun l hl => Froms.bind (Froms.groupContent _) fun c hc => tail l c hc

theorem from_leftDelim : Froms Q Any leftDelim := by
  refine Froms.bind Froms.get fun st hst => ?_
  have h1 := hst.1
  split
  · rename_i rest e
    refine Froms.bind (Froms.setContent ?_) fun _ _ => by comes1
    exact Cut.infix ⟨c!".", [], by rw [e]; simp⟩ h1
  · exact Froms.bind from_delimiter fun _ _ => by comes1

include hr

theorem from_handleArgument {a : HArg} (ha : a.comes Q) : Froms Q Any (handleArgument rec a) := by
  cases a with
  | token t => exact Froms.bind (by comes1) fun _ _ => hr t ha
  | group g =>
    have : InstrFrom Q (.sub g none) := ha
    exact Froms.push (by comesl)

theorem from_atomGroup (cls : AtomClass) : Froms Q Any (atomGroup rec cls) := by
  refine Froms.bind Froms.argument fun a ha => ?_
  cases singleChar a with
  | some c =>
    refine Froms.ev ?_
    cases cls <;> exact trivial
  | none =>
    have key : Froms Q Any (do H.ev (.begin_ .normal); handleArgument rec a; H.ev .end_) :=
      Froms.bind (by comes1) fun _ _ => Froms.bind (from_handleArgument hr ha) fun _ _ => by comes1
    cases cls <;> cases a <;> first | exact key | exact Froms.ev (.inl ha)

theorem from_fontGroup (f : Option Font) : Froms Q Any (fontGroup rec f) := by
  refine Froms.bind Froms.argument fun a ha => Froms.bind (by comes1) fun _ _ => ?_
  cases a with
  | token t => exact Froms.bind (hr t ha) fun _ _ => by comes1
  | group g =>
    have : InstrFrom Q (.sub g none) := ha
    exact Froms.bind (Froms.push (by comesl)) fun _ _ => by comes1

theorem from_accent (c : Char) (b : Bool) : Froms Q Any (accent rec c b) :=
  Froms.bind Froms.argument fun _ ha => Froms.bind (by comes1) fun _ _ => Froms.bind (from_handleArgument hr ha) fun _ _ => by comes1

theorem from_underscript (c : Char) : Froms Q Any (underscript rec c) :=
  Froms.bind Froms.argument fun _ ha => Froms.bind (by comes1) fun _ _ => Froms.bind (from_handleArgument hr ha) fun _ _ => by comes1

theorem from_fractionLike (l r : Option Char) (bar : Option Dim) (style : Option Style) : Froms Q Any (fractionLike rec l r bar style) := by
  unfold fractionLike
  cases style <;> dsimp only
  all_goals
    repeat' (first
      | comes1 | exact from_handleArgument hr ‹_› | refine Froms.ite ?_ ?_ | apply Froms.bind | intro _ _)

theorem from_scriptSwap {over : H HArg} (ho : Froms Q (HArg.comes Q) over) : Froms Q Any (scriptSwap rec over) := by
  refine Froms.bind Froms.get fun st _ => Froms.bind ho fun a ha => Froms.bind (from_handleArgument hr ha) fun _ _ => Froms.bind Froms.get fun st2 h2 => ?_
  refine Froms.bind (Froms.modify fun s hs => ⟨hs.1, fun i hi => hs.2 i (List.mem_of_mem_take hi)⟩) fun _ _ =>
    Froms.bind Froms.argument fun b hb => Froms.bind (from_handleArgument hr hb) fun _ _ => Froms.push fun i hi => h2.2 i (List.mem_of_mem_drop hi)

/-- The names of functions. -/
def Prim.comes : Prim → Bool
  | .func s | .funcMov s => functionNames.contains s
  | _ => true

theorem from_execPrim (p : Prim) (hp : p.comes = true) : Froms Q Any (execPrim cf rec p) := by
  cases p
  all_goals unfold execPrim
  all_goals dsimp only
  case func => exact Froms.ev (.inr (by simpa [Prim.comes] using hp))
  case funcMov => exact Froms.bind (by comes1) fun _ _ => Froms.bind (by comes1) fun _ _ => Froms.ev (.inr (by simpa [Prim.comes] using hp))
  case frac => exact from_fractionLike hr _ _ _ _
  case fontGroup => exact from_fontGroup hr _
  case text => exact from_textArgument _
  case begin_ => exact from_beginEnv
  case newcommand => exact from_newCommand _
  case sized => exact from_sizedDelim _
  case operatorname =>
    refine Froms.bind Froms.allowMods fun _ _ => Froms.bind Froms.argument fun a ha => ?_
    cases a with
    | token t =>
      cases t with
      | cs n => comes1
      | chr c x => exact Froms.ev (.inl ha)
    | group g => exact Froms.ev (.inl ha)
  case pmod =>
    refine Froms.bind Froms.argument fun a ha => Froms.bind (Froms.push ?_) fun _ _ => Froms.bind (from_handleArgument hr ha) fun _ _ => by comes1
    have h3 : InstrFrom Q (.ev (.content (.function c!"mod"))) := Or.inr (by decide)
    comesl
  case atom cls => exact Froms.ite (Froms.bind Froms.allowMods fun _ _ => Froms.bind (Froms.setPos _) fun _ _ => from_atomGroup hr cls) (from_atomGroup hr cls)
  case dots =>
    refine Froms.bind Froms.get fun st _ => ?_
    cases trimStart st.content.cs with
    | nil => comes1
    | cons c t => exact Froms.ite (by comes1) (by comes1)
  case color => exact Froms.bind from_groupArg fun g _ => Froms.bind Froms.setSkip fun _ _ => Froms.bind (from_colorOf _) fun c hc => Froms.ev hc
  case textcolor =>
    refine Froms.bind from_groupArg fun g _ => Froms.bind (from_colorOf _) fun c hc => Froms.bind Froms.argument fun a ha => Froms.bind (Froms.push ?_) fun _ _ =>
      Froms.bind (from_handleArgument hr ha) fun _ _ => by comes1
    comesl
  case colorbox =>
    refine Froms.bind from_groupArg fun g _ => Froms.bind (from_colorOf _) fun c hc => Froms.bind (Froms.push ?_) fun _ _ =>
      Froms.bind (from_textArgument none) fun _ _ => by comes1
    comesl
  case fcolorbox =>
    refine Froms.bind from_groupArg fun g _ => Froms.bind from_groupArg fun g _ => Froms.bind (from_colorOf _) fun c hc =>
      Froms.bind (from_colorOf _) fun c hc => Froms.bind (Froms.push ?_) fun _ _ => Froms.bind (from_textArgument none) fun _ _ => by comes1
    comesl
  case left =>
    refine Froms.bind from_leftDelim fun o _ => Froms.bind (Froms.groupContent _) fun c hc => Froms.bind from_leftDelim fun o _ => Froms.push ?_
    comesl
  case middle => exact Froms.bind from_delimiter fun _ _ => by comes1
  case accent => exact Froms.ite (Froms.bind (Froms.setPos _) fun _ _ => from_accent hr _ _) (from_accent hr _ _)
  case under => exact Froms.ite (Froms.bind (Froms.setPos _) fun _ _ => from_underscript hr _) (from_underscript hr _)
  case nbsp => exact Froms.ev (.inr rfl)
  case kern => exact Froms.bind (Froms.lex (cf := cf) good_dimensionOrBraced) fun _ _ => by comes1
  case hskip => exact Froms.bind (Froms.lex (cf := cf) good_glueOrBraced) fun _ _ => by comes1
  case mkern => exact Froms.bind (Froms.lex (cf := cf) good_dimensionOrBraced) fun _ _ => Froms.ite (by comes1) (by comes1)
  case mskip => exact Froms.bind (Froms.lex (cf := cf) good_glueOrBraced) fun _ _ => Froms.ite (by comes1) (by comes1)
  case hspace => exact Froms.bind from_groupArg fun g _ => Froms.bind (Froms.onStr _) fun x _ => by comes1
  case space3 =>
    refine Froms.bind from_groupArg fun g _ => Froms.bind (Froms.onStr _) fun x _ => ?_
    refine Froms.bind from_groupArg fun g _ => Froms.bind (Froms.onStr _) fun x _ => ?_
    exact Froms.bind from_groupArg fun g _ => Froms.bind (Froms.onStr _) fun x _ => by comes1
  case xarrow c =>
    refine Froms.bind Froms.optionalArgument fun b hb => Froms.bind Froms.argument fun a ha => ?_
    cases b with
    | none => exact Froms.bind (by comes1) fun _ _ => from_handleArgument hr ha
    | some g => exact Froms.bind (by comes1) fun _ _ => Froms.bind (from_handleArgument hr (a := .group g) (hb g rfl)) fun _ _ => from_handleArgument hr ha
  case genfrac => exact Froms.bind from_genfracDelim fun _ _ => Froms.bind from_genfracDelim fun _ _ => Froms.bind from_genfracBar fun _ _ => Froms.bind from_genfracStyle fun _ _ => from_fractionLike hr _ _ _ _
  case overset => exact Froms.bind (by comes1) fun _ _ => from_scriptSwap hr Froms.argument
  case buildrel => exact Froms.bind (Froms.contentWithSuffix (by decide)) fun o ho => Froms.bind (by comes1) fun _ _ => from_scriptSwap hr (Froms.argumentOf ho)
  case substack => exact Froms.bind Froms.braceArgument fun g hg => Froms.push (by comesl)
  case sideset => exact Froms.bind Froms.argument fun _ _ => Froms.bind Froms.argument fun _ _ => Froms.bind Froms.argument fun a ha => from_handleArgument hr ha
  case sqrt =>
    refine Froms.bind Froms.optionalArgument fun i hi => ?_
    cases i with
    | none => exact Froms.bind (by comes1) fun _ _ => Froms.bind Froms.argument fun a ha => from_handleArgument hr ha
    | some g =>
      have : InstrFrom Q (.sub g none) := hi g rfl
      exact Froms.bind (by comes1) fun _ _ => Froms.bind Froms.argument fun a ha => Froms.bind (from_handleArgument hr ha) fun _ _ => Froms.push (by comesl)
  case not_ => exact Froms.bind (by comes1) fun _ _ => Froms.bind Froms.argument fun a ha => from_handleArgument hr ha
  case char => exact Froms.bind (Froms.lex (cf := cf) good_unsignedInteger) fun _ _ => Froms.ite (by comes1) (by comes1)
  case relax => exact Froms.bind Froms.get fun _ _ => Froms.ite (by comes1) (by comes1)
  case begingroup => exact Froms.bind (Froms.groupContent _) fun g hg => Froms.push (by comesl)
  case newline =>
    refine Froms.bind Froms.get fun st hst => ?_
    cases st.align with
    | none => comes1
    | some a =>
      refine Froms.ite (by comes1) (Froms.bind (Froms.set hst) fun _ _ => Froms.bind (P := Any) (Froms.bind Froms.optionalArgument fun o _ => ?_) fun _ _ =>
        Froms.bind Froms.lines fun _ _ => by comes1)
      cases o with
      | none => comes1
      | some g => exact Froms.bind (Froms.onStr _) fun _ _ => by comes1
  case def_ => exact Froms.bind (Froms.lex (cf := cf) good_definition) fun _ _ => Froms.bind (by comes1) fun _ _ => Froms.macros
  case let_ => exact Froms.bind (Froms.lex (cf := cf) good_letAssignment) fun _ _ => Froms.bind (by comes1) fun _ _ => Froms.macros
  case futurelet =>
    refine Froms.bind (P := fun x => Q x.2.2) (Froms.lexWith (cf := cf) good_futureletAssignment ?_) fun x hx => Froms.bind (by comes1) fun _ _ =>
      Froms.bind (Froms.macros) fun _ _ => Froms.modify fun s hs => ⟨hx, hs.2⟩
    intro s x r hs h
    unfold futureletAssignment at h
    obtain ⟨name, s1, h1, h⟩ := M.bind_eq_ok h
    rw [M.get_bind] at h
    obtain ⟨_, s2, h2, h⟩ := M.bind_eq_ok h
    obtain ⟨t, s3, h3, h⟩ := M.bind_eq_ok h
    cases h
    have := good_controlSequence (cf := cf) s
    rw [h1] at this
    exact Cut.infix this.isInfix hs
  all_goals
    repeat' (first | comes1 | apply Froms.bind | refine Froms.ite ?_ ?_ | intro _ _)

end
end PL
