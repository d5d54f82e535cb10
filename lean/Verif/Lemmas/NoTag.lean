import Verif.Lemmas.Ext
import Verif.Lemmas.Color
import Verif.Lemmas.Origin
import Verif.Spec.Safe
set_option autoImplicit false
set_option linter.unusedSectionVars false
/-!
# Where texts come from

Every handler takes the texts it stages from what it reads: a property of texts that holds for the parts of a text is kept.
-/
namespace PL
open Lex Spec

/-- A property of texts that holds for their parts, excludes the character that begins a tag and the two commands that write it. -/
class NoTag (Q : Str → Prop) : Prop extends Cut Q where
  free : ∀ t, Q t → '<' ∉ t
  lt : ¬ Q c!"\\lt"
  char : ¬ Q c!"\\char"

theorem NoTag.head {Q : Str → Prop} [NoTag Q] {c : Char} {t : Str} (h : Q (c :: t)) : c ≠ '<' := by
  rintro rfl
  exact NoTag.free _ h (by simp)

variable {cf : Cfg} {α β : Type} {Q : Str → Prop} [NoTag Q]

def InstrSafe (Q : Str → Prop) : Instr → Prop
  | .ev e => SafeEvent e
  | .sub x _ => Q x.cs

def HTok.safe (Q : Str → Prop) : HTok → Prop
  | .cs name => Q ('\\' :: name)
  | .chr c ctx => c ≠ '<' ∧ Q ctx.cs

def HArg.safe (Q : Str → Prop) : HArg → Prop
  | .token t => t.safe Q
  | .group g => Q g.cs

def HSt.safe (Q : Str → Prop) (s : HSt) : Prop := Q s.content.cs ∧ ∀ i ∈ s.buf, InstrSafe Q i

/-- `m` keeps the bound, and its result satisfies `P`. -/
def Safes (Q : Str → Prop) (P : α → Prop) (m : H α) : Prop :=
  ∀ s, s.safe Q → Sat (fun a s' => P a ∧ s'.safe Q) (fun _ s' => s'.safe Q) (fun _ => True) (m s)

theorem Safes.bind {P : α → Prop} {R : β → Prop} {m : H α} {f : α → H β} (h : Safes Q P m) (hf : ∀ a, P a → Safes Q R (f a)) : Safes Q R (m >>= f) :=
  fun s hs => Sat.bind (h s hs) fun a s' h' => hf a h'.1 s' h'.2
theorem Safes.mono {P R : α → Prop} {m : H α} (h : Safes Q P m) (hq : ∀ a, P a → R a) : Safes Q R m :=
  fun s hs => (h s hs).mono (fun a _ h => ⟨hq a h.1, h.2⟩) (fun _ _ h => h) (fun _ h => h)
theorem Safes.pure {P : α → Prop} {a : α} (h : P a) : Safes Q P (Pure.pure a) := fun _ hs => ⟨h, hs⟩
theorem Safes.fail {P : α → Prop} {k : ErrorKind} : Safes Q P (M.fail k) := fun _ hs => hs
theorem Safes.boom {P : α → Prop} (p : Panic) : Safes Q P (M.boom p) := fun _ _ => trivial
theorem Safes.get : Safes Q (HSt.safe Q) M.get := fun _ hs => ⟨hs, hs⟩
theorem Safes.set {s : HSt} (h : s.safe Q) : Safes Q Any (M.set s) := fun _ _ => ⟨trivial, h⟩
theorem Safes.modify {f : HSt → HSt} (h : ∀ s, s.safe Q → (f s).safe Q) : Safes Q Any (M.modify f) := fun s hs => ⟨trivial, h s hs⟩
theorem Safes.ite {P : α → Prop} {c : Prop} [Decidable c] {a b : H α} (h1 : Safes Q P a) (h2 : Safes Q P b) : Safes Q P (if c then a else b) := by
  split
  · exact h1
  · exact h2

theorem safe_cs {s : HSt} (h : s.safe Q) {r : Str} (hr : r <:+: s.content.cs) : HSt.safe Q { s with content := { s.content with cs := r } } :=
  ⟨Cut.infix hr h.1, h.2⟩

theorem Safes.lexWith {P : α → Prop} {m : L α} (hm : ∀ s, Good cf s (m s)) (hp : ∀ s a r, Q s → m s = .ok a r → P a) : Safes Q P (H.lex m) := by
  intro s hs
  have hg := hm s.content.cs
  unfold H.lex
  cases hr : m s.content.cs with
  | ok a r => rw [hr] at hg; exact ⟨hp _ _ _ hs.1 hr, safe_cs hs hg.isInfix⟩
  | err e r => rw [hr] at hg; exact safe_cs hs hg.isInfix
  | panic p => exact trivial
theorem Safes.lex {m : L α} (hm : ∀ s, Good cf s (m s)) : Safes Q Any (H.lex m) := Safes.lexWith hm fun _ _ _ _ _ => trivial
theorem Safes.onStr {m : L α} (str : Str) : Safes Q Any (H.onStr m str) := by
  intro s hs
  unfold H.onStr
  cases hr : m str with
  | ok a r => exact ⟨trivial, hs⟩
  | err e r => exact hs
  | panic p => exact trivial

theorem arg_safe {sl : Sl} {a : Arg} {r : Str} (h : Lex.argument sl.cs = .ok a r) (hs : Q sl.cs) : (HArg.ofArg sl r a).safe Q := by
  have hf := arg_facts h
  cases a with
  | group g =>
    obtain ⟨w, _, e⟩ := hf
    exact Cut.infix ⟨w ++ ['{'], '}' :: r, by rw [e]; simp [Sl.part]⟩ hs
  | token tok =>
    have ht := token_facts hf
    cases tok with
    | cs name =>
      obtain ⟨k, w, -, -, -, e⟩ := ht
      exact Cut.infix ⟨k, w ++ r, by rw [e]; simp⟩ hs
    | chr c r' =>
      obtain ⟨rfl, k, hk, e, -⟩ := ht
      have := Cut.infix (Q := Q) (a := c :: r') ⟨k, [], by rw [e]; simp⟩ hs
      exact ⟨NoTag.head this, this⟩

theorem Safes.argument : Safes Q (HArg.safe Q) H.argument := by
  intro s hs
  have hg := good_argument (cf := ⟨true, fun _ => 0⟩) s.content.cs
  unfold H.argument
  cases hr : Lex.argument s.content.cs with
  | ok a r => rw [hr] at hg; exact ⟨arg_safe hr hs.1, safe_cs hs hg.isInfix⟩
  | err e r => rw [hr] at hg; exact safe_cs hs hg.isInfix
  | panic p => exact trivial
theorem Safes.argumentOf {sl : Sl} (h : Q sl.cs) : Safes Q (HArg.safe Q) (H.argumentOf sl) := by
  intro s hs
  unfold H.argumentOf
  cases hr : Lex.argument sl.cs with
  | ok a r => exact ⟨arg_safe hr h, hs⟩
  | err e r => exact hs
  | panic p => exact trivial
theorem Safes.groupContent (k : GroupingKind) : Safes Q (fun g => Q g.cs) (H.groupContent k) := by
  intro s hs
  have hg := good_groupContent (cf := ⟨true, fun _ => 0⟩) k s.content.cs
  unfold H.groupContent
  cases hr : Lex.groupContent k s.content.cs with
  | ok g r =>
    rw [hr] at hg
    refine ⟨?_, safe_cs hs hg.isInfix⟩
    exact Cut.infix ⟨[], k.closingStr ++ r, by rw [groupContent_eq hr]; simp [Sl.part]⟩ hs.1
  | err e r => rw [hr] at hg; exact safe_cs hs hg.isInfix
  | panic p => exact trivial
theorem Safes.braceArgument : Safes Q (fun g => Q g.cs) H.braceArgument := by
  intro s hs
  have hg := good_braceArgument (cf := ⟨true, fun _ => 0⟩) s.content.cs
  unfold H.braceArgument
  cases hr : Lex.braceArgument s.content.cs with
  | ok g r =>
    rw [hr] at hg
    refine ⟨?_, safe_cs hs hg.isInfix⟩
    obtain ⟨w, _, e⟩ := braceArgument_eq hr
    exact Cut.infix ⟨w ++ ['{'], '}' :: r, by rw [e]; simp [Sl.part]⟩ hs.1
  | err e r => rw [hr] at hg; exact safe_cs hs hg.isInfix
  | panic p => exact trivial
theorem Safes.contentWithSuffix {d : Str} (hd : 1 < blen d) : Safes Q (fun g => Q g.cs) (H.contentWithSuffix d) := by
  intro s hs
  have hg := good_contentWithSuffix (cf := ⟨true, fun _ => 0⟩) hd s.content.cs
  unfold H.contentWithSuffix
  cases hr : Lex.contentWithSuffix d s.content.cs with
  | ok g r =>
    rw [hr] at hg
    refine ⟨?_, safe_cs hs hg.isInfix⟩
    have h1 : g <+: s.content.cs := by
      have h := Macros.contentWithSuffix_ok.1 hr
      generalize s.content.cs = t at h
      clear hr hg hs
      induction h with
      | found => exact List.nil_prefix
      | @comment line s a r _ _ _ ih => obtain ⟨t, rfl⟩ := ih; exact ⟨t, by simp⟩
      | @escaped c s a r _ _ ih => obtain ⟨t, rfl⟩ := ih; exact ⟨t, by simp⟩
      | @braces s g s' a r _ h _ ih => obtain ⟨t, rfl⟩ := ih; rw [h.eq]; exact ⟨t, by simp⟩
      | @char c s a r _ _ _ _ _ ih => obtain ⟨t, rfl⟩ := ih; exact ⟨t, by simp⟩
    exact Cut.infix h1.isInfix hs.1
  | err e r => rw [hr] at hg; exact safe_cs hs hg.isInfix
  | panic p => exact trivial
theorem Safes.optionalArgument : Safes Q (fun g : Option Sl => ∀ x, g = some x → Q x.cs) H.optionalArgument := by
  intro s hs
  have hg := good_optionalArgument (cf := ⟨true, fun _ => 0⟩) s.content.cs
  unfold H.optionalArgument
  cases hr : Lex.optionalArgument s.content.cs with
  | ok g r =>
    rw [hr] at hg
    refine ⟨?_, safe_cs hs hg.isInfix⟩
    intro x hx
    rcases optionalArgument_eq hr with ⟨rfl, -⟩ | ⟨w, t, -, e, ⟨rfl, -⟩ | ⟨g', rfl, e2⟩⟩
    · cases hx
    · cases hx
    · cases hx
      exact Cut.infix ⟨w ++ ['['], ']' :: r, by rw [e, e2]; simp [Sl.part]⟩ hs.1
  | err e r => rw [hr] at hg; exact safe_cs hs hg.isInfix
  | panic p => exact trivial
theorem Safes.macros {f : Macros.Ctx → Except (ErrorKind ⊕ Panic) Macros.Ctx} : Safes Q Any (H.macros f) := by
  intro s hs
  unfold H.macros
  cases hf : f s.macros with
  | ok m => exact ⟨trivial, hs⟩
  | error x => cases x with
    | inl e => exact hs
    | inr p => exact trivial
theorem Safes.push {is : List Instr} (h : ∀ i ∈ is, InstrSafe Q i) : Safes Q Any (H.push is) := by
  refine Safes.modify fun s hs => ⟨hs.1, ?_⟩
  intro i hi
  rcases List.mem_append.1 hi with hi | hi
  · exact hs.2 i hi
  · exact h i hi
theorem Safes.ev {e : Event} (h : SafeEvent e) : Safes Q Any (H.ev e) := Safes.push fun i hi => by
  rw [List.mem_singleton] at hi; rw [hi]; exact h
theorem Safes.setContent {c : Sl} (h : Q c.cs) : Safes Q Any (H.setContent c) := Safes.modify fun _ hs => ⟨h, hs.2⟩
theorem Safes.allowMods : Safes Q Any H.allowMods := Safes.modify fun _ hs => hs
theorem Safes.setPos (p : ScriptPos) : Safes Q Any (H.setPos p) := Safes.modify fun _ hs => hs
theorem Safes.setSkip : Safes Q Any H.setSkip := Safes.modify fun _ hs => hs
theorem Safes.setHarg : Safes Q Any H.setHarg := Safes.modify fun _ hs => hs


theorem Safes.lines : Safes Q Any (H.lexPure horizontalLines) := by
  intro s hs
  unfold H.lexPure H.lex
  exact ⟨trivial, safe_cs hs (horizontalLines_suffix s.content.cs).isInfix⟩

/-- What is staged in one go. -/
macro "safel" : tactic => `(tactic| repeat' (first
  | exact List.forall_mem_nil _ | refine List.forall_mem_cons.2 ⟨?_, ?_⟩ | exact trivial | assumption | (show (_ : Char) ≠ '<'; decide)))

/-- The basic steps. -/
macro "safe1" : tactic => `(tactic| first
  | exact Safes.fail | exact Safes.boom _ | exact Safes.ev trivial | exact Safes.ev (by show (_ : Char) ≠ '<'; decide) | exact Safes.get
  | exact Safes.argument | exact Safes.groupContent _ | exact Safes.braceArgument | exact Safes.optionalArgument
  | exact Safes.allowMods | exact Safes.setPos _ | exact Safes.setSkip | exact Safes.setHarg
  | exact Safes.pure trivial | exact Safes.push (by safel))

section
variable {rec : HTok → H PUnit} (hr : ∀ t, t.safe Q → Safes Q Any (rec t))

theorem csDelimiter_safe : ∀ p ∈ csDelimiters, p.2.1 ≠ '<' := by decide

theorem charDelimiterMap_safe {c d : Char} {ty : DelimType} (h : charDelimiterMap c = some (d, ty)) : d ≠ '<' := by
  rintro rfl
  have : c = '<' := by
    unfold charDelimiterMap at h
    cases h1 : charDelimiters.lookup c with
    | none => rw [h1] at h; cases h
    | some t => rw [h1] at h; cases h; rfl
  subst this
  revert h
  have : charDelimiterMap '<' = none := by decide
  rw [this]
  intro h; cases h

theorem csDelimiterMap_safe {c : Str} {d : Char} {ty : DelimType} (h : controlSequenceDelimiterMap c = some (d, ty)) : d ≠ '<' :=
  csDelimiter_safe _ (lookup_mem_gen h)

theorem tokenToDelim_safe {t : Tok} {d : Char} {ty : DelimType} (h : tokenToDelim t = some (d, ty)) : d ≠ '<' := by
  cases t with
  | cs n => exact csDelimiterMap_safe h
  | chr c r => exact charDelimiterMap_safe h

theorem safe_plain {c : Char} (hc : c ≠ '<') : SafeEvent (plainCharEvent c) := by
  unfold plainCharEvent
  repeat' split
  all_goals first
    | exact hc
    | exact ⟨hc, by simp⟩
    | (show (_ : Char) ≠ '<'; decide)
    | exact charDelimiterMap_safe ‹_›

theorem safe_handleChar {c : Char} (hlt : c ≠ '<') {ctx : Sl} (hc : Q ctx.cs) : Safes Q Any (handleChar c ctx) := by
  unfold handleChar
  refine Safes.bind Safes.get fun st hst => ?_
  refine Safes.ite (by safe1) (Safes.ite (Safes.ite (by safe1) ?_) ?_)
  · exact Safes.bind (by safe1) fun _ _ => Safes.bind (Safes.setContent hc) fun _ _ => by safe1
  refine Safes.ite (by safe1) (Safes.ite (by safe1) (Safes.ite ?_ (Safes.ite ?_ ?_)))
  · cases st.align with
    | none => safe1
    | some a => exact Safes.ite (Safes.bind (Safes.set hst) fun _ _ => by safe1) (by safe1)
  · exact Safes.bind (Safes.groupContent _) fun g hg => Safes.push (by safel)
  refine Safes.ite (by safe1) (Safes.ite ?_ (Safes.ite ?_ ?_))
  · exact Safes.ev trivial
  · refine Safes.bind (Safes.setContent ?_) fun _ _ => Safes.ev ?_
    · exact Cut.infix (List.drop_suffix _ _).isInfix hc
    · exact NoTag.free (Q := Q) _ (Cut.infix (List.take_prefix _ _).isInfix hc)
  · exact Safes.ev (safe_plain hlt)

theorem safe_groupArg {e : ErrorKind} : Safes Q (fun g => Q g.cs) (groupArg e) := by
  refine Safes.bind Safes.argument fun a ha => ?_
  cases a with
  | token t => exact Safes.fail
  | group g => exact Safes.pure ha

theorem safe_colorOf (s : Str) : Safes Q Any (colorOf s) := by
  unfold colorOf
  cases h : Lex.color s with
  | some c => exact Safes.pure trivial
  | none => safe1
  | panic => safe1

theorem safe_textArgument (f : Option Font) : Safes Q Any (textArgument f) := by
  refine Safes.bind (P := fun t => Q t) (Safes.bind Safes.argument fun a ha => ?_) fun t ht => ?_
  · cases a with
    | token t =>
      cases t with
      | cs n => safe1
      | chr c x => exact Safes.pure ha.2
    | group g => exact Safes.pure ha
  · cases f with
    | none => exact Safes.ev trivial
    | some f =>
      have : InstrSafe Q (.ev (.content (.text t))) := trivial
      exact Safes.push (by safel)

theorem safe_delimiter : Safes Q (fun x : Char × DelimType => x.1 ≠ '<') (H.lex delimiter) := by
  refine Safes.lexWith (cf := ⟨true, fun _ => 0⟩) good_delimiter ?_
  intro s a r hs h
  unfold delimiter at h
  obtain ⟨t, s1, h1, h⟩ := M.bind_eq_ok h
  cases h2 : tokenToDelim t with
  | none => rw [h2] at h; cases h
  | some d => rw [h2] at h; cases h; exact tokenToDelim_safe h2

theorem safe_sizedDelim (size : DelimSize) : Safes Q Any (sizedDelim size) := Safes.bind safe_delimiter fun _ hx => Safes.ev hx

theorem safe_arrayEnvironment : Safes Q (fun x => SafeEvent (.begin_ x.1)) (arrayEnvironment cf) := by
  refine Safes.bind safe_groupArg fun g hg => ?_
  cases h : columns cf 0 g.cs with
  | error x => cases x with
    | inl e => exact Safes.fail
    | inr p => safe1
  | ok x =>
    obtain ⟨cols, m⟩ := x
    exact Safes.ite (by safe1) (Safes.pure trivial)

theorem safe_optionalAlignment : Safes Q Any optionalAlignment := by
  refine Safes.bind Safes.optionalArgument fun g _ => ?_
  cases g with
  | none => safe1
  | some g => exact Safes.ite (by safe1) (Safes.ite (by safe1) (Safes.ite (by safe1) (by safe1)))

theorem safe_newCommand (should : Option Bool) : Safes Q Any (newCommand should) := by
  refine Safes.bind Safes.braceArgument fun g _ => Safes.bind (Safes.onStr _) fun cs _ => Safes.bind Safes.get fun st _ => Safes.ite ?_ ?_
  · exact Safes.fail
  refine Safes.bind Safes.optionalArgument fun n _ => ?_
  cases n with
  | none => safe1
  | some n =>
    dsimp only
    cases parseU8 n.cs with
    | none => safe1
    | some k =>
      refine Safes.bind Safes.optionalArgument fun d _ => ?_
      split
      · safe1
      · rename_i hk
        refine Safes.bind Safes.braceArgument fun r _ => Safes.bind Safes.get fun st _ => ?_
        exact Safes.ite (by safe1) Safes.macros

theorem safe_genfracDelim : Safes Q (fun o => o ≠ some '<') genfracDelim := by
  refine Safes.bind Safes.argument fun a _ => ?_
  cases a with
  | token t =>
    cases t with
    | cs n =>
      dsimp only
      cases h : controlSequenceDelimiterMap n with
      | none => safe1
      | some x => exact Safes.pure (by simpa using csDelimiterMap_safe h)
    | chr c r =>
      dsimp only
      cases h : charDelimiterMap c with
      | none => safe1
      | some x => exact Safes.pure (by simpa using charDelimiterMap_safe h)
  | group g => exact Safes.ite (Safes.pure (by simp)) (by safe1)

theorem safe_genfracBar : Safes Q Any genfracBar := by
  refine Safes.bind Safes.argument fun a _ => ?_
  cases a with
  | token t => safe1
  | group g => exact Safes.ite (by safe1) (Safes.bind (Safes.onStr _) fun x _ => Safes.ite (by safe1) (by safe1))

theorem safe_genfracStyle : Safes Q Any genfracStyle := by
  refine Safes.bind Safes.argument fun a _ => ?_
  repeat' split
  all_goals safe1

theorem safe_pairsArg : Safes Q Any (pairsArg cf) :=
  Safes.bind safe_groupArg fun g _ => Safes.bind (Safes.onStr _) fun n _ => by safe1

theorem safe_pairsMax (n : Nat) : Safes Q Any (pairsMax cf n) :=
  Safes.ite (by safe1) (Safes.ite (by safe1) (by safe1))

theorem safe_subarrayAlign : Safes Q Any subarrayAlign := by
  refine Safes.bind Safes.argument fun a _ => ?_
  cases a with
  | token t => safe1
  | group g => exact Safes.ite (by safe1) (Safes.ite (by safe1) (Safes.ite (by safe1) (by safe1)))

/-- The group an environment starts. -/
def EnvSafe (e : Env) : Prop := SafeEvent (.begin_ e.g) ∧ SafeEvent (.begin_ (.leftRight (e.wrap.map (·.1)) (e.wrap.map (·.2))))

theorem safe_matrixEnv (ty : MatrixType) (spec : Bool) (style : Option Style) (wrap : Option (Char × Char))
    (hw : SafeEvent (.begin_ (.leftRight (wrap.map (·.1)) (wrap.map (·.2))))) : Safes Q EnvSafe (matrixEnv ty spec style wrap) := by
  cases spec with
  | false => exact Safes.bind (P := Any) (Safes.pure trivial) fun _ _ => Safes.pure ⟨trivial, hw⟩
  | true => exact Safes.bind safe_optionalAlignment fun _ _ => Safes.pure ⟨trivial, hw⟩

theorem safe_alignatEnv {g : Nat → Grouping} (hg : ∀ n, SafeEvent (.begin_ (g n))) (k : GroupingKind) : Safes Q EnvSafe (alignatEnv cf g k) :=
  Safes.bind safe_pairsArg fun n _ => Safes.bind (safe_pairsMax n) fun _ _ => Safes.pure ⟨hg n, by simp [SafeEvent]⟩

theorem safe_environments : ∀ x ∈ environments cf, Safes Q EnvSafe x.2 := by
  unfold environments
  simp only [List.forall_mem_cons]
  refine ⟨Safes.bind safe_arrayEnvironment fun _ h => Safes.pure ⟨h, by simp [SafeEvent]⟩, Safes.bind safe_arrayEnvironment fun _ h => Safes.pure ⟨h, by simp [SafeEvent]⟩, ?_⟩
  refine ⟨safe_matrixEnv _ _ _ _ ?_, safe_matrixEnv _ _ _ _ ?_, safe_matrixEnv _ _ _ _ ?_, safe_matrixEnv _ _ _ _ ?_, safe_matrixEnv _ _ _ _ ?_,
    safe_matrixEnv _ _ _ _ ?_, safe_matrixEnv _ _ _ _ ?_, safe_matrixEnv _ _ _ _ ?_, safe_matrixEnv _ _ _ _ ?_, safe_matrixEnv _ _ _ _ ?_,
    safe_matrixEnv _ _ _ _ ?_, safe_matrixEnv _ _ _ _ ?_, safe_matrixEnv _ _ _ _ ?_, ?_⟩
  case refine_14 =>
    refine ⟨?_, ?_, ?_, ?_, ?_, ?_, ?_, ?_, ?_, ?_, ?_, ?_, ?_⟩
    case refine_13 =>
      refine ⟨safe_alignatEnv (fun _ => by exact trivial) _, safe_alignatEnv (fun _ => by exact trivial) _, safe_alignatEnv (fun _ => by exact trivial) _,
        Safes.bind safe_subarrayAlign fun _ _ => Safes.pure ⟨trivial, by simp [SafeEvent]⟩, Safes.pure ⟨trivial, by simp [SafeEvent]⟩,
        Safes.pure ⟨trivial, by simp [SafeEvent]⟩, ?_⟩
      intro x hx; cases hx
    all_goals exact Safes.pure ⟨trivial, by simp [SafeEvent]⟩
  all_goals simp [SafeEvent]

theorem safe_beginEnv : Safes Q Any (beginEnv cf) := by
  refine Safes.bind safe_groupArg fun g _ => ?_
  cases h : (environments cf).lookup g.cs with
  | none => safe1
  | some m =>
    refine Safes.bind (safe_environments _ (lookup_mem_gen h)) fun env henv => ?_
    obtain ⟨gg, mx, k, style, wrap⟩ := env
    have hgg : InstrSafe Q (.ev (.begin_ gg)) := henv.1
    have hww : SafeEvent (.begin_ (.leftRight (wrap.map (·.1)) (wrap.map (·.2)))) := henv.2
    clear henv
    revert hww
    have tail : ∀ lines : List Line, ∀ c : Sl, Q c.cs → Safes Q Any
        (H.push ([.ev (.begin_ gg)] ++
        (match style with
          | some s => [.ev (.stateChange (.style s))]
          | none => []) ++
        (if lines.isEmpty then [] else [.ev (.flow (.startLines lines))]) ++
        [.sub c (some ⟨0, mx⟩), .ev .end_] ++
        (if wrap.isSome then [.ev .end_] else []))) := by
      intro lines c hc
      refine Safes.push ?_
      have hll : InstrSafe Q (.ev (.flow (.startLines lines))) := trivial
      have hcc : InstrSafe Q (.sub c (some ⟨0, mx⟩)) := hc
      intro i hi
      simp only [List.mem_append] at hi
      rcases hi with (((hi | hi) | hi) | hi) | hi
      · rw [List.mem_singleton] at hi; rw [hi]; exact hgg
      · cases style with
        | none => cases hi
        | some s => rw [List.mem_singleton] at hi; rw [hi]; exact trivial
      · split at hi
        · cases hi
        · rw [List.mem_singleton] at hi; rw [hi]; exact hll
      · simp only [List.mem_cons, List.not_mem_nil, or_false] at hi
        rcases hi with rfl | rfl
        · exact hcc
        · exact trivial
      · split at hi
        · rw [List.mem_singleton] at hi; rw [hi]; exact trivial
        · cases hi
    intro hww
    cases wrap with
    | none => exact Safes.bind Safes.lines fun l hl => Safes.bind (Safes.groupContent _) fun c hc => tail l c hc
    | some w =>
      obtain ⟨a, b⟩ := w
      exact Safes.bind (Safes.ev hww) fun _ _ => Safes.bind Safes.lines fun l hl => Safes.bind (Safes.groupContent _) fun c hc => tail l c hc

theorem safe_leftDelim : Safes Q (fun o => o ≠ some '<') leftDelim := by
  refine Safes.bind Safes.get fun st hst => ?_
  have h1 := hst.1
  split
  · rename_i rest e
    refine Safes.bind (Safes.setContent ?_) fun _ _ => Safes.pure (by simp)
    exact Cut.infix ⟨c!".", [], by rw [e]; simp⟩ h1
  · exact Safes.bind safe_delimiter fun _ h => Safes.pure (by simpa using h)

include hr

theorem safe_handleArgument {a : HArg} (ha : a.safe Q) : Safes Q Any (handleArgument rec a) := by
  cases a with
  | token t => exact Safes.bind (by safe1) fun _ _ => hr t ha
  | group g =>
    have : InstrSafe Q (.sub g none) := ha
    exact Safes.push (by safel)

omit hr in
theorem trim_mem {t : Str} {c : Char} (h : c ∈ trim t) : c ∈ t := by
  unfold trim trimEnd at h
  exact (trimStart_suffix t).subset (by simpa using (List.dropWhile_suffix isWs).subset (List.mem_reverse.1 h))

omit hr in
theorem singleChar_safe {a : HArg} {c : Char} (ha : a.safe Q) (h : singleChar a = some c) : c ≠ '<' := by
  cases a with
  | token t =>
    cases t with
    | cs n => cases h
    | chr d x => cases h; exact ha.1
  | group g =>
    have : c ∈ g.cs := by
      unfold singleChar at h
      dsimp only at h
      split at h
      · rename_i d hd
        cases h
        exact trim_mem (by rw [hd]; simp)
      · cases h
    intro e
    exact NoTag.free (Q := Q) _ ha (e ▸ this)

theorem safe_atomGroup (cls : AtomClass) : Safes Q Any (atomGroup rec cls) := by
  refine Safes.bind Safes.argument fun a ha => ?_
  cases hs : singleChar a with
  | some c =>
    have hc := singleChar_safe ha hs
    refine Safes.ev ?_
    cases cls <;> first | exact hc | exact ⟨hc, by simp⟩
  | none =>
    have key : Safes Q Any (do H.ev (.begin_ .normal); handleArgument rec a; H.ev .end_) :=
      Safes.bind (by safe1) fun _ _ => Safes.bind (safe_handleArgument hr ha) fun _ _ => by safe1
    cases cls <;> cases a <;> first | exact key | exact Safes.ev (NoTag.free (Q := Q) _ ha)

theorem safe_fontGroup (f : Option Font) : Safes Q Any (fontGroup rec f) := by
  refine Safes.bind Safes.argument fun a ha => Safes.bind (by safe1) fun _ _ => ?_
  cases a with
  | token t => exact Safes.bind (hr t ha) fun _ _ => by safe1
  | group g =>
    have : InstrSafe Q (.sub g none) := ha
    exact Safes.bind (Safes.push (by safel)) fun _ _ => by safe1

theorem safe_accent {c : Char} (hc : c ≠ '<') (b : Bool) : Safes Q Any (accent rec c b) :=
  Safes.bind Safes.argument fun _ ha => Safes.bind (by safe1) fun _ _ => Safes.bind (safe_handleArgument hr ha) fun _ _ => Safes.ev hc

theorem safe_underscript {c : Char} (hc : c ≠ '<') : Safes Q Any (underscript rec c) :=
  Safes.bind Safes.argument fun _ ha => Safes.bind (by safe1) fun _ _ => Safes.bind (safe_handleArgument hr ha) fun _ _ => Safes.ev hc

theorem safe_fractionLike {l r : Option Char} (hl : l ≠ some '<') (hr' : r ≠ some '<') (bar : Option Dim) (style : Option Style) :
    Safes Q Any (fractionLike rec l r bar style) := by
  have hb : Safes Q Any (H.ev (.begin_ (.leftRight l r))) := Safes.ev ⟨hl, hr'⟩
  unfold fractionLike
  cases style <;> dsimp only
  all_goals
    repeat' (first
      | exact hb | safe1 | exact safe_handleArgument hr ‹_› | refine Safes.ite ?_ ?_ | apply Safes.bind | intro _ _)

theorem safe_scriptSwap {over : H HArg} (ho : Safes Q (HArg.safe Q) over) : Safes Q Any (scriptSwap rec over) := by
  refine Safes.bind Safes.get fun st _ => Safes.bind ho fun a ha => Safes.bind (safe_handleArgument hr ha) fun _ _ => Safes.bind Safes.get fun st2 h2 => ?_
  refine Safes.bind (Safes.modify fun s hs => ⟨hs.1, fun i hi => hs.2 i (List.mem_of_mem_take hi)⟩) fun _ _ =>
    Safes.bind Safes.argument fun b hb => Safes.bind (safe_handleArgument hr hb) fun _ _ => Safes.push fun i hi => h2.2 i (List.mem_of_mem_drop hi)

/-- The characters a command writes. -/
def Prim.safe : Prim → Bool
  | .func s | .funcMov s => !s.contains '<'
  | .ord c | .rel c _ | .bin c | .largeOp c _ | .accent c _ _ | .under c _ | .xarrow c | .delim c _ => c != '<'
  | .rel2 c d => c != '<' && d != '<'
  | .frac l r _ _ => l != some '<' && r != some '<'
  | .char => false
  | _ => true

theorem safe_execPrim (p : Prim) (hp : p.safe = true) : Safes Q Any (execPrim cf rec p) := by
  cases p
  all_goals unfold execPrim
  all_goals dsimp only
  case func => exact Safes.ev (by simp [Prim.safe] at hp; exact hp)
  case funcMov => exact Safes.bind (by safe1) fun _ _ => Safes.bind (by safe1) fun _ _ => Safes.ev (by simp [Prim.safe] at hp; exact hp)
  case frac =>
    simp only [Prim.safe, Bool.and_eq_true, bne_iff_ne] at hp
    exact safe_fractionLike hr hp.1 hp.2 _ _
  case ord => exact Safes.ev (by simp [Prim.safe] at hp; exact hp)
  case rel => exact Safes.ev ⟨by simpa [Prim.safe] using hp, by simp⟩
  case rel2 =>
    simp only [Prim.safe, Bool.and_eq_true, bne_iff_ne] at hp
    exact Safes.ev ⟨hp.1, by simpa using hp.2⟩
  case bin => exact Safes.ev (by simp [Prim.safe] at hp; exact hp)
  case largeOp =>
    exact Safes.bind (by safe1) fun _ _ => Safes.bind (by safe1) fun _ _ => Safes.ev (by simp [Prim.safe] at hp; exact hp)
  case delim => exact Safes.ev (by simp [Prim.safe] at hp; exact hp)
  case fontGroup => exact safe_fontGroup hr _
  case text => exact safe_textArgument _
  case begin_ => exact safe_beginEnv
  case newcommand => exact safe_newCommand _
  case sized => exact safe_sizedDelim _
  case operatorname =>
    refine Safes.bind Safes.allowMods fun _ _ => Safes.bind Safes.argument fun a ha => ?_
    cases a with
    | token t =>
      cases t with
      | cs n => safe1
      | chr c x => exact Safes.ev (NoTag.free (Q := Q) _ ha.2)
    | group g => exact Safes.ev (NoTag.free (Q := Q) _ ha)
  case pmod =>
    refine Safes.bind Safes.argument fun a ha => Safes.bind (Safes.push ?_) fun _ _ => Safes.bind (safe_handleArgument hr ha) fun _ _ => by safe1
    have h3 : InstrSafe Q (.ev (.content (.function c!"mod"))) := by show '<' ∉ c!"mod"; decide
    safel
  case atom cls => exact Safes.ite (Safes.bind Safes.allowMods fun _ _ => Safes.bind (Safes.setPos _) fun _ _ => safe_atomGroup hr cls) (safe_atomGroup hr cls)
  case dots =>
    refine Safes.bind Safes.get fun st _ => ?_
    cases trimStart st.content.cs with
    | nil => safe1
    | cons c t => exact Safes.ite (by safe1) (by safe1)
  case color => exact Safes.bind safe_groupArg fun g _ => Safes.bind Safes.setSkip fun _ _ => Safes.bind (safe_colorOf _) fun c hc => Safes.ev trivial
  case textcolor =>
    refine Safes.bind safe_groupArg fun g _ => Safes.bind (safe_colorOf _) fun c hc => Safes.bind Safes.argument fun a ha => Safes.bind (Safes.push ?_) fun _ _ =>
      Safes.bind (safe_handleArgument hr ha) fun _ _ => by safe1
    safel
  case colorbox =>
    refine Safes.bind safe_groupArg fun g _ => Safes.bind (safe_colorOf _) fun c hc => Safes.bind (Safes.push ?_) fun _ _ =>
      Safes.bind (safe_textArgument none) fun _ _ => by safe1
    safel
  case fcolorbox =>
    refine Safes.bind safe_groupArg fun g _ => Safes.bind safe_groupArg fun g _ => Safes.bind (safe_colorOf _) fun c hc =>
      Safes.bind (safe_colorOf _) fun c hc => Safes.bind (Safes.push ?_) fun _ _ => Safes.bind (safe_textArgument none) fun _ _ => by safe1
    safel
  case left =>
    refine Safes.bind safe_leftDelim fun o ho => Safes.bind (Safes.groupContent _) fun c hc => Safes.bind safe_leftDelim fun o' ho' => Safes.push ?_
    have : InstrSafe Q (.ev (.begin_ (.leftRight o o'))) := ⟨ho, ho'⟩
    safel
  case middle => exact Safes.bind safe_delimiter fun _ h => Safes.ev h
  case accent => exact Safes.ite (Safes.bind (Safes.setPos _) fun _ _ => safe_accent hr (by simpa [Prim.safe] using hp) _) (safe_accent hr (by simpa [Prim.safe] using hp) _)
  case under => exact Safes.ite (Safes.bind (Safes.setPos _) fun _ _ => safe_underscript hr (by simpa [Prim.safe] using hp)) (safe_underscript hr (by simpa [Prim.safe] using hp))
  case nbsp => exact Safes.ev trivial
  case kern => exact Safes.bind (Safes.lex (cf := cf) good_dimensionOrBraced) fun _ _ => by safe1
  case hskip => exact Safes.bind (Safes.lex (cf := cf) good_glueOrBraced) fun _ _ => by safe1
  case mkern => exact Safes.bind (Safes.lex (cf := cf) good_dimensionOrBraced) fun _ _ => Safes.ite (by safe1) (by safe1)
  case mskip => exact Safes.bind (Safes.lex (cf := cf) good_glueOrBraced) fun _ _ => Safes.ite (by safe1) (by safe1)
  case hspace => exact Safes.bind safe_groupArg fun g _ => Safes.bind (Safes.onStr _) fun x _ => by safe1
  case space3 =>
    refine Safes.bind safe_groupArg fun g _ => Safes.bind (Safes.onStr _) fun x _ => ?_
    refine Safes.bind safe_groupArg fun g _ => Safes.bind (Safes.onStr _) fun x _ => ?_
    exact Safes.bind safe_groupArg fun g _ => Safes.bind (Safes.onStr _) fun x _ => by safe1
  case xarrow c =>
    have hc : InstrSafe Q (.ev (relation c)) := ⟨by simpa [Prim.safe] using hp, by simp⟩
    refine Safes.bind Safes.optionalArgument fun b hb => Safes.bind Safes.argument fun a ha => ?_
    cases b with
    | none => exact Safes.bind (by safe1) fun _ _ => safe_handleArgument hr ha
    | some g => exact Safes.bind (by safe1) fun _ _ => Safes.bind (safe_handleArgument hr (a := .group g) (hb g rfl)) fun _ _ => safe_handleArgument hr ha
  case genfrac => exact Safes.bind safe_genfracDelim fun _ h1 => Safes.bind safe_genfracDelim fun _ h2 => Safes.bind safe_genfracBar fun _ _ => Safes.bind safe_genfracStyle fun _ _ => safe_fractionLike hr h1 h2 _ _
  case overset => exact Safes.bind (by safe1) fun _ _ => safe_scriptSwap hr Safes.argument
  case buildrel => exact Safes.bind (Safes.contentWithSuffix (by decide)) fun o ho => Safes.bind (by safe1) fun _ _ => safe_scriptSwap hr (Safes.argumentOf ho)
  case substack => exact Safes.bind Safes.braceArgument fun g hg => Safes.push (by safel)
  case sideset => exact Safes.bind Safes.argument fun _ _ => Safes.bind Safes.argument fun _ _ => Safes.bind Safes.argument fun a ha => safe_handleArgument hr ha
  case sqrt =>
    refine Safes.bind Safes.optionalArgument fun i hi => ?_
    cases i with
    | none => exact Safes.bind (by safe1) fun _ _ => Safes.bind Safes.argument fun a ha => safe_handleArgument hr ha
    | some g =>
      have : InstrSafe Q (.sub g none) := hi g rfl
      exact Safes.bind (by safe1) fun _ _ => Safes.bind Safes.argument fun a ha => Safes.bind (safe_handleArgument hr ha) fun _ _ => Safes.push (by safel)
  case not_ => exact Safes.bind (by safe1) fun _ _ => Safes.bind Safes.argument fun a ha => safe_handleArgument hr ha
  case char => cases hp
  case relax => exact Safes.bind Safes.get fun _ _ => Safes.ite (by safe1) (by safe1)
  case begingroup => exact Safes.bind (Safes.groupContent _) fun g hg => Safes.push (by safel)
  case newline =>
    refine Safes.bind Safes.get fun st hst => ?_
    cases st.align with
    | none => safe1
    | some a =>
      refine Safes.ite (by safe1) (Safes.bind (Safes.set hst) fun _ _ => Safes.bind (P := Any) (Safes.bind Safes.optionalArgument fun o _ => ?_) fun _ _ =>
        Safes.bind Safes.lines fun _ _ => by safe1)
      cases o with
      | none => safe1
      | some g => exact Safes.bind (Safes.onStr _) fun _ _ => by safe1
  case def_ => exact Safes.bind (Safes.lex (cf := cf) good_definition) fun _ _ => Safes.bind (by safe1) fun _ _ => Safes.macros
  case let_ => exact Safes.bind (Safes.lex (cf := cf) good_letAssignment) fun _ _ => Safes.bind (by safe1) fun _ _ => Safes.macros
  case futurelet =>
    refine Safes.bind (P := fun x => Q x.2.2) (Safes.lexWith (cf := cf) good_futureletAssignment ?_) fun x hx => Safes.bind (by safe1) fun _ _ =>
      Safes.bind (Safes.macros) fun _ _ => Safes.modify fun s hs => ⟨hx, hs.2⟩
    intro s x r hs h
    unfold futureletAssignment at h
    obtain ⟨name, s1, h1, h⟩ := M.bind_eq_ok h
    rw [M.get_bind] at h
    obtain ⟨_, s2, h2, h⟩ := M.bind_eq_ok h
    obtain ⟨t, s3, h3, h⟩ := M.bind_eq_ok h
    cases h
    have := good_controlSequence (cf := cf) s
    rw [h1] at this
    exact Cut.infix this.isInfix hs
  all_goals
    repeat' (first | safe1 | apply Safes.bind | refine Safes.ite ?_ ?_ | intro _ _)

end
end PL
