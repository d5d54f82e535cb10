import Verif.Lemmas.Ext
import Verif.Lemmas.Color
import Verif.Lemmas.Staged
import Verif.Lemmas.Calm
import Verif.Spec.Size
set_option autoImplicit false
/-!
# How large an event can be

Every handler keeps a bound on the texts it holds: what it stages is made from parts of what it reads.
-/
namespace PL
open Lex Spec

variable {cf : Cfg} {α β : Type} {B : Nat}

def InstrFits (B : Nat) : Instr → Prop
  | .ev e => EventFits B e
  | .sub x _ => x.cs.length ≤ B

def HTok.fits (B : Nat) : HTok → Prop
  | .cs _ => True
  | .chr _ ctx => ctx.cs.length ≤ B

def HArg.fits (B : Nat) : HArg → Prop
  | .token t => t.fits B
  | .group g => g.cs.length ≤ B

def HSt.fits (B : Nat) (s : HSt) : Prop := s.content.cs.length ≤ B ∧ ∀ i ∈ s.buf, InstrFits B i

/-- `m` keeps the bound, and its result satisfies `P`. -/
def Fits (B : Nat) (P : α → Prop) (m : H α) : Prop :=
  ∀ s, s.fits B → Sat (fun a s' => P a ∧ s'.fits B) (fun e s' => ErrFits e ∧ s'.fits B) (fun _ => True) (m s)

def Any (_ : α) : Prop := True

theorem Fits.bind {P : α → Prop} {Q : β → Prop} {m : H α} {f : α → H β} (h : Fits B P m) (hf : ∀ a, P a → Fits B Q (f a)) : Fits B Q (m >>= f) :=
  fun s hs => Sat.bind (h s hs) fun a s' h' => hf a h'.1 s' h'.2
theorem Fits.mono {P Q : α → Prop} {m : H α} (h : Fits B P m) (hq : ∀ a, P a → Q a) : Fits B Q m :=
  fun s hs => (h s hs).mono (fun a _ h => ⟨hq a h.1, h.2⟩) (fun _ _ h => h) (fun _ h => h)
theorem Fits.pure {P : α → Prop} {a : α} (h : P a) : Fits B P (Pure.pure a) := fun _ hs => ⟨h, hs⟩
theorem Fits.fail {P : α → Prop} {k : ErrorKind} (h : ErrFits k) : Fits B P (M.fail k) := fun _ hs => ⟨h, hs⟩
theorem Fits.boom {P : α → Prop} (p : Panic) : Fits B P (M.boom p) := fun _ _ => trivial
theorem Fits.get : Fits B (HSt.fits B) M.get := fun _ hs => ⟨hs, hs⟩
theorem Fits.set {s : HSt} (h : s.fits B) : Fits B Any (M.set s) := fun _ _ => ⟨trivial, h⟩
theorem Fits.modify {f : HSt → HSt} (h : ∀ s, s.fits B → (f s).fits B) : Fits B Any (M.modify f) := fun s hs => ⟨trivial, h s hs⟩
theorem Fits.ite {P : α → Prop} {c : Prop} [Decidable c] {a b : H α} (h1 : Fits B P a) (h2 : Fits B P b) : Fits B P (if c then a else b) := by
  split
  · exact h1
  · exact h2

theorem fits_cs {s : HSt} (h : s.fits B) {r : Str} (hr : r.length ≤ s.content.cs.length) : HSt.fits B { s with content := { s.content with cs := r } } :=
  ⟨Nat.le_trans hr h.1, h.2⟩

theorem Fits.lexWith {P : α → Prop} {m : L α} (hm : ∀ s, Good cf s (m s)) (hc : Calm m) (hp : ∀ s a r, s.length ≤ B → m s = .ok a r → P a) : Fits B P (H.lex m) := by
  intro s hs
  have hg := hm s.content.cs
  unfold H.lex
  cases hr : m s.content.cs with
  | ok a r => rw [hr] at hg; exact ⟨hp _ _ _ hs.1 hr, fits_cs hs hg.length_le⟩
  | err e r => rw [hr] at hg; exact ⟨hc.err hr, fits_cs hs hg.length_le⟩
  | panic p => exact trivial
theorem Fits.lex {m : L α} (hm : ∀ s, Good cf s (m s)) (hc : Calm m) : Fits B Any (H.lex m) := Fits.lexWith hm hc fun _ _ _ _ _ => trivial
theorem Fits.onStr {m : L α} (hc : Calm m) (str : Str) : Fits B Any (H.onStr m str) := by
  intro s hs
  unfold H.onStr
  cases hr : m str with
  | ok a r => exact ⟨trivial, hs⟩
  | err e r => exact ⟨hc.err hr, hs⟩
  | panic p => exact trivial

theorem arg_fits {sl : Sl} {a : Arg} {r : Str} (h : Lex.argument sl.cs = .ok a r) (hs : sl.cs.length ≤ B) : (HArg.ofArg sl r a).fits B := by
  have hf := arg_facts h
  cases a with
  | group g =>
    obtain ⟨w, _, e⟩ := hf
    have := congrArg List.length e
    simp at this
    show g.length ≤ B
    omega
  | token tok =>
    have ht := token_facts hf
    cases tok with
    | cs name => exact trivial
    | chr c r' =>
      obtain ⟨rfl, k, hk, e, -⟩ := ht
      have := congrArg List.length e
      simp at this
      show (c :: r').length ≤ B
      simp; omega

theorem Fits.argument : Fits B (HArg.fits B) H.argument := by
  intro s hs
  have hg := good_argument (cf := ⟨true, fun _ => 0⟩) s.content.cs
  unfold H.argument
  cases hr : Lex.argument s.content.cs with
  | ok a r => rw [hr] at hg; exact ⟨arg_fits hr hs.1, fits_cs hs hg.length_le⟩
  | err e r => rw [hr] at hg; exact ⟨calm_argument.err hr, fits_cs hs hg.length_le⟩
  | panic p => exact trivial
theorem Fits.argumentOf {sl : Sl} (h : sl.cs.length ≤ B) : Fits B (HArg.fits B) (H.argumentOf sl) := by
  intro s hs
  unfold H.argumentOf
  cases hr : Lex.argument sl.cs with
  | ok a r => exact ⟨arg_fits hr h, hs⟩
  | err e r => exact ⟨calm_argument.err hr, hs⟩
  | panic p => exact trivial
theorem Fits.groupContent (k : GroupingKind) : Fits B (fun g => g.cs.length ≤ B) (H.groupContent k) := by
  intro s hs
  have hg := good_groupContent (cf := ⟨true, fun _ => 0⟩) k s.content.cs
  unfold H.groupContent
  cases hr : Lex.groupContent k s.content.cs with
  | ok g r =>
    rw [hr] at hg
    refine ⟨?_, fits_cs hs hg.length_le⟩
    have := congrArg List.length (groupContent_eq hr)
    have h1 := hs.1
    simp at this
    show g.length ≤ B
    omega
  | err e r => rw [hr] at hg; exact ⟨(calm_groupContent _).err hr, fits_cs hs hg.length_le⟩
  | panic p => exact trivial
theorem Fits.braceArgument : Fits B (fun g => g.cs.length ≤ B) H.braceArgument := by
  intro s hs
  have hg := good_braceArgument (cf := ⟨true, fun _ => 0⟩) s.content.cs
  unfold H.braceArgument
  cases hr : Lex.braceArgument s.content.cs with
  | ok g r =>
    rw [hr] at hg
    refine ⟨?_, fits_cs hs hg.length_le⟩
    obtain ⟨w, _, e⟩ := braceArgument_eq hr
    have := congrArg List.length e
    have h1 := hs.1
    simp at this
    show g.length ≤ B
    omega
  | err e r => rw [hr] at hg; exact ⟨calm_braceArgument.err hr, fits_cs hs hg.length_le⟩
  | panic p => exact trivial
theorem Fits.contentWithSuffix {d : Str} (hd : 1 < blen d) : Fits B (fun g => g.cs.length ≤ B) (H.contentWithSuffix d) := by
  intro s hs
  have hg := good_contentWithSuffix (cf := ⟨true, fun _ => 0⟩) hd s.content.cs
  unfold H.contentWithSuffix
  cases hr : Lex.contentWithSuffix d s.content.cs with
  | ok g r =>
    rw [hr] at hg
    refine ⟨?_, fits_cs hs hg.length_le⟩
    have h1 : g <+: s.content.cs := by
      have h := Macros.contentWithSuffix_ok.1 hr
      generalize s.content.cs = t at h
      clear hr hg hs
      induction h with
      | found => exact List.nil_prefix
      | @comment line s a r _ _ _ ih => obtain ⟨t, rfl⟩ := ih; exact ⟨t, by simp⟩
      | @escaped c s a r _ _ ih => obtain ⟨t, rfl⟩ := ih; exact ⟨t, by simp⟩
      | @braces s g s' a r _ h _ ih => obtain ⟨t, rfl⟩ := ih; rw [h.eq]; exact ⟨t, by simp⟩
      | @char c s a r _ _ _ _ _ ih => obtain ⟨t, rfl⟩ := ih; exact ⟨t, by simp⟩
    exact Nat.le_trans h1.length_le hs.1
  | err e r => rw [hr] at hg; exact ⟨(calm_contentWithSuffix _).err hr, fits_cs hs hg.length_le⟩
  | panic p => exact trivial
theorem Fits.optionalArgument : Fits B (fun g : Option Sl => ∀ x, g = some x → x.cs.length ≤ B) H.optionalArgument := by
  intro s hs
  have hg := good_optionalArgument (cf := ⟨true, fun _ => 0⟩) s.content.cs
  unfold H.optionalArgument
  cases hr : Lex.optionalArgument s.content.cs with
  | ok g r =>
    rw [hr] at hg
    refine ⟨?_, fits_cs hs hg.length_le⟩
    intro x hx
    rcases optionalArgument_eq hr with ⟨rfl, -⟩ | ⟨w, t, -, e, ⟨rfl, -⟩ | ⟨g', rfl, e2⟩⟩
    · cases hx
    · cases hx
    · cases hx
      have h1 := congrArg List.length e
      have h2 := congrArg List.length e2
      have h3 := hs.1
      simp at h1 h2
      show g'.length ≤ B
      omega
  | err e r => rw [hr] at hg; exact ⟨calm_optionalArgument.err hr, fits_cs hs hg.length_le⟩
  | panic p => exact trivial
theorem Fits.macros {f : Macros.Ctx → Except (ErrorKind ⊕ Panic) Macros.Ctx} (h : ∀ m e, f m = .error (.inl e) → ErrFits e) : Fits B Any (H.macros f) := by
  intro s hs
  unfold H.macros
  cases hf : f s.macros with
  | ok m => exact ⟨trivial, hs⟩
  | error x => cases x with
    | inl e => exact ⟨h _ _ hf, hs⟩
    | inr p => exact trivial
theorem Fits.push {is : List Instr} (h : ∀ i ∈ is, InstrFits B i) : Fits B Any (H.push is) := by
  refine Fits.modify fun s hs => ⟨hs.1, ?_⟩
  intro i hi
  rcases List.mem_append.1 hi with hi | hi
  · exact hs.2 i hi
  · exact h i hi
theorem Fits.ev {e : Event} (h : EventFits B e) : Fits B Any (H.ev e) := Fits.push fun i hi => by
  rw [List.mem_singleton] at hi; rw [hi]; exact h
theorem Fits.setContent {c : Sl} (h : c.cs.length ≤ B) : Fits B Any (H.setContent c) := Fits.modify fun _ hs => ⟨h, hs.2⟩
theorem Fits.allowMods : Fits B Any H.allowMods := Fits.modify fun _ hs => hs
theorem Fits.setPos (p : ScriptPos) : Fits B Any (H.setPos p) := Fits.modify fun _ hs => hs
theorem Fits.setSkip : Fits B Any H.setSkip := Fits.modify fun _ hs => hs
theorem Fits.setHarg : Fits B Any H.setHarg := Fits.modify fun _ hs => hs


theorem lines_fit : ∀ (n : Nat) (s : Str), (linesLoop n s).1.length + (linesLoop n s).2.length ≤ s.length
  | 0, s => by simp [linesLoop]
  | n + 1, s => by
    unfold linesLoop
    cases h : lineStep s with
    | none => simp
    | some x =>
      obtain ⟨r, l⟩ := x
      have ih := lines_fit n r
      have : r.length < s.length := by
        unfold lineStep at h
        have ht : (trimStart s).length ≤ s.length := (trimStart_suffix s).length_le
        cases h1 : stripPrefix c!"\\hline" (trimStart s) with
        | some x =>
          rw [h1] at h; cases h
          rw [stripPrefix_some] at h1
          rw [h1] at ht; simp at ht; omega
        | none =>
          rw [h1] at h
          cases h2 : stripPrefix c!"\\hdashline" (trimStart s) with
          | none => rw [h2] at h; cases h
          | some x =>
            rw [h2] at h; cases h
            rw [stripPrefix_some] at h2
            rw [h2] at ht; simp at ht; omega
      dsimp only
      simp only [List.length_cons]
      omega

theorem Fits.lines : Fits B (fun ls : List Line => ls.length ≤ B) (H.lexPure horizontalLines) := by
  intro s hs
  unfold H.lexPure H.lex
  have h := lines_fit s.content.cs.length s.content.cs
  have h1 := hs.1
  refine ⟨?_, fits_cs hs ?_⟩ <;> · unfold horizontalLines; omega

/-- What is staged in one go. -/
macro "fitsl" : tactic => `(tactic| repeat' (first
  | exact List.forall_mem_nil _ | refine List.forall_mem_cons.2 ⟨?_, ?_⟩ | exact trivial | assumption))

/-- The basic steps. -/
macro "fits1" : tactic => `(tactic| first
  | exact Fits.fail trivial | exact Fits.boom _ | exact Fits.ev trivial | exact Fits.get
  | exact Fits.argument | exact Fits.groupContent _ | exact Fits.braceArgument | exact Fits.optionalArgument
  | exact Fits.allowMods | exact Fits.setPos _ | exact Fits.setSkip | exact Fits.setHarg
  | exact Fits.pure trivial | exact Fits.push (by fitsl))

section
variable {rec : HTok → H PUnit} (hr : ∀ t, t.fits B → Fits B Any (rec t))

theorem fits_plain (c : Char) : EventFits B (plainCharEvent c) := by
  unfold plainCharEvent
  repeat' split
  all_goals exact trivial

theorem fits_handleChar (c : Char) {ctx : Sl} (hc : ctx.cs.length ≤ B) : Fits B Any (handleChar c ctx) := by
  unfold handleChar
  refine Fits.bind Fits.get fun st hst => ?_
  refine Fits.ite (by fits1) (Fits.ite (Fits.ite (by fits1) ?_) ?_)
  · exact Fits.bind (by fits1) fun _ _ => Fits.bind (Fits.setContent hc) fun _ _ => by fits1
  refine Fits.ite (by fits1) (Fits.ite (by fits1) (Fits.ite ?_ (Fits.ite ?_ ?_)))
  · cases st.align with
    | none => fits1
    | some a => exact Fits.ite (Fits.bind (Fits.set hst) fun _ _ => by fits1) (by fits1)
  · exact Fits.bind (Fits.groupContent _) fun g hg => Fits.push (by fitsl)
  refine Fits.ite (by fits1) (Fits.ite ?_ (Fits.ite ?_ ?_))
  · exact Fits.ev (by show 6 ≤ B + 16; omega)
  · refine Fits.bind (Fits.setContent ?_) fun _ _ => Fits.ev ?_
    · show (List.drop _ _).length ≤ B
      rw [List.length_drop]; omega
    · show (List.take _ _).length ≤ B + 16
      rw [List.length_take]; omega
  · exact Fits.ev (fits_plain c)

theorem fits_groupArg {e : ErrorKind} (he : ErrFits e) : Fits B (fun g => g.cs.length ≤ B) (groupArg e) := by
  refine Fits.bind Fits.argument fun a ha => ?_
  cases a with
  | token t => exact Fits.fail he
  | group g => exact Fits.pure ha

theorem hexDigit_lt {c : Char} {v : Nat} (h : hexDigit? c = some v) : v < 16 := by
  unfold hexDigit? at h
  simp only [Bool.and_eq_true, decide_eq_true_eq] at h
  split at h
  · cases h; omega
  · split at h
    · cases h; omega
    · split at h
      · cases h; omega
      · cases h

theorem u8Hex_lt {s : Str} {v : Nat} (h : u8Hex s = some v) : v < 256 := by
  unfold u8Hex at h
  split at h
  · split at h
    · have := hexDigit_lt h; omega
    · split at h
      · rename_i h1 h2
        cases h
        have := hexDigit_lt h1
        have := hexDigit_lt h2
        omega
      · cases h
  · cases h

theorem color_bytes {s : Str} {c : Nat × Nat × Nat} (h : Lex.color s = .some c) : ByteColour c := by
  have h1 : ∀ p ∈ cssNames, ByteColour p.2 := by unfold ByteColour; decide +kernel
  have h2 : ∀ p ∈ dvipsnames, ByteColour p.2 := by unfold ByteColour; decide +kernel
  unfold Lex.color at h
  split at h
  · split at h
    · split at h
      · cases h
      · split at h
        · cases h
        · split at h
          · cases h
          · split at h
            · cases h
            · split at h
              · cases h
              · cases h
                exact ⟨u8Hex_lt ‹_›, u8Hex_lt ‹_›, u8Hex_lt ‹_›⟩
    · cases h
  · split at h
    · cases h
      rename_i h3
      exact h2 _ (lookup_mem_gen h3)
    · split at h
      · cases h
        rename_i h3
        obtain ⟨n, -, h4⟩ := primitiveColor_iff.1 h3
        exact h1 _ h4
      · cases h

theorem fits_colorOf (s : Str) : Fits B ByteColour (colorOf s) := by
  unfold colorOf
  cases h : Lex.color s with
  | some c => exact Fits.pure (color_bytes h)
  | none => fits1
  | panic => fits1

theorem fits_textArgument (f : Option Font) : Fits B Any (textArgument f) := by
  refine Fits.bind (P := fun t => t.length ≤ B + 16) (Fits.bind Fits.argument fun a ha => ?_) fun t ht => ?_
  · cases a with
    | token t =>
      cases t with
      | cs n => fits1
      | chr c x => exact Fits.pure (Nat.le_trans ha (by omega))
    | group g => exact Fits.pure (Nat.le_trans ha (by omega))
  · cases f with
    | none => exact Fits.ev ht
    | some f => exact Fits.push (by fitsl)

theorem fits_delimiter : Fits B Any (H.lex delimiter) := Fits.lex (cf := ⟨true, fun _ => 0⟩) good_delimiter calm_delimiter

theorem fits_sizedDelim (size : DelimSize) : Fits B Any (sizedDelim size) := Fits.bind fits_delimiter fun x _ => by fits1

theorem columns_length : ∀ {s : Str} {n m : Nat} {cols : List ArrayCol}, columns cf n s = .ok (cols, m) → cols.length = s.length
  | [], n, m, cols, h => by cases h; rfl
  | c :: s, n, m, cols, h => by
    unfold columns at h
    split at h
    · cases h
    · split at h
      · cases h
      · dsimp only at h
        split at h
        · cases h
        · rename_i h'
          cases h
          simp [columns_length h']

theorem columns_calm : ∀ {s : Str} {n : Nat} {e : ErrorKind}, columns cf n s = .error (.inl e) → ErrFits e
  | [], n, e, h => by cases h
  | c :: s, n, e, h => by
    unfold columns at h
    split at h
    · cases h
    · split at h
      · cases h; exact trivial
      · dsimp only at h
        split at h
        · rename_i h'
          cases h
          exact columns_calm h'
        · cases h

theorem fits_arrayEnvironment : Fits B (fun x => EventFits B (.begin_ x.1)) (arrayEnvironment cf) := by
  refine Fits.bind (fits_groupArg trivial) fun g hg => ?_
  cases h : columns cf 0 g.cs with
  | error x => cases x with
    | inl e => exact Fits.fail (columns_calm h)
    | inr p => fits1
  | ok x =>
    obtain ⟨cols, m⟩ := x
    refine Fits.ite (by fits1) (Fits.pure ?_)
    show cols.length ≤ B
    rw [columns_length h]; exact hg

theorem fits_optionalAlignment : Fits B Any optionalAlignment := by
  refine Fits.bind Fits.optionalArgument fun g _ => ?_
  cases g with
  | none => fits1
  | some g => exact Fits.ite (by fits1) (Fits.ite (by fits1) (Fits.ite (by fits1) (by fits1)))

theorem fits_newCommand (should : Option Bool) : Fits B Any (newCommand should) := by
  refine Fits.bind Fits.braceArgument fun g _ => Fits.bind (Fits.onStr calm_controlSequence _) fun cs _ => Fits.bind Fits.get fun st _ => Fits.ite ?_ ?_
  · refine Fits.fail ?_
    split <;> exact trivial
  refine Fits.bind Fits.optionalArgument fun n _ => ?_
  cases n with
  | none => fits1
  | some n =>
    dsimp only
    cases parseU8 n.cs with
    | none => fits1
    | some k =>
      refine Fits.bind Fits.optionalArgument fun d _ => ?_
      split
      · fits1
      · rename_i hk
        refine Fits.bind Fits.braceArgument fun r _ => Fits.bind Fits.get fun st _ => ?_
        exact Fits.ite (by fits1) (Fits.macros fun m e h => insertCommand_calm (by omega) h)

theorem fits_genfracDelim : Fits B Any genfracDelim := by
  refine Fits.bind Fits.argument fun a _ => ?_
  cases a with
  | token t =>
    dsimp only
    split <;> fits1
  | group g => exact Fits.ite (by fits1) (by fits1)

theorem fits_genfracBar : Fits B Any genfracBar := by
  refine Fits.bind Fits.argument fun a _ => ?_
  cases a with
  | token t => fits1
  | group g => exact Fits.ite (by fits1) (Fits.bind (Fits.onStr (Calm.bind calm_dimension fun _ => Calm.bind Calm.get fun _ => Calm.pure _) _) fun x _ => Fits.ite (by fits1) (by fits1))

theorem fits_genfracStyle : Fits B Any genfracStyle := by
  refine Fits.bind Fits.argument fun a _ => ?_
  repeat' split
  all_goals fits1

theorem fits_pairsArg : Fits B Any (pairsArg cf) :=
  Fits.bind (fits_groupArg trivial) fun g _ => Fits.bind (Fits.onStr calm_unsignedInteger _) fun n _ => by fits1

theorem fits_pairsMax (n : Nat) : Fits B Any (pairsMax cf n) :=
  Fits.ite (by fits1) (Fits.ite (by fits1) (by fits1))

theorem fits_subarrayAlign : Fits B Any subarrayAlign := by
  refine Fits.bind Fits.argument fun a _ => ?_
  cases a with
  | token t => fits1
  | group g => exact Fits.ite (by fits1) (Fits.ite (by fits1) (Fits.ite (by fits1) (by fits1)))

/-- The group an environment starts. -/
def EnvFits (B : Nat) (e : Env) : Prop := EventFits B (.begin_ e.g)

theorem fits_matrixEnv (ty : MatrixType) (spec : Bool) (style : Option Style) (wrap : Option (Char × Char)) :
    Fits B (EnvFits B) (matrixEnv ty spec style wrap) := by
  cases spec with
  | false => exact Fits.bind (P := Any) (Fits.pure trivial) fun _ _ => Fits.pure trivial
  | true => exact Fits.bind fits_optionalAlignment fun _ _ => Fits.pure trivial

theorem fits_alignatEnv {g : Nat → Grouping} (hg : ∀ n, EventFits B (.begin_ (g n))) (k : GroupingKind) : Fits B (EnvFits B) (alignatEnv cf g k) :=
  Fits.bind fits_pairsArg fun n _ => Fits.bind (fits_pairsMax n) fun _ _ => Fits.pure (hg n)

theorem fits_environments : ∀ x ∈ environments cf, Fits B (EnvFits B) x.2 := by
  unfold environments
  simp only [List.forall_mem_cons]
  refine ⟨Fits.bind fits_arrayEnvironment fun _ h => Fits.pure h, Fits.bind fits_arrayEnvironment fun _ h => Fits.pure h, ?_⟩
  refine ⟨fits_matrixEnv _ _ _ _, fits_matrixEnv _ _ _ _, fits_matrixEnv _ _ _ _, fits_matrixEnv _ _ _ _, fits_matrixEnv _ _ _ _,
    fits_matrixEnv _ _ _ _, fits_matrixEnv _ _ _ _, fits_matrixEnv _ _ _ _, fits_matrixEnv _ _ _ _, fits_matrixEnv _ _ _ _,
    fits_matrixEnv _ _ _ _, fits_matrixEnv _ _ _ _, fits_matrixEnv _ _ _ _, ?_⟩
  refine ⟨by fits1, by fits1, by fits1, by fits1, by fits1, by fits1, by fits1, by fits1, by fits1, by fits1, by fits1, by fits1, ?_⟩
  refine ⟨fits_alignatEnv (fun _ => by exact trivial) _, fits_alignatEnv (fun _ => by exact trivial) _, fits_alignatEnv (fun _ => by exact trivial) _,
    Fits.bind fits_subarrayAlign fun _ _ => by fits1, by fits1, by fits1, ?_⟩
  intro x hx; cases hx

theorem fits_beginEnv : Fits B Any (beginEnv cf) := by
  refine Fits.bind (fits_groupArg trivial) fun g _ => ?_
  cases h : (environments cf).lookup g.cs with
  | none => fits1
  | some m =>
    refine Fits.bind (fits_environments _ (lookup_mem_gen h)) fun env henv => ?_
    obtain ⟨gg, mx, k, style, wrap⟩ := env
    have hgg : InstrFits B (.ev (.begin_ gg)) := henv
    clear henv
    have tail : ∀ lines : List Line, lines.length ≤ B → ∀ c : Sl, c.cs.length ≤ B → Fits B Any
        (H.push ([.ev (.begin_ gg)] ++
        (match style with
          | some s => [.ev (.stateChange (.style s))]
          | none => []) ++
        (if lines.isEmpty then [] else [.ev (.flow (.startLines lines))]) ++
        [.sub c (some ⟨0, mx⟩), .ev .end_] ++
        (if wrap.isSome then [.ev .end_] else []))) := by
      intro lines hl c hc
      refine Fits.push ?_
      have hll : InstrFits B (.ev (.flow (.startLines lines))) := hl
      have hcc : InstrFits B (.sub c (some ⟨0, mx⟩)) := hc
      intro i hi
      simp only [List.mem_append] at hi
      rcases hi with (((hi | hi) | hi) | hi) | hi
      · rw [List.mem_singleton] at hi; rw [hi]; exact hgg
      · cases style with
        | none => cases hi
        | some s => rw [List.mem_singleton] at hi; rw [hi]; exact trivial
      · split at hi
        · cases hi
        · rw [List.mem_singleton] at hi; rw [hi]; exact hll
      · simp only [List.mem_cons, List.not_mem_nil, or_false] at hi
        rcases hi with rfl | rfl
        · exact hcc
        · exact trivial
      · split at hi
        · rw [List.mem_singleton] at hi; rw [hi]; exact trivial
        · cases hi
    cases wrap with
    | none => exact Fits.bind Fits.lines fun l hl => Fits.bind (Fits.groupContent _) fun c hc => tail l hl c hc
    | some w =>
      obtain ⟨a, b⟩ := w
      exact Fits.bind (Fits.ev trivial) fun _ _ => Fits.bind Fits.lines fun l hl => Fits.bind (Fits.groupContent _) fun c hc => tail l hl c hc

theorem fits_leftDelim : Fits B Any leftDelim := by
  refine Fits.bind Fits.get fun st hst => ?_
  have h1 := hst.1
  split
  · rename_i rest e
    refine Fits.bind (Fits.setContent ?_) fun _ _ => by fits1
    rw [e] at h1; simp at h1
    show rest.length ≤ B
    omega
  · exact Fits.bind fits_delimiter fun _ _ => by fits1

include hr

theorem fits_handleArgument {a : HArg} (ha : a.fits B) : Fits B Any (handleArgument rec a) := by
  cases a with
  | token t => exact Fits.bind (by fits1) fun _ _ => hr t ha
  | group g =>
    have : InstrFits B (.sub g none) := ha
    exact Fits.push (by fitsl)

theorem fits_atomGroup (cls : AtomClass) : Fits B Any (atomGroup rec cls) := by
  refine Fits.bind Fits.argument fun a ha => ?_
  cases singleChar a with
  | some c =>
    refine Fits.ev ?_
    cases cls <;> exact trivial
  | none =>
    have key : Fits B Any (do H.ev (.begin_ .normal); handleArgument rec a; H.ev .end_) :=
      Fits.bind (by fits1) fun _ _ => Fits.bind (fits_handleArgument hr ha) fun _ _ => by fits1
    cases cls <;> cases a <;> first | exact key | exact Fits.ev (Nat.le_trans ha (by omega))

theorem fits_fontGroup (f : Option Font) : Fits B Any (fontGroup rec f) := by
  refine Fits.bind Fits.argument fun a ha => Fits.bind (by fits1) fun _ _ => ?_
  cases a with
  | token t => exact Fits.bind (hr t ha) fun _ _ => by fits1
  | group g =>
    have : InstrFits B (.sub g none) := ha
    exact Fits.bind (Fits.push (by fitsl)) fun _ _ => by fits1

theorem fits_accent (c : Char) (b : Bool) : Fits B Any (accent rec c b) :=
  Fits.bind Fits.argument fun _ ha => Fits.bind (by fits1) fun _ _ => Fits.bind (fits_handleArgument hr ha) fun _ _ => by fits1

theorem fits_underscript (c : Char) : Fits B Any (underscript rec c) :=
  Fits.bind Fits.argument fun _ ha => Fits.bind (by fits1) fun _ _ => Fits.bind (fits_handleArgument hr ha) fun _ _ => by fits1

theorem fits_fractionLike (l r : Option Char) (bar : Option Dim) (style : Option Style) : Fits B Any (fractionLike rec l r bar style) := by
  unfold fractionLike
  cases style <;> dsimp only
  all_goals
    repeat' (first
      | fits1 | exact fits_handleArgument hr ‹_› | refine Fits.ite ?_ ?_ | apply Fits.bind | intro _ _)

theorem fits_scriptSwap {over : H HArg} (ho : Fits B (HArg.fits B) over) : Fits B Any (scriptSwap rec over) := by
  refine Fits.bind Fits.get fun st _ => Fits.bind ho fun a ha => Fits.bind (fits_handleArgument hr ha) fun _ _ => Fits.bind Fits.get fun st2 h2 => ?_
  refine Fits.bind (Fits.modify fun s hs => ⟨hs.1, fun i hi => hs.2 i (List.mem_of_mem_take hi)⟩) fun _ _ =>
    Fits.bind Fits.argument fun b hb => Fits.bind (fits_handleArgument hr hb) fun _ _ => Fits.push fun i hi => h2.2 i (List.mem_of_mem_drop hi)

/-- The names of functions. -/
def Prim.fits : Prim → Bool
  | .func s | .funcMov s => s.length ≤ 16
  | _ => true

theorem fits_execPrim (p : Prim) (hp : p.fits = true) : Fits B Any (execPrim cf rec p) := by
  cases p
  all_goals unfold execPrim
  all_goals dsimp only
  case func => exact Fits.ev (by simp [Prim.fits] at hp; show _ ≤ _; omega)
  case funcMov => exact Fits.bind (by fits1) fun _ _ => Fits.bind (by fits1) fun _ _ => Fits.ev (by simp [Prim.fits] at hp; show _ ≤ _; omega)
  case frac => exact fits_fractionLike hr _ _ _ _
  case fontGroup => exact fits_fontGroup hr _
  case text => exact fits_textArgument _
  case begin_ => exact fits_beginEnv
  case newcommand => exact fits_newCommand _
  case sized => exact fits_sizedDelim _
  case operatorname =>
    refine Fits.bind Fits.allowMods fun _ _ => Fits.bind Fits.argument fun a ha => ?_
    cases a with
    | token t =>
      cases t with
      | cs n => fits1
      | chr c x => exact Fits.ev (Nat.le_trans ha (by omega))
    | group g => exact Fits.ev (Nat.le_trans ha (by omega))
  case pmod =>
    refine Fits.bind Fits.argument fun a ha => Fits.bind (Fits.push ?_) fun _ _ => Fits.bind (fits_handleArgument hr ha) fun _ _ => by fits1
    have h3 : InstrFits B (.ev (.content (.function c!"mod"))) := by show 3 ≤ B + 16; omega
    fitsl
  case atom cls => exact Fits.ite (Fits.bind Fits.allowMods fun _ _ => Fits.bind (Fits.setPos _) fun _ _ => fits_atomGroup hr cls) (fits_atomGroup hr cls)
  case dots =>
    refine Fits.bind Fits.get fun st _ => ?_
    cases trimStart st.content.cs with
    | nil => fits1
    | cons c t => exact Fits.ite (by fits1) (by fits1)
  case color => exact Fits.bind (fits_groupArg trivial) fun g _ => Fits.bind Fits.setSkip fun _ _ => Fits.bind (fits_colorOf _) fun c hc => Fits.ev hc
  case textcolor =>
    refine Fits.bind (fits_groupArg trivial) fun g _ => Fits.bind (fits_colorOf _) fun c hc => Fits.bind Fits.argument fun a ha => Fits.bind (Fits.push ?_) fun _ _ =>
      Fits.bind (fits_handleArgument hr ha) fun _ _ => by fits1
    fitsl
  case colorbox =>
    refine Fits.bind (fits_groupArg trivial) fun g _ => Fits.bind (fits_colorOf _) fun c hc => Fits.bind (Fits.push ?_) fun _ _ =>
      Fits.bind (fits_textArgument none) fun _ _ => by fits1
    fitsl
  case fcolorbox =>
    refine Fits.bind (fits_groupArg trivial) fun g _ => Fits.bind (fits_groupArg trivial) fun g _ => Fits.bind (fits_colorOf _) fun c hc =>
      Fits.bind (fits_colorOf _) fun c hc => Fits.bind (Fits.push ?_) fun _ _ => Fits.bind (fits_textArgument none) fun _ _ => by fits1
    fitsl
  case left =>
    refine Fits.bind fits_leftDelim fun o _ => Fits.bind (Fits.groupContent _) fun c hc => Fits.bind fits_leftDelim fun o _ => Fits.push ?_
    fitsl
  case middle => exact Fits.bind fits_delimiter fun _ _ => by fits1
  case accent => exact Fits.ite (Fits.bind (Fits.setPos _) fun _ _ => fits_accent hr _ _) (fits_accent hr _ _)
  case under => exact Fits.ite (Fits.bind (Fits.setPos _) fun _ _ => fits_underscript hr _) (fits_underscript hr _)
  case nbsp => exact Fits.ev (by show 6 ≤ B + 16; omega)
  case kern => exact Fits.bind (Fits.lex (cf := cf) good_dimensionOrBraced (calm_orBraced calm_dimension)) fun _ _ => by fits1
  case hskip => exact Fits.bind (Fits.lex (cf := cf) good_glueOrBraced (calm_orBraced calm_glue)) fun _ _ => by fits1
  case mkern => exact Fits.bind (Fits.lex (cf := cf) good_dimensionOrBraced (calm_orBraced calm_dimension)) fun _ _ => Fits.ite (by fits1) (by fits1)
  case mskip => exact Fits.bind (Fits.lex (cf := cf) good_glueOrBraced (calm_orBraced calm_glue)) fun _ _ => Fits.ite (by fits1) (by fits1)
  case hspace => exact Fits.bind (fits_groupArg trivial) fun g _ => Fits.bind (Fits.onStr calm_glue _) fun x _ => by fits1
  case space3 =>
    refine Fits.bind (fits_groupArg trivial) fun g _ => Fits.bind (Fits.onStr calm_dimension _) fun x _ => ?_
    refine Fits.bind (fits_groupArg trivial) fun g _ => Fits.bind (Fits.onStr calm_dimension _) fun x _ => ?_
    exact Fits.bind (fits_groupArg trivial) fun g _ => Fits.bind (Fits.onStr calm_dimension _) fun x _ => by fits1
  case xarrow c =>
    refine Fits.bind Fits.optionalArgument fun b hb => Fits.bind Fits.argument fun a ha => ?_
    cases b with
    | none => exact Fits.bind (by fits1) fun _ _ => fits_handleArgument hr ha
    | some g => exact Fits.bind (by fits1) fun _ _ => Fits.bind (fits_handleArgument hr (a := .group g) (hb g rfl)) fun _ _ => fits_handleArgument hr ha
  case genfrac => exact Fits.bind fits_genfracDelim fun _ _ => Fits.bind fits_genfracDelim fun _ _ => Fits.bind fits_genfracBar fun _ _ => Fits.bind fits_genfracStyle fun _ _ => fits_fractionLike hr _ _ _ _
  case overset => exact Fits.bind (by fits1) fun _ _ => fits_scriptSwap hr Fits.argument
  case buildrel => exact Fits.bind (Fits.contentWithSuffix (by decide)) fun o ho => Fits.bind (by fits1) fun _ _ => fits_scriptSwap hr (Fits.argumentOf ho)
  case substack => exact Fits.bind Fits.braceArgument fun g hg => Fits.push (by fitsl)
  case sideset => exact Fits.bind Fits.argument fun _ _ => Fits.bind Fits.argument fun _ _ => Fits.bind Fits.argument fun a ha => fits_handleArgument hr ha
  case sqrt =>
    refine Fits.bind Fits.optionalArgument fun i hi => ?_
    cases i with
    | none => exact Fits.bind (by fits1) fun _ _ => Fits.bind Fits.argument fun a ha => fits_handleArgument hr ha
    | some g =>
      have : InstrFits B (.sub g none) := hi g rfl
      exact Fits.bind (by fits1) fun _ _ => Fits.bind Fits.argument fun a ha => Fits.bind (fits_handleArgument hr ha) fun _ _ => Fits.push (by fitsl)
  case not_ => exact Fits.bind (by fits1) fun _ _ => Fits.bind Fits.argument fun a ha => fits_handleArgument hr ha
  case char => exact Fits.bind (Fits.lex (cf := cf) good_unsignedInteger calm_unsignedInteger) fun _ _ => Fits.ite (by fits1) (by fits1)
  case relax => exact Fits.bind Fits.get fun _ _ => Fits.ite (by fits1) (by fits1)
  case begingroup => exact Fits.bind (Fits.groupContent _) fun g hg => Fits.push (by fitsl)
  case newline =>
    refine Fits.bind Fits.get fun st hst => ?_
    cases st.align with
    | none => fits1
    | some a =>
      refine Fits.ite (by fits1) (Fits.bind (Fits.set hst) fun _ _ => Fits.bind (P := Any) (Fits.bind Fits.optionalArgument fun o _ => ?_) fun _ _ =>
        Fits.bind Fits.lines fun _ hl => Fits.ev hl)
      cases o with
      | none => fits1
      | some g => exact Fits.bind (Fits.onStr calm_dimension _) fun _ _ => by fits1
  case def_ => exact Fits.bind (Fits.lex (cf := cf) good_definition calm_definition) fun _ _ => Fits.bind (by fits1) fun _ _ => Fits.macros fun _ _ h => define_calm h
  case let_ => exact Fits.bind (Fits.lex (cf := cf) good_letAssignment calm_let) fun _ _ => Fits.bind (by fits1) fun _ _ => Fits.macros fun _ _ h => by cases h
  case futurelet =>
    refine Fits.bind (P := fun x => x.2.2.length ≤ B) (Fits.lexWith (cf := cf) good_futureletAssignment calm_futurelet ?_) fun x hx => Fits.bind (by fits1) fun _ _ =>
      Fits.bind (Fits.macros fun _ _ h => by cases h) fun _ _ => Fits.modify fun s hs => ⟨hx, hs.2⟩
    intro s x r hs h
    unfold futureletAssignment at h
    obtain ⟨name, s1, h1, h⟩ := M.bind_eq_ok h
    rw [M.get_bind] at h
    obtain ⟨_, s2, h2, h⟩ := M.bind_eq_ok h
    obtain ⟨t, s3, h3, h⟩ := M.bind_eq_ok h
    cases h
    have := good_controlSequence (cf := cf) s
    rw [h1] at this
    exact Nat.le_trans this.length_le hs
  all_goals
    repeat' (first | fits1 | apply Fits.bind | refine Fits.ite ?_ ?_ | intro _ _)

end
end PL
