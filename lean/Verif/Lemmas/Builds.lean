import Verif.Model.Parser
set_option autoImplicit false
/-!
# Builds with and without overflow checks

The handlers of the two builds agree, unless the one with checks panics.
-/
namespace PL
open Lex

/-- The same result, unless the first panics with an overflow. -/
structure Agree {σ α : Type} (m m' : M σ α) : Prop where
  out : ∀ s, m s = .panic .overflow ∨ m s = m' s

namespace Agree
variable {σ α β : Type}

theorem refl (m : M σ α) : Agree m m := ⟨fun _ => .inr rfl⟩

theorem boom {m : M σ α} : Agree (M.boom .overflow) m := ⟨fun _ => .inl rfl⟩

theorem bind {m m' : M σ α} {f f' : α → M σ β} (h : Agree m m') (hf : ∀ a, Agree (f a) (f' a)) : Agree (m >>= f) (m' >>= f') := by
  refine ⟨fun s => ?_⟩
  show M.bind m f s = _ ∨ M.bind m f s = M.bind m' f' s
  unfold M.bind
  rcases h.out s with h | h
  · rw [h]; exact .inl rfl
  · rw [h]
    cases m' s with
    | ok a s' => exact (hf a).out s'
    | err e s' => exact .inr rfl
    | panic p => exact .inr rfl

theorem ite {c : Prop} [Decidable c] {m m' n n' : M σ α} (h : Agree m m') (h' : Agree n n') : Agree (if c then m else n) (if c then m' else n') := by
  split
  · exact h
  · exact h'
end Agree

/-- The same build without overflow checks. -/
def Cfg.unchecked (cf : Cfg) : Cfg := { cf with overflowChecks := false }

variable (cf : Cfg)

theorem usizeDigits_agree (b : Nat) (val : Char → Nat) : ∀ (ds : Str) (n : Nat),
    usizeDigits cf b val n ds = .error .overflow ∨ usizeDigits cf b val n ds = usizeDigits cf.unchecked b val n ds
  | [], _ => .inr rfl
  | d :: ds, n => by
    unfold usizeDigits
    dsimp only
    split
    · exact usizeDigits_agree b val ds _
    · cases hc : cf.overflowChecks with
      | true => exact .inl rfl
      | false => exact usizeDigits_agree b val ds _

theorem radix_agree (b : Nat) (p : Char → Bool) (val : Char → Nat) : Agree (radix cf b p val) (radix cf.unchecked b p val) := by
  refine ⟨fun s => ?_⟩
  unfold radix
  rcases usizeDigits_agree cf b val (s.takeWhile p) 0 with h | h
  · rw [h]; exact .inl rfl
  · rw [h]; exact .inr rfl

theorem unsignedInteger_agree : Agree (unsignedInteger cf) (unsignedInteger cf.unchecked) := by
  refine ⟨fun s => ?_⟩
  unfold unsignedInteger decimal octal hexadecimal
  cases s with
  | nil => exact .inr rfl
  | cons c r =>
    dsimp only
    split
    · exact (radix_agree cf _ _ _).out _
    · split
      · exact .inr rfl
      · split
        · exact .inr rfl
        · split
          · exact (radix_agree cf _ _ _).out _
          · split
            · exact (radix_agree cf _ _ _).out _
            · exact .inr rfl

namespace H

theorem lex_agree {α : Type} {m m' : L α} (h : Agree m m') : Agree (lex m) (lex m') := by
  refine ⟨fun s => ?_⟩
  unfold lex
  rcases h.out s.content.cs with h | h
  · rw [h]; exact .inl rfl
  · rw [h]; exact .inr rfl

theorem onStr_agree {α : Type} {m m' : L α} (h : Agree m m') (t : Str) : Agree (onStr m t) (onStr m' t) := by
  refine ⟨fun s => ?_⟩
  unfold onStr
  rcases h.out t with h | h
  · rw [h]; exact .inl rfl
  · rw [h]; exact .inr rfl

theorem columns_agree : ∀ (s : Str) (n : Nat), columns cf n s = .error (.inr .overflow) ∨ columns cf n s = columns cf.unchecked n s
  | [], _ => .inr rfl
  | c :: s, n => by
    unfold columns
    cases hc : cf.overflowChecks with
    | true =>
      by_cases h : n + 1 ≥ 2 ^ 16
      · left; simp [h]
      · have e : cf.unchecked.overflowChecks = false := rfl
        simp only [h, e, decide_false, Bool.false_and, Bool.and_false]
        cases columnOf c with
        | none => exact .inr rfl
        | some col =>
          cases col with
          | column a =>
            dsimp only
            rcases columns_agree s ((n + 1) % 2 ^ 16) with h | h
            · rw [h]; exact .inl rfl
            · rw [h]; exact .inr rfl
          | separator l =>
            dsimp only
            rcases columns_agree s n with h | h
            · rw [h]; exact .inl rfl
            · rw [h]; exact .inr rfl
    | false =>
      have : cf.unchecked = cf := by cases cf; simp_all [Cfg.unchecked]
      rw [this, hc]
      exact .inr rfl

theorem arrayEnvironment_agree : Agree (arrayEnvironment cf) (arrayEnvironment cf.unchecked) := by
  unfold arrayEnvironment
  refine (Agree.refl _).bind fun g => ?_
  rcases columns_agree cf g.cs 0 with h | h
  · rw [h]; exact .boom
  · rw [h]; exact .refl _

theorem pairsArg_agree : Agree (pairsArg cf) (pairsArg cf.unchecked) := by
  unfold pairsArg
  exact (Agree.refl _).bind fun g => (onStr_agree (unsignedInteger_agree cf) _).bind fun _ => .refl _

theorem pairsMax_agree (n : Nat) : Agree (pairsMax cf n) (pairsMax cf.unchecked n) := by
  unfold pairsMax
  split
  · exact .refl _
  · cases cf.overflowChecks with
    | true => exact .boom
    | false => exact .refl _

theorem alignatEnv_agree (g : Nat → Grouping) (k : GroupingKind) : Agree (alignatEnv cf g k) (alignatEnv cf.unchecked g k) := by
  unfold alignatEnv
  exact (pairsArg_agree cf).bind fun _ => (pairsMax_agree cf _).bind fun _ => .refl _

/-- The two tables have the same names, and agree. -/
def Same2 : List (Str × H Env) → List (Str × H Env) → Prop
  | [], [] => True
  | (a, m) :: l, (b, m') :: l' => a = b ∧ Agree m m' ∧ Same2 l l'
  | _, _ => False

theorem Same2.lookup (x : Str) : ∀ {l l' : List (Str × H Env)}, Same2 l l' →
    (l.lookup x = none ∧ l'.lookup x = none) ∨ ∃ m m', l.lookup x = some m ∧ l'.lookup x = some m' ∧ Agree m m'
  | [], [], _ => .inl ⟨rfl, rfl⟩
  | (a, m) :: l, (b, m') :: l', ⟨e, h, hl⟩ => by
    subst e
    rw [List.lookup_cons, List.lookup_cons]
    cases x == a with
    | true => exact .inr ⟨m, m', rfl, rfl, h⟩
    | false => exact Same2.lookup x hl

theorem environments_agree : Same2 (environments cf) (environments cf.unchecked) := by
  unfold environments
  simp only [Same2, true_and, and_true]
  repeat' apply And.intro
  all_goals first
    | with_reducible exact .refl _
    | exact alignatEnv_agree cf _ _
    | exact (arrayEnvironment_agree cf).bind fun _ => .refl _

theorem beginEnv_agree : Agree (beginEnv cf) (beginEnv cf.unchecked) := by
  unfold beginEnv
  refine (Agree.refl _).bind fun name => ?_
  rcases (environments_agree cf).lookup name.cs with ⟨h, h'⟩ | ⟨m, m', h, h', hm⟩
  · rw [h, h']; exact .refl _
  · rw [h, h']
    exact hm.bind fun env => .refl _

section handlers
variable {rec rec' : HTok → H PUnit} (hr : ∀ t, Agree (rec t) (rec' t))
include hr

theorem handleArgument_agree : ∀ (a : HArg), Agree (handleArgument rec a) (handleArgument rec' a)
  | .token t => (Agree.refl _).bind fun _ => hr t
  | .group _ => .refl _

/-- Through the binds. -/
macro "agree" h:term : tactic => `(tactic| (try dsimp only) <;> repeat' (first
  | with_reducible exact Agree.refl _
  | exact handleArgument_agree $h _
  | with_reducible exact $h _
  | apply Agree.bind
  | intro _
  | split))

theorem atomGroup_agree (cls : AtomClass) : Agree (atomGroup rec cls) (atomGroup rec' cls) := by
  unfold atomGroup
  agree hr

theorem fontGroup_agree (f : Option Font) : Agree (fontGroup rec f) (fontGroup rec' f) := by
  unfold fontGroup
  agree hr

theorem accent_agree (c : Char) (st : Bool) : Agree (accent rec c st) (accent rec' c st) := by
  unfold accent
  agree hr

theorem underscript_agree (c : Char) : Agree (underscript rec c) (underscript rec' c) := by
  unfold underscript
  agree hr

theorem fractionLike_agree (l r : Option Char) (bar : Option Dim) (style : Option Style) :
    Agree (fractionLike rec l r bar style) (fractionLike rec' l r bar style) := by
  unfold fractionLike
  agree hr

theorem scriptSwap_agree (over : H HArg) : Agree (scriptSwap rec over) (scriptSwap rec' over) := by
  unfold scriptSwap
  agree hr

theorem execPrim_agree (p : Prim) : Agree (execPrim cf rec p) (execPrim cf.unchecked rec' p) := by
  cases p <;> unfold execPrim
  all_goals first
    | with_reducible exact .refl _
    | exact beginEnv_agree cf
    | exact fontGroup_agree hr _
    | exact fractionLike_agree hr _ _ _ _
    | exact (lex_agree (unsignedInteger_agree cf)).bind fun _ => .refl _
    | (dsimp only
       repeat' (first
        | with_reducible exact Agree.refl _
        | exact handleArgument_agree hr _
        | exact atomGroup_agree hr _
        | exact accent_agree hr _ _
        | exact underscript_agree hr _
        | exact fractionLike_agree hr _ _ _ _
        | exact scriptSwap_agree hr _
        | apply Agree.bind
        | intro _
        | split))

end handlers

theorem handleToken_agree : ∀ (n : Nat) (t : HTok), Agree (handleToken cf n t) (handleToken cf.unchecked n t)
  | 0, _ => .refl _
  | n + 1, .cs name => execPrim_agree cf (handleToken_agree n) (primOf name)
  | _ + 1, .chr _ _ => .refl _

end H
open H

theorem scripts_agree {rec rec' : HTok → H PUnit} (hr : ∀ t, Agree (rec t) (rec' t)) : Agree (scripts rec) (scripts rec') := by
  unfold scripts
  agree hr

theorem atom_agree (t : HTok) : Agree (atom cf t) (atom cf.unchecked t) := by
  unfold atom
  exact (Agree.refl _).bind fun _ => (handleToken_agree cf _ t).bind fun _ => (Agree.refl _).bind fun _ => scripts_agree (handleToken_agree cf _)

theorem liftH_agree {α : Type} {m m' : H α} (h : Agree m m') : Agree (liftH m) (liftH m') := by
  refine ⟨fun s => ?_⟩
  unfold liftH
  rcases h.out s.h with h | h
  · rw [h]; exact .inl rfl
  · rw [h]; exact .inr rfl

theorem tryExpand_agree (m : Macros.Ctx) (name input : Str) :
    Macros.tryExpand cf m name input = some (.panic .overflow) ∨ Macros.tryExpand cf m name input = Macros.tryExpand cf.unchecked m name input := by
  unfold Macros.tryExpand
  cases m.get name with
  | none => exact .inr rfl
  | some d =>
    simp only [Option.map_some, Option.some.injEq]
    cases d with
    | aliasChr => exact .inr rfl
    | aliasCs => exact .inr rfl
    | macro_ => exact .inr rfl
    | command d =>
      unfold Macros.expandDefinition
      dsimp only
      cases d.default with
      | none => exact .inr rfl
      | some def_ =>
        dsimp only
        have key : Agree
            (do let o ← optionalArgument
                if d.argCount = 0 && cf.overflowChecks then M.boom .overflow
                else
                  let n := if d.argCount = 0 then 255 else d.argCount - 1
                  let as ← Macros.commandArgs n
                  return Macros.XArg.arg (.group (o.getD def_)) :: as : M Str (List Macros.XArg))
            (do let o ← optionalArgument
                if d.argCount = 0 && cf.unchecked.overflowChecks then M.boom .overflow
                else
                  let n := if d.argCount = 0 then 255 else d.argCount - 1
                  let as ← Macros.commandArgs n
                  return Macros.XArg.arg (.group (o.getD def_)) :: as : M Str (List Macros.XArg)) := by
          refine (Agree.refl _).bind fun o => ?_
          have e : cf.unchecked.overflowChecks = false := rfl
          rw [e, Bool.and_false]
          split
          · exact .boom
          · exact .refl _
        rcases key.out input with h | h
        · rw [h]; exact .inl rfl
        · rw [h]; exact .inr rfl

theorem reachLoop_unchecked (input : Str) (ptr : Nat) : ∀ (es : List ExpSpan), reachLoop cf.unchecked input ptr es = reachLoop cf input ptr es
  | [] => rfl
  | e :: es => by
    unfold reachLoop
    rw [reachLoop_unchecked input ptr es]
    rfl

theorem reach_unchecked (sp : Spans) (ptr : Nat) : sp.reach cf.unchecked ptr = sp.reach cf ptr := by
  unfold Spans.reach
  rw [reachLoop_unchecked]

theorem add_unchecked (sp : Spans) (id : Nat) (full : Str) (c : Sl) (n : Nat) : sp.add cf.unchecked id full c n = sp.add cf id full c n := by
  unfold Spans.add
  rw [reach_unchecked]
  rfl

theorem errorContext_unchecked (sp : Spans) (place : Nat) : errorContext cf.unchecked sp place = errorContext cf sp place := by
  unfold errorContext
  rw [reach_unchecked]

theorem parseLoop_agree : ∀ (n : Nat), Agree (parseLoop cf n) (parseLoop cf.unchecked n)
  | 0 => .refl _
  | n + 1 => by
    refine ⟨fun s => ?_⟩
    unfold parseLoop
    dsimp only
    cases token s.h.content.cs with
    | panic p => exact .inr rfl
    | err e rest => exact .inr rfl
    | ok t rest =>
      dsimp only
      cases t with
      | chr c x => exact (liftH_agree (atom_agree cf _)).out _
      | cs name =>
        dsimp only
        rcases tryExpand_agree cf s.h.macros name rest with h | h
        · rw [h]; exact .inl rfl
        · rw [h]
          cases Macros.tryExpand cf.unchecked s.h.macros name rest with
          | none => exact (liftH_agree (atom_agree cf _)).out _
          | some x =>
            cases x with
            | panic p => exact .inr rfl
            | err e => exact .inr rfl
            | ok new k =>
              dsimp only
              split
              · exact .inr rfl
              · rw [add_unchecked]
                split
                · exact .inr rfl
                · exact (parseLoop_agree n).out _

theorem parse_agree : Agree (parse cf) (parse cf.unchecked) := parseLoop_agree cf _

theorem step_agree (s : State) : step cf s = .panic .overflow ∨ step cf s = step cf.unchecked s := by
  unfold step
  cases s.stack with
  | nil => exact .inr rfl
  | cons i stack =>
    cases i with
    | ev e => exact .inr rfl
    | sub content align =>
      dsimp only
      split
      · exact .inr rfl
      · rcases (parse_agree cf).out (startSt s content align) with h | h
        · rw [h]; exact .inl rfl
        · rw [h]
          refine .inr ?_
          cases parse cf.unchecked (startSt s content align) with
          | ok => rfl
          | panic => rfl
          | err e st =>
            dsimp only
            rw [errorContext_unchecked]
            rfl

theorem run_agree : ∀ (n : Nat) (s : State), run cf n s = run cf.unchecked n s ∨
    ((run cf n s).2 = .panic .overflow ∧ (run cf n s).1 <+: (run cf.unchecked n s).1)
  | 0, _ => .inl rfl
  | n + 1, s => by
    unfold run
    rcases step_agree cf s with h | h
    · rw [h]
      exact .inr ⟨rfl, List.nil_prefix⟩
    · rw [h]
      cases step cf.unchecked s with
      | done => exact .inl rfl
      | panic p => exact .inl rfl
      | again s' => exact run_agree n s'
      | item i s' =>
        dsimp only
        rcases run_agree n s' with h | ⟨h1, h2⟩
        · rw [h]; exact .inl rfl
        · exact .inr ⟨h1, (List.prefix_cons_inj i).2 h2⟩

end PL
