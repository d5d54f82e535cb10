import Verif.Lemmas.Formula.Defining
import Verif.Lemmas.Formula.Mistakes
set_option autoImplicit false
/-!
# Handlers of tokens, exactly

The handler of a token does what `Spec.Gives` says, and whenever it does not panic there is something that `Spec.Gives` says.
-/
namespace PL.Formula
open PL PL.Lex PL.H Spec PL.Props

variable {cf : Cfg} {s r : Str} {k : ErrorKind} {T : Option Nat} {Δ : Known}

/-! ### The text never grows -/

theorem tokArg_length {x : Word} {t : Str} (h : TokArg s x t) : t.length < s.length := nextTok_length h.1

theorem csName_length {g name u : Str} (h : CsName g name u) : u.length ≤ g.length := by
  cases h <;> simp

theorem maybeOptional_length {g : Option Str} (h : MaybeOptional s g r) : r.length ≤ s.length := by
  cases h with
  | given h => exact (bracketed_length h).le
  | absent h => exact noOptional_length h

theorem envArgs_length {name : Str} (h : EnvArgs name s r) : r.length ≤ s.length := by
  cases h with
  | plain => exact le_rfl
  | default _ h => exact noOptional_length h
  | aligned _ h => exact (bracketed_length h).le
  | array _ h => exact (braced_length h).le
  | pairs _ h => exact (braced_length h).le
  | subarray h => exact (braced_length h).le

theorem takes_length {n : Need} (h : Takes n s r) : r.length ≤ s.length := by
  cases h with
  | text h => exact (textArg_length h).le
  | colour h => exact (braced_length h).le
  | colours h h' => have := braced_length h; have := braced_length h'; omega
  | braces h => exact (braced_length h).le
  | any h => exact readArg_length h
  | optional h => exact maybeOptional_length h
  | delim h => exact (delim_length h).le
  | delimOrDot h => exact (delimText_length h).le
  | between h => exact split_length h
  | length h => exact maybeBraced_le (fun _ _ _ h => length_le h) h
  | glue h => exact maybeBraced_le (fun _ _ _ h => glue_le h) h
  | lengthGroup h => exact (braced_length h).le
  | glueGroup h => exact (braced_length h).le
  | genDelim h => exact (genDelim_length h).le
  | genBar h => exact (genBar_length h).le
  | genStyle h => exact (genStyle_length h).le
  | code h => exact intConst_length h
  | environment h1 h2 h3 h4 =>
    have := braced_length h1
    have := envArgs_length h2
    have := wordSeq_length h3
    have := split_length h4
    omega

theorem defCommand_length {name pt rt : Str} (h : DefCommand s name pt rt r) : r.length ≤ s.length := by
  obtain ⟨g, w, t, rfl, h, -, -, -, -, -, h'⟩ := h
  have := csName_length h
  have := split_length h'
  simp at *
  omega

theorem letText_length {name : Str} {x : Word} (h : LetText s name x r) : r.length ≤ s.length := by
  cases h with
  | equals h _ h' =>
    have := csName_length h
    have := nextTok_length h'
    simp at *
    omega
  | plain h _ h' =>
    have := csName_length h
    have := nextTok_length h'
    simp at *
    omega

theorem futureText_length {name : Str} {x : Word} (h : FutureText s name x r) : r.length ≤ s.length := by
  cases h with
  | mk h =>
    have := csName_length h
    simp at *
    omega

theorem names_length {name : Str} (h : Names s name r) : r.length ≤ s.length := by
  obtain ⟨g, u, h, -⟩ := h
  exact (braced_length h).le

theorem newMacro_length {should : Option Bool} {Δ' : Known} (h : NewMacro Δ should s Δ' r) : r.length ≤ s.length := by
  cases h with
  | set h1 _ h2 _ _ h3 h4 =>
    have := names_length h1
    have := bracketed_length h2
    have := maybeOptional_length h3
    have := braced_length h4
    omega
  | kept h1 h2 _ _ h3 h4 =>
    have := names_length h1
    have := bracketed_length h2
    have := maybeOptional_length h3
    have := braced_length h4
    omega

/-- How long the text can be afterwards. -/
def Source.size : Source → Nat
  | .token false _ s => s.length + 1
  | .token true _ s => s.length
  | .need _ s => s.length
  | .needs _ s => s.length

theorem size_le {a : Bool} {x : Word} {n : Nat} (h : n ≤ s.length) : n ≤ Source.size (.token a x s) := by
  cases a
  · exact Nat.le_succ_of_le h
  · exact h

theorem size_mono {a : Bool} {x y : Word} {t : Str} (h : t.length ≤ s.length) : Source.size (.token a x t) ≤ Source.size (.token a y s) := by
  cases a <;> simp [Source.size, h]

theorem gives_length {p : Source} {e : Effect} (h : Gives T Δ p e) : ∀ m r Δ', e = .right m r Δ' → r.length ≤ Source.size p := by
  induction h with
  | plain | tie | relax => rintro _ _ _ ⟨⟩; exact size_le le_rfl
  | digit | nil => rintro _ _ _ ⟨⟩; exact le_rfl
  | alignment => rintro _ _ _ ⟨⟩; exact size_le le_rfl
  | number _ h =>
    rintro _ _ _ ⟨⟩
    have := congrArg List.length h.eq.1
    simp [Source.size] at *
    omega
  | mathShift | hashSign | unclosed | closing | noOperand | noAlignment | unknown | unbalanced | noRelax | noFont | newLineNoLength | noNewLine | noDefine | noLet
    | noFuture | noNew | lacks | noOperandAt | noClass | noOver | overNothing | stop => rintro _ _ _ ⟨⟩
  | braces h => rintro _ _ _ ⟨⟩; exact size_le (split_length h)
  | noBase => rintro _ _ _ ⟨⟩; exact le_rfl
  | @command _ _ _ _ _ _ e _ _ ih =>
    cases e with
    | wrong => rintro _ _ _ ⟨⟩
    | right => rintro _ _ _ ⟨⟩; exact size_le (ih _ _ _ rfl)
  | font _ h => rintro _ _ _ ⟨⟩; exact size_le (braced_length h).le
  | fontToken _ h _ ih =>
    intro m r Δ' he
    exact (ih m r Δ' he).trans (size_mono (tokArg_length h).le)
  | newLine _ _ h h' =>
    rintro _ _ _ ⟨⟩
    have := noOptional_length h
    have := wordSeq_length h'
    exact size_le (by omega)
  | newLineLength _ _ h _ h' =>
    rintro _ _ _ ⟨⟩
    have := bracketed_length h
    have := wordSeq_length h'
    exact size_le (by omega)
  | define _ h => rintro _ _ _ ⟨⟩; exact size_le (defCommand_length h)
  | let_ _ h => rintro _ _ _ ⟨⟩; exact size_le (letText_length h)
  | future _ h => rintro _ _ _ ⟨⟩; exact size_le (futureText_length h)
  | new _ h => rintro _ _ _ ⟨⟩; exact size_le (newMacro_length h)
  | takes h => rintro _ _ _ ⟨⟩; exact takes_length h
  | operandGroup h => rintro _ _ _ ⟨⟩; exact (braced_length h).le
  | operandToken h _ ih => intro m r Δ' he; exact (ih m r Δ' he).trans (tokArg_length h).le
  | classGroup h => rintro _ _ _ ⟨⟩; exact (braced_length h).le
  | classChar h => rintro _ _ _ ⟨⟩; exact (tokArg_length h).le
  | classToken h _ ih => intro m r Δ' he; exact (ih m r Δ' he).trans (tokArg_length h).le
  | overGroup h => rintro _ _ _ ⟨⟩; exact delimited_length h
  | overToken h _ _ _ ih => intro m r Δ' he; exact (ih m r Δ' he).trans (delimited_length h)
  | overDigit h h' =>
    rintro _ _ _ ⟨⟩
    have := tokArg_length h'
    have := congrArg List.length (delimited_text h)
    simp [Source.size] at *
    omega
  | @cons _ _ _ _ _ _ _ e _ _ ih ih' =>
    cases e with
    | wrong => rintro _ _ _ ⟨⟩
    | right => rintro _ _ _ ⟨⟩; exact (ih' _ _ _ rfl).trans (ih _ _ _ rfl)

/-! ### What a handler does -/

/-- The outcome `o` of a handler started in `h` is `e`. -/
def Meets {α : Type} (cf : Cfg) (h : HSt) (o : Res HSt α) : Effect → Prop
  | .right m r Δ => ∃ a h', o = .ok a h' ∧ h'.content.cs = r ∧ h'.allowMods = (h.allowMods || m.mods) ∧ h'.skip = (h.skip || m.skip) ∧ Stores cf h'.macros Δ
  | .wrong k => ∃ h', o = .err k h'

/-- The handler `m` started in `h` does what comes of `p`, and nothing is left open unless it panics. -/
structure Exact {α : Type} (cf : Cfg) (T : Option Nat) (Δ : Known) (m : H α) (h : HSt) (p : Source) : Prop where
  sound : ∀ e, Gives T Δ p e → Meets cf h (m h) e
  total : cf.overflowChecks = true → (∀ q, m h ≠ .panic q) → ∃ e, Gives T Δ p e

theorem Meets.marked {α : Type} {h h1 : HSt} {o : Res HSt α} {e : Effect} {m : Marks} (hm : h1.allowMods = (h.allowMods || m.mods)) (hs : h1.skip = (h.skip || m.skip))
    (H : Meets cf h1 o e) : Meets cf h o (e.mark m) := by
  cases e with
  | wrong k => exact H
  | right m' r Δ' =>
    obtain ⟨a, h', e, h2, h3, h4, h5⟩ := H
    refine ⟨a, h', e, h2, ?_, ?_, h5⟩
    · rw [h3, hm]; simp [Marks.or, Bool.or_assoc]
    · rw [h4, hs]; simp [Marks.or, Bool.or_assoc]

theorem Marks.or_none (m : Marks) : Marks.or {} m = m := by cases m; simp [Marks.or]
theorem mark_none (e : Effect) : e.mark {} = e := by cases e <;> simp [Effect.mark, Marks.or_none]

theorem Meets.like {α : Type} {h h1 : HSt} {o : Res HSt α} {e : Effect} {t : Str} (l : Like h h1 t) (H : Meets cf h1 o e) : Meets cf h o e := by
  have := H.marked (h := h) (m := {}) (by rw [l.mods]; simp) (by rw [l.skip]; simp)
  rwa [mark_none] at this

/-- `m` does nothing that the text could have decided. -/
def Idle {α : Type} (m : H α) : Prop := ∀ h, ∃ a h', m h = .ok a h' ∧ Like h h' h.content.cs

theorem idle_push (is : List Instr) : Idle (H.push is) := fun _ => ⟨_, _, rfl, rfl, rfl, rfl, rfl⟩
theorem idle_ev (e : Event) : Idle (H.ev e) := idle_push _
theorem idle_pos (p : ScriptPos) : Idle (H.setPos p) := fun _ => ⟨_, _, rfl, rfl, rfl, rfl, rfl⟩
theorem idle_pure {α : Type} (a : α) : Idle (pure a : H α) := fun _ => ⟨_, _, rfl, rfl, rfl, rfl, rfl⟩
theorem idle_get : Idle (M.get : H HSt) := fun _ => ⟨_, _, rfl, rfl, rfl, rfl, rfl⟩
theorem idle_bind {α β : Type} {m : H α} {f : α → H β} (hm : Idle m) (hf : ∀ a, Idle (f a)) : Idle (m >>= f) := by
  intro h
  obtain ⟨a, h1, e1, l1⟩ := hm h
  obtain ⟨b, h2, e2, l2⟩ := hf a h1
  refine ⟨b, h2, by rw [M.bind_ok e1, e2], l1.trans ⟨l2.cs.trans l1.cs, l2.mods, l2.skip, l2.macros⟩⟩
theorem idle_ite {α : Type} {p : Prop} [Decidable p] {m m' : H α} (hm : Idle m) (hm' : Idle m') : Idle (if p then m else m') := by
  split
  · exact hm
  · exact hm'

/-- `m` does what comes of the need `x`, for texts shorter than `n`. -/
def Phase {α : Type} (cf : Cfg) (T : Option Nat) (n : Nat) (m : H α) (x : Need) : Prop :=
  ∀ h Δ, Stores cf h.macros Δ → h.content.cs.length + 1 ≤ n → Exact cf T Δ m h (.need x h.content.cs)

/-- `m` does what comes of the needs `xs`, for texts shorter than `n`. -/
def Does {α : Type} (cf : Cfg) (T : Option Nat) (n : Nat) (m : H α) (xs : List Need) : Prop :=
  ∀ h Δ, Stores cf h.macros Δ → h.content.cs.length + 1 ≤ n → Exact cf T Δ m h (.needs xs h.content.cs)

variable {n : Nat}

theorem Does.done {α : Type} {m : H α} (hm : Idle m) : Does cf T n m [] := by
  intro h Δ hS hn
  obtain ⟨a, h', e, l⟩ := hm h
  refine ⟨fun e' he => ?_, fun _ _ => ⟨_, .nil⟩⟩
  cases he
  exact ⟨a, h', e, l.cs, by rw [l.mods]; simp, by rw [l.skip]; simp, by rw [l.macros]; exact hS⟩

theorem Does.idle {α β : Type} {m : H α} {f : α → H β} {xs : List Need} (hm : Idle m) (hf : ∀ a, Does cf T n (f a) xs) : Does cf T n (m >>= f) xs := by
  intro h Δ hS hn
  obtain ⟨a, h', e, l⟩ := hm h
  have H := hf a h' Δ (by rw [l.macros]; exact hS) (by rw [l.cs]; exact hn)
  rw [l.cs] at H
  refine ⟨fun e' he => ?_, fun ho hp => ?_⟩
  · rw [M.bind_ok e]
    exact (H.sound e' he).like l
  · exact H.total ho (np_after e hp)

theorem Does.next {α β : Type} {m : H α} {f : α → H β} {x : Need} {xs : List Need} (hm : Phase cf T n m x) (hf : ∀ a, Does cf T n (f a) xs) :
    Does cf T n (m >>= f) (x :: xs) := by
  intro h Δ hS hn
  have H := hm h Δ hS hn
  refine ⟨fun e' he => ?_, fun ho hp => ?_⟩
  · cases he with
    | stop he =>
      obtain ⟨h', e⟩ := H.sound _ he
      exact ⟨h', by rw [M.run_bind, e]⟩
    | cons he he' =>
      obtain ⟨a, h', e, h1, h2, h3, h4⟩ := H.sound _ he
      subst h1
      have := gives_length he _ _ _ rfl
      rw [M.bind_ok e]
      exact ((hf a h' _ h4 (by simp only [Source.size] at this; omega)).sound _ he').marked h2 h3
  · obtain ⟨e0, he⟩ := H.total ho (np_bind hp)
    cases e0 with
    | wrong k => exact ⟨_, .stop he⟩
    | right m' r Δ' =>
      obtain ⟨a, h', e, h1, h2, h3, h4⟩ := H.sound _ he
      subst h1
      have := gives_length he _ _ _ rfl
      obtain ⟨e1, he'⟩ := (hf a h' _ h4 (by simp only [Source.size] at this; omega)).total ho (np_after e hp)
      exact ⟨_, .cons he he'⟩

/-- Needs for which nothing is handled. -/
def Leaf : Need → Prop
  | .operand | .classOperand | .over => False
  | _ => True

theorem Reader.phase {α : Type} {m : H α} {x : Need} (hm : Reader cf m x) (hx : Leaf x) : Phase cf T n m x := by
  intro h Δ hS hn
  refine ⟨fun e' he => ?_, fun ho hp => ?_⟩
  · generalize hs : h.content.cs = s at he
    cases he with
    | takes he =>
      subst hs
      obtain ⟨a, h', e, l⟩ := hm.ok h _ he
      exact ⟨a, h', e, l.cs, by rw [l.mods]; simp, by rw [l.skip]; simp, by rw [l.macros]; exact hS⟩
    | lacks he => subst hs; exact hm.err h _ he
    | _ => exact hx.elim
  · rcases hm.total ho h hp with ⟨r, hr⟩ | ⟨k, hk⟩
    · exact ⟨_, .takes hr⟩
    · exact ⟨_, .lacks hk⟩

theorem Does.last {α : Type} {m : H α} {x : Need} (hm : Phase cf T n m x) : Does cf T n m [x] := by
  have := Does.next (f := fun a => (pure a : H α)) hm fun a => Does.done (idle_pure a)
  have e : (m >>= fun a => (pure a : H α)) = m := by
    funext h
    rw [M.run_bind]
    cases m h <;> rfl
  rwa [e] at this

/-! ### Operands -/

/-- The token handed to the handler is `x`, with `s` after it. Where it stands in the text matters only for digits and scripts. -/
def Says (ht : HTok) (x : Word) (s : Str) (a : Bool) : Prop :=
  match ht, x with
  | .cs m, .cs n => m = n
  | .chr d ctx, .chr c => d = c ∧ c ≠ '\\' ∧ c ≠ '%' ∧ isWs c = false ∧ (ctx.cs = c :: s ∨ a = true ∧ isDigit c = false)
  | _, _ => False

theorem says_of {ht : HTok} {x : Word} {t : Str} {a : Bool} (h : NextTok s x t) (hi : ht.is x t) : Says ht x t a := by
  cases ht with
  | cs m => cases x with
    | cs n => exact hi
    | chr c => exact hi.elim
  | chr d ctx => cases x with
    | cs n => exact hi.elim
    | chr c =>
      obtain ⟨rfl, h2⟩ := hi
      obtain ⟨tk, h3, h4⟩ := nextTok_iff.1 h
      have := token_facts h3
      cases tk with
      | cs n => cases h4
      | chr c' u =>
        cases h4
        obtain ⟨-, _, -, -, h5, h6, h7⟩ := this
        exact ⟨rfl, h5, h6, h7, .inl h2⟩

/-- The handler `rec` of tokens is right for texts of less than `n - 1` characters. -/
def Right (cf : Cfg) (T : Option Nat) (n : Nat) (rec : HTok → H PUnit) : Prop :=
  ∀ ht x t a h Δ, t.length + 2 ≤ n → Says ht x t a → h.content.cs = t → h.harg = a → (a = false → room h.align = T) → Stores cf h.macros Δ →
    Exact cf T Δ (rec ht) h (.token a x t)

variable {rec : HTok → H PUnit}

/-- An argument is read, something is done about it, and it is handled. -/
theorem phase_operand {pre : HArg → H PUnit} (hr : Right cf T n rec) (hi : ∀ arg, Idle (pre arg)) :
    Phase cf T n (H.argument >>= fun arg => pre arg >>= fun _ => handleArgument rec arg) .operand := by
  intro h Δ hS hn
  have tok : ∀ {x t}, TokArg h.content.cs x t → ∃ (ht : HTok) (h2 : HSt), (H.argument >>= fun arg => pre arg >>= fun _ => handleArgument rec arg) h = rec ht h2 ∧
      Like h h2 t ∧ Exact cf T Δ (rec ht) h2 (.token true x t) := by
    intro x t hx
    obtain ⟨ht, e, hi'⟩ := argument_token hx
    obtain ⟨u, h2, e2, l2⟩ := hi (.token ht) (past h t)
    have l3 : Like h { h2 with harg := true } t := Like.past.trans ⟨l2.cs, l2.mods, l2.skip, l2.macros⟩
    refine ⟨ht, { h2 with harg := true }, ?_, l3, ?_⟩
    · rw [M.bind_ok e, M.bind_ok e2]; rfl
    · have := tokArg_length hx
      exact hr ht x t true _ Δ (by omega) (says_of hx.1 hi') l3.cs rfl (by intro h; cases h) (by rw [l3.macros]; exact hS)
  refine ⟨fun e' he => ?_, fun ho hp => ?_⟩
  · cases he with
    | takes he => cases he
    | lacks he => cases he
    | noOperandAt he => exact (errs_argument he).bind
    | operandGroup he =>
      obtain ⟨u, h2, e2, l2⟩ := hi (.group (h.content.part _ 1 _)) (past h _)
      rw [M.bind_ok (argument_group he), M.bind_ok e2]
      have l3 := (Like.past (h := h)).trans l2
      exact ⟨_, _, rfl, l3.cs, by simp [l3.mods], by simp [l3.skip], by rw [show _ = h.macros from l3.macros]; exact hS⟩
    | operandToken he he' =>
      obtain ⟨ht, h2, e, l, H⟩ := tok he
      rw [e]
      exact (H.sound _ he').like l
  · rcases argument_total h.content.cs with ⟨g, r, hg⟩ | ⟨x, t, hx⟩ | ⟨k, hk⟩
    · exact ⟨_, .operandGroup hg⟩
    · obtain ⟨ht, h2, e, l, H⟩ := tok hx
      rw [e] at hp
      obtain ⟨e, he⟩ := H.total ho hp
      exact ⟨_, .operandToken hx he⟩
    · exact ⟨_, .noOperandAt hk⟩

theorem Exact.after {α β : Type} {m : H α} {f : α → H β} {h : HSt} {p : Source} (H : Exact cf T Δ m h p) (hf : ∀ a, Idle (f a)) : Exact cf T Δ (m >>= f) h p := by
  refine ⟨fun e he => ?_, fun ho hp => H.total ho (np_bind hp)⟩
  have := H.sound e he
  cases e with
  | wrong k =>
    obtain ⟨h', e⟩ := this
    exact ⟨h', by rw [M.run_bind, e]⟩
  | right m' r Δ' =>
    obtain ⟨a, h', e, h1, h2, h3, h4⟩ := this
    obtain ⟨b, h'', e', l⟩ := hf a h'
    exact ⟨b, h'', by rw [M.bind_ok e, e'], l.cs.trans h1, l.mods.trans h2, l.skip.trans h3, by rw [l.macros]; exact h4⟩

theorem Exact.congr {α : Type} {m m' : H α} {h h' : HSt} {p : Source} {t : Str} (H : Exact cf T Δ m' h' p) (l : Like h h' t) (e : m h = m' h') : Exact cf T Δ m h p :=
  ⟨fun e' he => by rw [e]; exact (H.sound e' he).like l, fun ho hp => H.total ho (by rw [e] at hp; exact hp)⟩

theorem meets_like {α : Type} {m : H α} {h h' : HSt} {a : α} (hS : Stores cf h.macros Δ) (e : m h = .ok a h') (l : Like h h' r) : Meets cf h (m h) (.right {} r Δ) :=
  ⟨a, h', e, l.cs, by rw [l.mods]; simp, by rw [l.skip]; simp, by rw [l.macros]; exact hS⟩

theorem phase_class {cls : AtomClass} (hr : Right cf T n rec) : Phase cf T n (atomGroup rec cls) .classOperand := by
  intro h Δ hS hn
  have grp : ∀ {g r}, Braced h.content.cs g r → Meets cf h (atomGroup rec cls h) (.right {} r Δ) := by
    intro g r hg
    unfold atomGroup
    rw [M.bind_ok (argument_group hg)]
    cases singleChar (.group (h.content.part g 1 r)) with
    | some c => exact ⟨_, _, rfl, rfl, (Bool.or_false _).symm, (Bool.or_false _).symm, hS⟩
    | none => cases cls <;> exact ⟨_, _, rfl, rfl, (Bool.or_false _).symm, (Bool.or_false _).symm, hS⟩
  have chr : ∀ {c t}, TokArg h.content.cs (.chr c) t → Meets cf h (atomGroup rec cls h) (.right {} t Δ) := by
    intro c t hx
    obtain ⟨ht, e, hi⟩ := argument_token hx
    cases ht with
    | cs => exact hi.elim
    | chr d ctx =>
      unfold atomGroup
      rw [M.bind_ok e]
      exact ⟨_, _, rfl, rfl, (Bool.or_false _).symm, (Bool.or_false _).symm, hS⟩
  have tok : ∀ {x t}, TokArg h.content.cs (.cs x) t → Exact cf T Δ (atomGroup rec cls) h (.token true (.cs x) t) := by
    intro x t hx
    obtain ⟨ht, e, hi⟩ := argument_token hx
    cases ht with
    | chr => exact hi.elim
    | cs y =>
      obtain rfl : y = x := hi
      have := tokArg_length hx
      have H := hr (.cs y) (.cs y) t true { past h t with buf := h.buf ++ [.ev (.begin_ .normal)], harg := true } Δ (by omega) (show Says _ _ _ _ from rfl) rfl rfl
        (by intro h; cases h) hS
      refine (H.after fun _ => idle_ev .end_).congr (h := h) (t := t) ⟨rfl, rfl, rfl, rfl⟩ ?_
      unfold atomGroup
      rw [M.bind_ok e]
      cases cls <;> rfl
  refine ⟨fun e' he => ?_, fun ho hp => ?_⟩
  · cases he with
    | takes he => cases he
    | lacks he => cases he
    | noClass he => exact (errs_argument he).bind
    | classGroup he => exact grp he
    | classChar he => exact chr he
    | classToken he he' => exact (tok he).sound _ he'
  · rcases argument_total h.content.cs with ⟨g, r, hg⟩ | ⟨x, t, hx⟩ | ⟨k, hk⟩
    · exact ⟨_, .classGroup hg⟩
    · cases x with
      | chr c => exact ⟨_, .classChar hx⟩
      | cs x =>
        obtain ⟨e, he⟩ := (tok hx).total ho hp
        exact ⟨_, .classToken hx he⟩
    · exact ⟨_, .noClass hk⟩

/-- A digit that is an argument. -/
theorem char_digit {c : Char} {ctx : Sl} {v : Str} {h : HSt} (hc : isDigit c = true) (ha : h.harg = true) (hx : ctx.cs = c :: v) : ∃ h', handleChar c ctx h = .ok ⟨⟩ h' ∧ Like h h' v := by
  have hne : ∀ d : Char, isDigit d = false → c ≠ d := by rintro d hd rfl; rw [hc] at hd; cases hd
  unfold handleChar
  rw [M.get_bind]
  have h1 := hne '\\' (by decide)
  have h2 := hne '%' (by decide)
  have h3 := hne '_' (by decide)
  have h4 := hne '^' (by decide)
  simp only [h1, h2, h3, h4, hne '$' (by decide), hne '#' (by decide), hne '&' (by decide), hne '{' (by decide), hne '}' (by decide), hne '~' (by decide), hc, ha, decide_false,
    Bool.or_self, Bool.false_eq_true, ↓reduceIte, numberLen]
  exact ⟨_, rfl, by show (ctx.cs.drop 1) = v; rw [hx]; rfl, rfl, rfl, rfl⟩

theorem phase_over {α : Type} {pre : Sl → H α} (hr : Right cf T n (handleToken cf n)) (hi : ∀ o, Idle (pre o)) :
    Phase cf T n (H.contentWithSuffix c!"\\over" >>= fun o => pre o >>= fun a => argumentOf o >>= fun arg => handleArgument (handleToken cf n) arg >>= fun _ => pure a) .over := by
  intro h Δ hS hn
  have del : ∀ {o t}, Delimited c!"\\over" h.content.cs o t → ∃ (a : α) (sl : Sl) (h1 : HSt),
      (H.contentWithSuffix c!"\\over" >>= fun o => pre o >>= fun a => argumentOf o >>= fun arg => handleArgument (handleToken cf n) arg >>= fun _ => pure a) h =
        (argumentOf sl >>= fun arg => handleArgument (handleToken cf n) arg >>= fun _ => pure a) h1 ∧ sl.cs = o ∧ Like h h1 t := by
    intro o t hd
    have e : H.contentWithSuffix c!"\\over" h = .ok (h.content.part o (blen c!"\\over") t) (past h t) := by
      unfold H.contentWithSuffix
      rw [PL.Macros.contentWithSuffix_ok.2 hd]
      rfl
    obtain ⟨a, h1, e1, l1⟩ := hi (h.content.part o (blen c!"\\over") t) (past h t)
    exact ⟨a, _, h1, by rw [M.bind_ok e, M.bind_ok e1], rfl, Like.past.trans l1⟩
  have tok : ∀ {o t x v}, Delimited c!"\\over" h.content.cs o t → TokArg o x v → (∀ c, x = .chr c → isDigit c = false) →
      Exact cf T Δ (H.contentWithSuffix c!"\\over" >>= fun o => pre o >>= fun a => argumentOf o >>= fun arg => handleArgument (handleToken cf n) arg >>= fun _ => pure a) h
        (.token true x t) := by
    intro o t x v hd hx hc
    obtain ⟨a, sl, h1, e, rfl, l⟩ := del hd
    obtain ⟨tk, h2, h3, h4⟩ := tokArg_argument hx
    have e2 : argumentOf sl h1 = .ok (.token (.ofTok sl tk)) h1 := by
      unfold argumentOf
      rw [h2]
      rfl
    have hs : Says (.ofTok sl tk) x v true := says_of hx.1 (ofTok_is h3 h4)
    have hs' : Says (.ofTok sl tk) x t true := by
      generalize HTok.ofTok sl tk = ht at hs
      cases ht with
      | cs => cases x with
        | cs => exact hs
        | chr => exact hs
      | chr d ctx => cases x with
        | cs => exact hs
        | chr c =>
          obtain ⟨rfl, h5, h6, h7, -⟩ := hs
          exact ⟨rfl, h5, h6, h7, .inr ⟨rfl, hc _ rfl⟩⟩
    have := delimited_lt hd
    have H := hr (.ofTok sl tk) x t true { h1 with harg := true } Δ (by omega) hs' l.cs rfl (by intro h; cases h) (by rw [l.macros]; exact hS)
    refine (H.after fun _ => idle_pure a).congr (h := h) (t := t) ⟨l.cs, l.mods, l.skip, l.macros⟩ ?_
    rw [e, M.bind_ok e2]
    rfl
  refine ⟨fun e' he => ?_, fun ho hp => ?_⟩
  · cases he with
    | takes he => cases he
    | lacks he => cases he
    | noOver he =>
      obtain ⟨s', e⟩ := notDelimited_err he
      have : Errs (H.contentWithSuffix c!"\\over") h _ := ⟨_, by unfold H.contentWithSuffix; rw [e]⟩
      exact this.bind
    | overNothing hd hk =>
      obtain ⟨a, sl, h1, e, rfl, l⟩ := del hd
      rw [e]
      obtain ⟨s', e'⟩ := noArgument_err hk
      have : Errs (argumentOf sl) h1 _ := ⟨_, by unfold argumentOf; rw [e']⟩
      exact this.bind
    | overGroup hd hg =>
      obtain ⟨a, sl, h1, e, rfl, l⟩ := del hd
      rw [e]
      obtain ⟨g, e2⟩ : ∃ g, argumentOf sl h1 = .ok (.group g) h1 := by
        unfold argumentOf
        rw [argument_group_iff.2 hg]
        exact ⟨_, rfl⟩
      rw [M.bind_ok e2]
      exact ⟨_, _, rfl, l.cs, by simp [l.mods], by simp [l.skip], by show Stores cf h1.macros Δ; rw [l.macros]; exact hS⟩
    | overToken hd hx hc he' => exact (tok hd hx hc).sound _ he'
    | overDigit hd hx hc =>
      rename_i c v
      obtain ⟨a, sl, h1, e, rfl, l⟩ := del hd
      rw [e]
      obtain ⟨tk, h2, h3, h4⟩ := tokArg_argument hx
      have e2 : argumentOf sl h1 = .ok (.token (.ofTok sl tk)) h1 := by
        unfold argumentOf
        rw [h2]
        rfl
      have hs := ofTok_is (sl := sl) h3 h4
      rw [M.bind_ok e2]
      generalize HTok.ofTok sl tk = ht at hs
      cases ht with
      | cs => exact hs.elim
      | chr d ctx =>
        obtain ⟨rfl, h5⟩ := hs
        obtain ⟨n, rfl⟩ : ∃ m, n = m + 1 := ⟨n - 1, by omega⟩
        obtain ⟨h', e3, l3⟩ := char_digit (h := { h1 with harg := true }) hc rfl h5
        have e4 : handleArgument (handleToken cf (n + 1)) (.token (.chr d ctx)) h1 = .ok ⟨⟩ h' := e3
        rw [M.bind_ok e4]
        exact ⟨a, h', rfl, l3.cs, by simp [l3.mods, l.mods], by simp [l3.skip, l.skip], by rw [l3.macros]; show Stores cf h1.macros Δ; rw [l.macros]; exact hS⟩
  · have hp1 : ∀ p, Lex.contentWithSuffix c!"\\over" h.content.cs ≠ .panic p := by
      intro p e
      refine np_bind hp p ?_
      unfold H.contentWithSuffix
      rw [e]
    rcases delimited_total hp1 with ⟨o, t, hd⟩ | ⟨k, hk⟩
    · rcases argument_total o with ⟨g, r, hg⟩ | ⟨x, v, hx⟩ | ⟨k, hk⟩
      · exact ⟨_, .overGroup hd hg⟩
      · by_cases hc : ∃ c, x = .chr c ∧ isDigit c = true
        · obtain ⟨c, rfl, hc⟩ := hc
          exact ⟨_, .overDigit hd hx hc⟩
        · have hc' : ∀ c, x = .chr c → isDigit c = false := by
            intro c hx'
            cases hd : isDigit c with
            | false => rfl
            | true => exact absurd ⟨c, hx', hd⟩ hc
          obtain ⟨e, he⟩ := (tok hd hx hc').total ho hp
          exact ⟨_, .overToken hd hx hc' he⟩
      · exact ⟨_, .overNothing hd hk⟩
    · exact ⟨_, .noOver hk⟩

/-! ### Commands -/

theorem Does.operand {α : Type} {pre : HArg → H PUnit} {f : PUnit → H α} {xs : List Need} (hr : Right cf T n rec) (hi : ∀ arg, Idle (pre arg)) (hf : ∀ u, Does cf T n (f u) xs) :
    Does cf T n (H.argument >>= fun arg => pre arg >>= fun _ => handleArgument rec arg >>= f) (.operand :: xs) := by
  have := Does.next (phase_operand hr hi) hf
  simpa only [M.assoc] using this

theorem Does.operandNow {α : Type} {f : PUnit → H α} {xs : List Need} (hr : Right cf T n rec) (hf : ∀ u, Does cf T n (f u) xs) :
    Does cf T n (H.argument >>= fun arg => handleArgument rec arg >>= f) (.operand :: xs) := Does.operand (pre := fun _ => pure ⟨⟩) hr (fun _ => idle_pure _) hf

theorem Does.operandLast {pre : HArg → H PUnit} (hr : Right cf T n rec) (hi : ∀ arg, Idle (pre arg)) :
    Does cf T n (H.argument >>= fun arg => pre arg >>= fun _ => handleArgument rec arg) [.operand] := .last (phase_operand hr hi)

theorem Does.operandOnly (hr : Right cf T n rec) : Does cf T n (H.argument >>= fun arg => handleArgument rec arg) [.operand] :=
  Does.operandLast (pre := fun _ => pure ⟨⟩) hr fun _ => idle_pure _

theorem does_fraction {l r : Option Char} {bar : Option Dim} {style : Option Style} (hr : Right cf T n rec) : Does cf T n (fractionLike rec l r bar style) [.operand, .operand] := by
  have hend : ∀ b : Bool, Does cf T n (if b = true then H.ev .end_ else pure ⟨⟩) [] := fun b => .done (idle_ite (idle_ev _) (idle_pure _))
  have H : Does cf T n (H.ev (.visual (.fraction bar)) >>= fun _ => H.argument >>= fun num => handleArgument rec num >>= fun _ => H.argument >>= fun den => handleArgument rec den >>= fun _ =>
      if (l.isSome || r.isSome || style.isSome) = true then H.ev .end_ else pure ⟨⟩) [.operand, .operand] :=
    .idle (idle_ev _) fun _ => .operandNow hr fun _ => .operandNow hr fun _ => hend _
  unfold fractionLike
  cases hoc : (l.isSome || r.isSome) <;> cases style <;> simp only [hoc] at H ⊢
  · exact H
  · exact .idle (idle_ev _) fun _ => .idle (idle_ev _) fun _ => H
  · exact .idle (idle_ev _) fun _ => H
  · exact .idle (idle_ev _) fun _ => .idle (idle_ev _) fun _ => H

/-- The same outcome, up to the state after an error. -/
def Same {α : Type} (o o' : Res HSt α) : Prop := o = o' ∨ ∃ k h h', o = .err k h ∧ o' = .err k h'

/-- After its marks are set, the handler of `p` meets the needs `ns`. -/
def Shows (cf : Cfg) (T : Option Nat) (n : Nat) (m : H PUnit) (mk : Marks) (ns : List Need) : Prop :=
  ∃ m0 : H PUnit, Does cf T n m0 ns ∧ ∀ h, ∃ h1 : HSt, h1.content = h.content ∧ h1.macros = h.macros ∧ h1.allowMods = (h.allowMods || mk.mods) ∧
    h1.skip = (h.skip || mk.skip) ∧ Same (m h) (m0 h1)

theorem Shows.plain {m : H PUnit} {ns : List Need} (h : Does cf T n m ns) : Shows cf T n m {} ns :=
  ⟨m, h, fun h => ⟨h, rfl, rfl, by simp, by simp, .inl rfl⟩⟩

theorem Shows.mods {m : H PUnit} {f : PUnit → H PUnit} {ns : List Need} (e : m = (H.allowMods >>= f)) (h : Does cf T n (f ⟨⟩) ns) : Shows cf T n m { mods := true } ns :=
  ⟨f ⟨⟩, h, fun h => ⟨{ h with allowMods := true }, rfl, rfl, by simp, by simp, .inl (by rw [e]; rfl)⟩⟩

theorem Shows.skip {m : H PUnit} {f : PUnit → H PUnit} {ns : List Need} (e : m = (H.setSkip >>= f)) (h : Does cf T n (f ⟨⟩) ns) : Shows cf T n m { skip := true } ns :=
  ⟨f ⟨⟩, h, fun h => ⟨{ h with skip := true }, rfl, rfl, by simp, by simp, .inl (by rw [e]; rfl)⟩⟩

theorem does_swap {ty : ScriptType} (hr : Right cf T n rec) : Does cf T n (execPrim cf rec (.overset ty)) [.operand, .operand] := by
  refine .idle (idle_ev _) fun _ => .idle idle_get fun st => .operandNow hr fun _ => .idle idle_get fun st' => ?_
  refine .idle (fun h => ⟨_, _, rfl, rfl, rfl, rfl, rfl⟩) fun _ => .operandNow hr fun _ => .done (idle_push _)

theorem does_buildrel (hr : Right cf T n (handleToken cf n)) : Does cf T n (execPrim cf (handleToken cf n) .buildrel) [.over, .operand] := by
  have H : Does cf T n ((H.contentWithSuffix c!"\\over" >>= fun o => (H.ev (.script .sup .aboveBelow) >>= fun _ => M.get) >>= fun st => argumentOf o >>= fun arg =>
      handleArgument (handleToken cf n) arg >>= fun _ => pure st) >>= fun st => M.get >>= fun st' =>
      (M.modify fun s => { s with buf := s.buf.take st.buf.length }) >>= fun _ => H.argument >>= fun base => handleArgument (handleToken cf n) base >>= fun _ =>
        H.push (st'.buf.drop st.buf.length)) [.over, .operand] := by
    refine .next (phase_over hr fun _ => idle_bind (idle_ev _) fun _ => idle_get) fun st => .idle idle_get fun st' => ?_
    exact .idle (fun h => ⟨_, _, rfl, rfl, rfl, rfl, rfl⟩) fun _ => .operandNow hr fun _ => .done (idle_push _)
  simp only [M.assoc] at H
  exact H

theorem argument_skip (h : HSt) : H.argument { h with skip := true } = match H.argument h with
    | .ok g h' => .ok g { h' with skip := true }
    | .err k h' => .err k { h' with skip := true }
    | .panic p => .panic p := by
  unfold H.argument
  cases Lex.argument h.content.cs <;> rfl

theorem groupArg_skip (h : HSt) (e : ErrorKind) : groupArg e { h with skip := true } = match groupArg e h with
    | .ok g h' => .ok g { h' with skip := true }
    | .err k h' => .err k { h' with skip := true }
    | .panic p => .panic p := by
  unfold groupArg
  simp only [M.run_bind]
  rw [argument_skip]
  cases H.argument h with
  | ok x h' => cases x <;> rfl
  | _ => rfl

theorem shows_color {rec : HTok → H PUnit} : Shows cf T n (execPrim cf rec .color) { skip := true } [.colour] := by
  refine ⟨(groupArg .argument >>= fun g => colorOf g.cs) >>= fun c => H.ev (.stateChange (.color c .text)), .next (reader_colour.phase trivial) fun _ => .done (idle_ev _), fun h => ?_⟩
  refine ⟨{ h with skip := true }, rfl, rfl, by simp, by simp, ?_⟩
  rw [M.assoc]
  show Same ((groupArg .argument >>= fun g => H.setSkip >>= fun _ => colorOf g.cs >>= fun c => H.ev (.stateChange (.color c .text))) h) _
  simp only [M.run_bind (m := groupArg .argument)]
  rw [groupArg_skip]
  cases groupArg .argument h with
  | panic p => exact .inl rfl
  | err k h' => exact .inr ⟨k, _, _, rfl, rfl⟩
  | ok g h' => exact .inl rfl

theorem shows_of {p : Prim} {mk : Marks} {ns : List Need} (hr : Right cf T n (handleToken cf n)) (hp : signature p = some (mk, ns)) :
    Shows cf T n (execPrim cf (handleToken cf n) p) mk ns := by
  cases p <;> cases hp
  case func | ord | rel | rel2 | bin | space | nbsp | surd | delim => exact .plain (.done (idle_push _))
  case funcMov => exact .mods rfl (.idle (idle_pos _) fun _ => .done (idle_ev _))
  case operatorname => exact .mods rfl (.last (reader_name.phase trivial))
  case pmod => exact .plain (.operand hr (fun _ => idle_push _) fun _ => .done (idle_push _))
  case atom cls =>
    cases cls
    case op => exact .mods rfl (.idle (idle_pos _) fun _ => .last (phase_class hr))
    all_goals exact .plain (.last (phase_class hr))
  case dots =>
    refine .plain (.idle idle_get fun st => ?_)
    split
    · exact .done (idle_ite (idle_ev _) (idle_ev _))
    · exact .done (idle_ev _)
  case fontChange => exact .skip rfl (.done (idle_ev _))
  case style => exact .skip rfl (.done (idle_ev _))
  case color => exact shows_color
  case textcolor =>
    have H : Does cf T n ((groupArg .argument >>= fun g => colorOf g.cs) >>= fun c => H.argument >>= fun arg =>
        H.push [.ev (.begin_ .normal), .ev (.stateChange (.color c .text))] >>= fun _ => handleArgument (handleToken cf n) arg >>= fun _ => H.ev .end_) [.colour, .operand] :=
      .next (reader_colour.phase trivial) fun _ => .operand hr (fun _ => idle_push _) fun _ => .done (idle_ev _)
    simp only [M.assoc] at H
    exact .plain H
  case colorbox =>
    have H : Does cf T n ((groupArg .argument >>= fun g => colorOf g.cs) >>= fun c =>
        H.push [.ev (.begin_ .normal), .ev (.stateChange (.color c .background))] >>= fun _ => textArgument none >>= fun _ => H.ev .end_) [.colour, .text] :=
      .next (reader_colour.phase trivial) fun _ => .idle (idle_push _) fun _ => .next ((reader_text _).phase trivial) fun _ => .done (idle_ev _)
    simp only [M.assoc] at H
    exact .plain H
  case fcolorbox =>
    have H : Does cf T n ((do
        let f ← groupArg .argument
        let b ← groupArg .argument
        let fc ← colorOf f.cs
        let bc ← colorOf b.cs
        return (fc, bc)) >>= fun (fc, bc) => H.push [.ev (.begin_ .normal), .ev (.stateChange (.color fc .border)), .ev (.stateChange (.color bc .background))] >>= fun _ =>
          textArgument none >>= fun _ => H.ev .end_) [.colours, .text] :=
      .next (reader_colours.phase trivial) fun _ => .idle (idle_push _) fun _ => .next ((reader_text _).phase trivial) fun _ => .done (idle_ev _)
    simp only [M.assoc] at H
    exact .plain H
  case sized => exact .plain (.next (reader_delim.phase trivial) fun _ => .done (idle_ev _))
  case left =>
    exact .plain (.next (reader_leftDelim.phase trivial) fun _ => .next ((reader_between _).phase trivial) fun _ => .next (reader_leftDelim.phase trivial) fun _ =>
      .done (idle_push _))
  case middle => exact .plain (.next (reader_delim.phase trivial) fun _ => .done (idle_ev _))
  case largeOp => exact .mods rfl (.idle (idle_pos _) fun _ => .done (idle_ev _))
  case smallint => exact .mods rfl (.done (idle_ev _))
  case accent c st above =>
    have H : ∀ c st, Does cf T n (accent (handleToken cf n) c st) [.operand] := fun _ _ => .operand hr (fun _ => idle_ev _) fun _ => .done (idle_ev _)
    cases above
    · exact .plain (H _ _)
    · exact .plain (.idle (idle_pos _) fun _ => H _ _)
  case under c above =>
    have H : ∀ c, Does cf T n (underscript (handleToken cf n) c) [.operand] := fun _ => .operand hr (fun _ => idle_ev _) fun _ => .done (idle_ev _)
    cases above
    · exact .plain (H _)
    · exact .plain (.idle (idle_pos _) fun _ => H _)
  case kern => exact .plain (.next (reader_length.phase trivial) fun _ => .done (idle_ev _))
  case hskip => exact .plain (.next (reader_glue.phase trivial) fun _ => .done (idle_ev _))
  case mkern => exact .plain (.last (reader_mkern.phase trivial))
  case mskip => exact .plain (.last (reader_mskip.phase trivial))
  case hspace =>
    have H : Does cf T n ((groupArg .dimensionArgument >>= fun g => onStr glue g.cs) >>= fun (d, _, _) => H.ev (.space (some d) none none)) [.glueGroup] :=
      .next (reader_glueGroup.phase trivial) fun _ => .done (idle_ev _)
    simp only [M.assoc] at H
    exact .plain H
  case space3 =>
    have H : Does cf T n ((groupArg .dimensionArgument >>= fun g => onStr dimension g.cs) >>= fun w =>
        (groupArg .dimensionArgument >>= fun g => onStr dimension g.cs) >>= fun h => (groupArg .dimensionArgument >>= fun g => onStr dimension g.cs) >>= fun d =>
        H.ev (.space (some w) (some h) (some d))) [.lengthGroup, .lengthGroup, .lengthGroup] :=
      .next (reader_lengthGroup.phase trivial) fun _ => .next (reader_lengthGroup.phase trivial) fun _ => .next (reader_lengthGroup.phase trivial) fun _ => .done (idle_ev _)
    simp only [M.assoc] at H
    exact .plain H
  case xarrow c =>
    refine .plain (.next (reader_optional.phase trivial) fun below => ?_)
    cases below with
    | none => exact .operandLast hr fun _ => idle_push _
    | some b =>
      have H : Does cf T n (H.argument >>= fun arg => (H.push [.ev (.script .subSup .aboveBelow), .ev (relation c)] >>= fun _ =>
          handleArgument (handleToken cf n) (.group b)) >>= fun _ => handleArgument (handleToken cf n) arg) [.operand] :=
        .operandLast hr fun _ => idle_bind (idle_push _) fun _ => idle_push _
      simp only [M.assoc] at H
      exact H
  case frac => exact .plain (does_fraction hr)
  case genfrac =>
    exact .plain (.next (reader_genDelim.phase trivial) fun _ => .next (reader_genDelim.phase trivial) fun _ => .next (reader_genBar.phase trivial) fun _ =>
      .next (reader_genStyle.phase trivial) fun _ => does_fraction hr)
  case overset => exact .plain (does_swap hr)
  case buildrel => exact .plain (does_buildrel hr)
  case substack => exact .plain (.next (reader_braces.phase trivial) fun _ => .done (idle_push _))
  case sideset => exact .plain (.next (reader_any.phase trivial) fun _ => .next (reader_any.phase trivial) fun _ => .operandOnly hr)
  case sqrt =>
    refine .plain (.next (reader_optional.phase trivial) fun index => ?_)
    cases index with
    | none => exact .idle (idle_ev _) fun _ => .operandOnly hr
    | some b => exact .idle (idle_ev _) fun _ => .operandNow hr fun _ => .done (idle_push _)
  case text => exact .plain (.last ((reader_text _).phase trivial))
  case not_ => exact .plain (.idle (idle_ev _) fun _ => .operandOnly hr)
  case char => exact .plain (.last (reader_code.phase trivial))
  case begingroup => exact .plain (.next ((reader_between _).phase trivial) fun _ => .done (idle_push _))
  case begin_ => exact .plain (.last (reader_begin.phase trivial))

theorem Same.meets {α : Type} {h : HSt} {o o' : Res HSt α} {e : Effect} (hs : Same o o') (H : Meets cf h o' e) : Meets cf h o e := by
  rcases hs with rfl | ⟨k, h1, h2, rfl, rfl⟩
  · exact H
  · cases e with
    | right => obtain ⟨a, h', e, -⟩ := H; cases e
    | wrong => obtain ⟨h', e⟩ := H; cases e; exact ⟨_, rfl⟩

variable {name : Str} {a : Bool} {h : HSt}

theorem exact_command {mk : Marks} {ns : List Need} (hr : Right cf T n (handleToken cf n)) (hp : signature (primOf name) = some (mk, ns)) (hn : h.content.cs.length + 1 ≤ n)
    (hS : Stores cf h.macros Δ) : Exact cf T Δ (execPrim cf (handleToken cf n) (primOf name)) h (.token a (.cs name) h.content.cs) := by
  obtain ⟨m0, hd, hm⟩ := shows_of hr hp
  obtain ⟨h1, e1, e2, e3, e4, e5⟩ := hm h
  have H := hd h1 Δ (by rw [e2]; exact hS) (by rw [e1]; exact hn)
  rw [e1] at H
  refine ⟨fun e he => ?_, fun ho hp' => ?_⟩
  · cases he with
    | command h1 h2 =>
      rw [hp] at h1
      cases h1
      exact e5.meets ((H.sound _ h2).marked e3 e4)
    | _ => simp_all [signature]
  · obtain ⟨e, he⟩ := H.total ho (by
      intro q hq
      rcases e5 with e | ⟨k, _, _, _, e⟩
      · exact hp' q (e.trans hq)
      · rw [hq] at e; cases e)
    exact ⟨_, .command hp he⟩

theorem exact_font {f : Option Font} (hr : Right cf T n rec) (hp : primOf name = .fontGroup f) (hn : h.content.cs.length + 1 ≤ n) (ha : h.harg = a)
    (hT : a = false → room h.align = T) (hS : Stores cf h.macros Δ) : Exact cf T Δ (fontGroup rec f) h (.token a (.cs name) h.content.cs) := by
  have tok : ∀ {x t}, TokArg h.content.cs x t → Exact cf T Δ (fontGroup rec f) h (.token a x t) := by
    intro x t hx
    obtain ⟨ht, e, hi⟩ := argument_token hx
    have := tokArg_length hx
    have H := hr ht x t a { past h t with buf := h.buf ++ [.ev (.begin_ .normal), .ev (.stateChange (.font f))] } Δ (by omega) (says_of hx.1 hi) rfl ha hT hS
    refine (H.after fun _ => idle_ev .end_).congr (h := h) (t := t) ⟨rfl, rfl, rfl, rfl⟩ ?_
    unfold fontGroup
    rw [M.bind_ok e]
    rfl
  refine ⟨fun e he => ?_, fun ho hp' => ?_⟩
  · generalize hs : h.content.cs = s at he
    cases he with
    | noFont h1 h2 => subst hs; exact (errs_argument h2).bind
    | font h1 h2 =>
      subst hs
      unfold fontGroup
      rw [M.bind_ok (argument_group h2)]
      exact ⟨_, _, rfl, rfl, (Bool.or_false _).symm, (Bool.or_false _).symm, hS⟩
    | fontToken h1 h2 h3 => subst hs; exact (tok h2).sound _ h3
    | _ => simp_all [signature]
  · rcases argument_total h.content.cs with ⟨g, r, hg⟩ | ⟨x, t, hx⟩ | ⟨k, hk⟩
    · exact ⟨_, .font hp hg⟩
    · obtain ⟨e, he⟩ := (tok hx).total ho hp'
      exact ⟨_, .fontToken hp hx he⟩
    · exact ⟨_, .noFont hp hk⟩

theorem exact_relax (hp : primOf name = .relax) (ha : h.harg = a) (hS : Stores cf h.macros Δ) :
    Exact cf T Δ (execPrim cf rec .relax) h (.token a (.cs name) h.content.cs) := by
  refine ⟨fun e he => ?_, fun _ _ => ?_⟩
  · have e1 : execPrim cf rec .relax h = if h.harg = true then .err .relax h else .ok ⟨⟩ h := by
      show (if h.harg = true then M.fail .relax else pure ⟨⟩ : H PUnit) h = _
      split <;> rfl
    rw [e1]
    generalize hs : h.content.cs = s at he
    cases he with
    | relax => rw [if_neg (by rw [ha]; decide)]; exact ⟨_, _, rfl, hs, (Bool.or_false _).symm, (Bool.or_false _).symm, hS⟩
    | noRelax => rw [if_pos ha]; exact ⟨_, rfl⟩
    | _ => simp_all [signature]
  · cases a
    · exact ⟨_, .relax hp⟩
    · exact ⟨_, .noRelax hp⟩

/-- The space after `\\`. -/
def spacingArg : H (Option Dim) := do
  match ← H.optionalArgument with
  | some g => return some (← onStr dimension g.cs)
  | none => return none

def newlineTail : H PUnit := do
  let spacing ← spacingArg
  let lines ← lexPure horizontalLines
  H.ev (.flow (.newLine spacing lines))

theorem newline_none (ha : h.align = none) : execPrim cf rec .newline h = .err .newLine h := by
  simp only [execPrim, M.get_bind, ha]
  rfl

theorem newline_arg {al : AlignCount} (ha : h.align = some al) (hh : h.harg = true) : execPrim cf rec .newline h = .err .newLine h := by
  simp only [execPrim, M.get_bind, ha, hh]
  rfl

theorem newline_some {al : AlignCount} (ha : h.align = some al) (hh : h.harg = false) :
    execPrim cf rec .newline h = newlineTail { h with align := some { al with count := 0 } } := by
  simp only [execPrim, M.get_bind, ha, hh, Bool.false_eq_true, ↓reduceIte, M.set_bind]
  rfl

theorem spacing_none {h : HSt} (hb : NoOptional h.content.cs r) : spacingArg h = .ok none (past h r) := by
  unfold spacingArg
  rw [M.bind_ok (optionalArgument_none hb)]
  rfl

theorem spacing_some {h : HSt} {g u : Str} {d : Dim} (hb : Bracketed h.content.cs g r) (hd : Length g d u) : spacingArg h = .ok (some d) (past h r) := by
  unfold spacingArg
  rw [M.bind_ok (optionalArgument_some hb)]
  have : onStr dimension (h.content.part g 1 r).cs (past h r) = .ok d (past h r) := by
    unfold H.onStr
    rw [show (h.content.part g 1 r).cs = g from rfl, length_dimension hd]
  simp only [M.bind_ok this]
  rfl

theorem newline_tail {h : HSt} {sp : Option Dim} {t : Str} {ls : List Line} (e : spacingArg h = .ok sp (past h t)) (hl : WordSeq lineWords t ls r) :
    ∃ h', newlineTail h = .ok ⟨⟩ h' ∧ Like h h' r := by
  unfold newlineTail
  rw [M.bind_ok e, M.bind_ok (lexLines (h := past h t) hl)]
  exact ⟨_, rfl, rfl, rfl, rfl, rfl⟩

theorem exact_newline (hp : primOf name = .newline) (ha : h.harg = a) (hT : a = false → room h.align = T) (hS : Stores cf h.macros Δ) :
    Exact cf T Δ (execPrim cf rec .newline) h (.token a (.cs name) h.content.cs) := by
  have no : a = true ∨ T = none → execPrim cf rec .newline h = .err .newLine h := by
    intro hno
    cases hal : h.align with
    | none => exact newline_none hal
    | some al =>
      refine newline_arg hal ?_
      rw [ha]
      cases a with
      | true => rfl
      | false =>
        have hT := hT rfl
        rw [hal] at hT
        rcases hno with h | h
        · cases h
        · rw [h] at hT; cases hT
  have yes : ∀ {m}, a = false → T = some m → ∃ h1 : HSt, Like h h1 h.content.cs ∧ execPrim cf rec .newline h = newlineTail h1 := by
    rintro m rfl rfl
    cases hal : h.align with
    | none => have := hT rfl; rw [hal] at this; cases this
    | some al => exact ⟨{ h with align := some { al with count := 0 } }, ⟨rfl, rfl, rfl, rfl⟩, newline_some hal ha⟩
  refine ⟨fun e he => ?_, fun _ hnp => ?_⟩
  · generalize hs : h.content.cs = s at he
    cases he with
    | noNewLine h1 h2 => rw [no h2]; exact ⟨_, rfl⟩
    | newLineNoLength h1 h2 h3 h4 =>
      obtain ⟨h1, l, e⟩ := yes rfl h2
      rw [e]
      refine Errs.bind (Errs.after (optionalArgument_some (h := h1) (by rw [l.cs, hs]; exact h3)) ?_)
      exact Errs.bind (.onStr (noLength_err h4))
    | newLineLength h1 h2 h3 h4 h5 =>
      obtain ⟨h1, l, e⟩ := yes rfl h2
      rw [e]
      obtain ⟨h', e', l'⟩ := newline_tail (spacing_some (h := h1) (by rw [l.cs, hs]; exact h3) h4) h5
      exact Meets.like l (meets_like (by rw [l.macros]; exact hS) e' l')
    | newLine h1 h2 h3 h4 =>
      obtain ⟨h1, l, e⟩ := yes rfl h2
      rw [e]
      obtain ⟨h', e', l'⟩ := newline_tail (spacing_none (h := h1) (by rw [l.cs, hs]; exact h3)) h4
      exact Meets.like l (meets_like (by rw [l.macros]; exact hS) e' l')
    | _ => simp_all [signature]
  · cases a with
    | true => exact ⟨_, .noNewLine hp (.inl rfl)⟩
    | false =>
      cases T with
      | none => exact ⟨_, .noNewLine hp (.inr rfl)⟩
      | some m =>
        obtain ⟨g, r, hg⟩ := optional_total h.content.cs
        obtain ⟨ls, u, hl⟩ := lines_total r
        cases hg with
        | absent hg => exact ⟨_, .newLine hp rfl hg hl⟩
        | given hg =>
          obtain ⟨h1, l, e⟩ := yes rfl rfl
          rw [e] at hnp
          have hnp1 := np_bind hnp
          have hnp2 := np_after (optionalArgument_some (h := h1) (by rw [l.cs]; exact hg)) hnp1
          have hnp3 := np_onStr (np_bind hnp2)
          rcases length_total hnp3 with ⟨d, u', hd⟩ | hd
          · exact ⟨_, .newLineLength hp rfl hg hd hl⟩
          · exact ⟨_, .newLineNoLength hp rfl hg hd⟩

theorem run_word {w : Str} {p : Prim} (hw : primOf w = p) (hp : ∀ rec rec' : HTok → H PUnit, execPrim cf rec p = execPrim cf rec' p) :
    handleToken cf 1 (.cs w) h = execPrim cf rec p h := by
  show execPrim cf _ (primOf w) h = _
  rw [hw, hp]

theorem exact_def (hp : primOf name = .def_) (hS : Stores cf h.macros Δ) : Exact cf T Δ (execPrim cf rec .def_) h (.token a (.cs name) h.content.cs) := by
  refine ⟨fun e he => ?_, fun _ _ => ?_⟩
  · generalize hs : h.content.cs = s at he
    cases he with
    | define h1 h2 h3 h4 =>
      obtain ⟨m', hm⟩ := (C48_effect h.macros _ _ _).1.2 ⟨_, _, _, h3, h4⟩
      have e := (C48_def cf 0 h _).2 ⟨_, _, _, _, m', by rw [hs]; exact h2, hm, rfl⟩
      rw [run_word (p := .def_) (by decide +kernel) (fun _ _ => rfl)] at e
      exact ⟨_, _, e, rfl, by simp, by simp, stores_def hS h3 hm⟩
    | noDefine h1 h2 => subst hs; exact def_err h2
    | _ => simp_all [signature]
  · rcases def_total h.content.cs with ⟨nm, pt, rt, r, pre, ds, b, h1, h2, h3⟩ | ⟨k, hk⟩
    · exact ⟨_, .define hp h1 h2 h3⟩
    · exact ⟨_, .noDefine hp hk⟩

theorem exact_let (hp : primOf name = .let_) (hS : Stores cf h.macros Δ) : Exact cf T Δ (execPrim cf rec .let_) h (.token a (.cs name) h.content.cs) := by
  refine ⟨fun e he => ?_, fun _ _ => ?_⟩
  · generalize hs : h.content.cs = s at he
    cases he with
    | let_ h1 h2 =>
      have e := (C20_let cf 0 h _).2 ⟨_, _, _, by rw [hs]; exact h2, rfl⟩
      rw [run_word (p := .let_) (by decide +kernel) (fun _ _ => rfl)] at e
      exact ⟨_, _, e, rfl, by simp, by simp, stores_alias hS⟩
    | noLet h1 h2 => subst hs; exact let_err h2
    | _ => simp_all [signature]
  · rcases let_total h.content.cs with ⟨nm, x, r, h1⟩ | ⟨k, hk⟩
    · exact ⟨_, .let_ hp h1⟩
    · exact ⟨_, .noLet hp hk⟩

theorem exact_futurelet (hp : primOf name = .futurelet) (hS : Stores cf h.macros Δ) : Exact cf T Δ (execPrim cf rec .futurelet) h (.token a (.cs name) h.content.cs) := by
  refine ⟨fun e he => ?_, fun _ _ => ?_⟩
  · generalize hs : h.content.cs = s at he
    cases he with
    | future h1 h2 =>
      have e := (C20_futurelet cf 0 h _).2 ⟨_, _, _, by rw [hs]; exact h2, rfl⟩
      rw [run_word (p := .futurelet) (by decide +kernel) (fun _ _ => rfl)] at e
      exact ⟨_, _, e, rfl, by simp, by simp, stores_alias hS⟩
    | noFuture h1 h2 => subst hs; exact future_err h2
    | _ => simp_all [signature]
  · rcases future_total h.content.cs with ⟨nm, x, r, h1⟩ | ⟨k, hk⟩
    · exact ⟨_, .future hp h1⟩
    · exact ⟨_, .noFuture hp hk⟩

theorem exact_new {should : Option Bool} (hp : primOf name = .newcommand should) (hS : Stores cf h.macros Δ) :
    Exact cf T Δ (newCommand should) h (.token a (.cs name) h.content.cs) := by
  refine ⟨fun e he => ?_, fun _ _ => ?_⟩
  · generalize hs : h.content.cs = s at he
    cases he with
    | new h1 h2 =>
      rw [hp] at h1
      cases h1
      subst hs
      obtain ⟨h', e1, e2, e3, e4, e5⟩ := new_ok hS h2
      exact ⟨_, h', e1, e2, by simp [e3], by simp [e4], e5⟩
    | noNew h1 h2 =>
      rw [hp] at h1
      cases h1
      subst hs
      exact new_err hS h2
    | _ => simp_all [signature]
  · rcases new_total Δ should h.content.cs with ⟨Δ', r, hk⟩ | ⟨k, hk⟩
    · exact ⟨_, .new hp hk⟩
    · exact ⟨_, .noNew hp hk⟩

theorem exact_fail {p : Prim} {k : ErrorKind} (hp : primOf name = p) (hk : p = .unknown ∧ k = .unknownPrimitive ∨ p = .unbalanced ∧ k = .unbalancedGroup none) :
    Exact cf T Δ (M.fail k : H PUnit) h (.token a (.cs name) h.content.cs) := by
  refine ⟨fun e he => ?_, fun _ _ => ?_⟩
  · generalize hs : h.content.cs = s at he
    cases he with
    | unknown h1 => rcases hk with ⟨rfl, rfl⟩ | ⟨rfl, rfl⟩
                    · exact ⟨_, rfl⟩
                    · rw [hp] at h1; cases h1
    | unbalanced h1 => rcases hk with ⟨rfl, rfl⟩ | ⟨rfl, rfl⟩
                       · rw [hp] at h1; cases h1
                       · exact ⟨_, rfl⟩
    | _ => rcases hk with ⟨rfl, rfl⟩ | ⟨rfl, rfl⟩ <;> simp_all [signature]
  · rcases hk with ⟨rfl, rfl⟩ | ⟨rfl, rfl⟩
    · exact ⟨_, .unknown hp⟩
    · exact ⟨_, .unbalanced hp⟩

theorem exact_cs (hr : Right cf T n (handleToken cf n)) (hn : h.content.cs.length + 1 ≤ n) (ha : h.harg = a) (hT : a = false → room h.align = T)
    (hS : Stores cf h.macros Δ) : Exact cf T Δ (execPrim cf (handleToken cf n) (primOf name)) h (.token a (.cs name) h.content.cs) := by
  cases hsig : signature (primOf name) with
  | some x => exact exact_command hr hsig hn hS
  | none =>
    cases hp : primOf name <;> rw [hp] at hsig <;> first | (cases hsig; done) | clear hsig
    case fontGroup f => exact exact_font hr hp hn ha hT hS
    case relax => exact exact_relax hp ha hS
    case newline => exact exact_newline hp ha hT hS
    case unbalanced => exact exact_fail hp (.inr ⟨rfl, rfl⟩)
    case unknown => exact exact_fail hp (.inl ⟨rfl, rfl⟩)
    case def_ => exact exact_def hp hS
    case let_ => exact exact_let hp hS
    case futurelet => exact exact_futurelet hp hS
    case newcommand => exact exact_new hp hS

/-! ### Characters -/

theorem char_plain {c : Char} {ctx : Sl} (hc : special c = false) : handleChar c ctx h = H.ev (plainCharEvent c) h := by
  unfold special at hc
  simp only [Bool.or_eq_false_iff, decide_eq_false_iff_not, List.mem_cons, List.not_mem_nil, or_false, not_or] at hc
  obtain ⟨⟨⟨h1, h2, h3, h4, h5, h6, h7, h8, h9, h10⟩, h11⟩, -⟩ := hc
  unfold handleChar
  rw [M.get_bind]
  simp only [h1, h2, h3, h4, h5, h6, h7, h8, h9, h10, h11, decide_false, Bool.or_self, Bool.false_eq_true, ↓reduceIte]

theorem char_number {c : Char} {ctx : Sl} {v lit : Str} (hc : isDigit c = true) (ha : h.harg = false) (hx : ctx.cs = c :: v) (hl : NumberLit (c :: v) lit r) :
    ∃ h', handleChar c ctx h = .ok ⟨⟩ h' ∧ Like h h' r := by
  obtain ⟨src, stop, cs⟩ := ctx
  cases hx
  obtain ⟨lit', r', h1, h2⟩ := C15_number ⟨true, fun _ => 0⟩ 0 c v src stop h hc ha
  obtain ⟨rfl, rfl⟩ := C15_unique _ _ _ _ _ hl h1
  exact ⟨_, h2, rfl, rfl, rfl, rfl⟩

theorem char_align {ctx : Sl} : handleChar '&' ctx h = match h.align with
    | some al => if (al.count < al.max && !h.harg) = true then .ok ⟨⟩ { h with align := some { al with count := al.count + 1 }, buf := h.buf ++ [.ev (.flow .alignment)] }
      else .err .alignment h
    | none => .err .alignment h := by
  show (match h.align with
    | some a => if (a.count < a.max && !h.harg) = true then _ else M.fail .alignment
    | none => M.fail .alignment : H PUnit) h = _
  cases h.align with
  | none => rfl
  | some al => dsimp only; split <;> rfl

theorem char_script {c : Char} {ctx : Sl} (hc : c = '^' ∨ c = '_') : handleChar c ctx h =
    if h.harg = true then .err .scriptAsArgument h else .ok ⟨⟩ { h with content := ctx, buf := h.buf ++ [.ev (.begin_ .normal)] ++ [.ev .end_] } := by
  rcases hc with rfl | rfl
  · show (if h.harg = true then M.fail .scriptAsArgument else _ : H PUnit) h = _
    split <;> rfl
  · show (if h.harg = true then M.fail .scriptAsArgument else _ : H PUnit) h = _
    split <;> rfl

theorem chr_total (c : Char) (h1 : c ≠ '\\') (h2 : c ≠ '%') (h3 : isWs c = false) (a : Bool) (s : Str) : ∃ e, Gives T Δ (.token a (.chr c) s) e := by
  by_cases hp : special c = false
  · exact ⟨_, .plain hp⟩
  · by_cases hd : isDigit c = true
    · cases a
      · exact ⟨_, .number hd (numberLit_of hd)⟩
      · exact ⟨_, .digit hd⟩
    · have : c ∈ ['_', '^', '$', '#', '&', '{', '}', '~'] := by
        unfold special at hp
        simp only [Bool.not_eq_true] at hd
        by_contra hn
        simp only [List.mem_cons, List.not_mem_nil, or_false, not_or] at hn
        obtain ⟨h4, h5, h6, h7, h8, h9, h10, h11⟩ := hn
        exact hp (by simp [*])
      simp only [List.mem_cons, List.not_mem_nil, or_false] at this
      rcases this with rfl | rfl | rfl | rfl | rfl | rfl | rfl | rfl
      · cases a
        · exact ⟨_, .noBase (.inr rfl)⟩
        · exact ⟨_, .noOperand (.inr rfl)⟩
      · cases a
        · exact ⟨_, .noBase (.inl rfl)⟩
        · exact ⟨_, .noOperand (.inl rfl)⟩
      · exact ⟨_, .mathShift⟩
      · exact ⟨_, .hashSign⟩
      · cases a
        · cases T with
          | none => exact ⟨_, .noAlignment (.inr (.inl rfl))⟩
          | some m => cases m with
            | zero => exact ⟨_, .noAlignment (.inr (.inr rfl))⟩
            | succ m => exact ⟨_, .alignment rfl⟩
        · exact ⟨_, .noAlignment (.inl rfl)⟩
      · by_cases hs : ∃ g r, Split ['{'] ['}'] 0 s g r
        · obtain ⟨g, r, hs⟩ := hs
          exact ⟨_, .braces hs⟩
        · exact ⟨_, .unclosed hs⟩
      · exact ⟨_, .closing⟩
      · exact ⟨_, .tie⟩

theorem exact_chr {c : Char} {ctx : Sl} (hc : Says (.chr c ctx) (.chr c) h.content.cs a) (ha : h.harg = a) (hT : a = false → room h.align = T) (hS : Stores cf h.macros Δ) :
    Exact cf T Δ (handleChar c ctx) h (.token a (.chr c) h.content.cs) := by
  obtain ⟨-, h1, h2, h3, h4⟩ := hc
  refine ⟨fun e he => ?_, fun _ _ => chr_total c h1 h2 h3 a _⟩
  generalize hs : h.content.cs = s at he h4
  cases he with
  | plain hp =>
    rw [char_plain hp]
    exact ⟨_, _, rfl, hs, (Bool.or_false _).symm, (Bool.or_false _).symm, hS⟩
  | tie => exact ⟨_, _, rfl, hs, (Bool.or_false _).symm, (Bool.or_false _).symm, hS⟩
  | number hd hl =>
    rcases h4 with h4 | ⟨h4, -⟩
    · obtain ⟨h', e, l⟩ := char_number hd ha h4 hl
      exact meets_like hS e l
    · cases h4
  | digit hd =>
    rcases h4 with h4 | ⟨-, h4⟩
    · obtain ⟨h', e, l⟩ := char_digit hd ha h4
      exact meets_like hS e l
    · rw [hd] at h4; cases h4
  | mathShift => exact ⟨_, rfl⟩
  | hashSign => exact ⟨_, rfl⟩
  | closing => exact ⟨_, rfl⟩
  | braces hb =>
    show Meets cf h ((H.groupContent .normal >>= fun g => H.push [.ev (.begin_ .normal), .sub g none, .ev .end_]) h) _
    rw [M.bind_ok (groupContent_of (h := h) (k := .normal) (by rw [hs]; exact hb))]
    exact ⟨_, _, rfl, rfl, (Bool.or_false _).symm, (Bool.or_false _).symm, hS⟩
  | unclosed hb =>
    show Errs (H.groupContent .normal >>= fun g => H.push [.ev (.begin_ .normal), .sub g none, .ev .end_]) h _
    exact (errs_group (by rw [hs]; exact hb)).bind
  | noBase hb =>
    rw [char_script hb, if_neg (by rw [ha]; decide)]
    rcases h4 with h4 | ⟨h4, -⟩
    · exact ⟨_, _, rfl, h4, (Bool.or_false _).symm, (Bool.or_false _).symm, hS⟩
    · cases h4
  | noOperand hb =>
    rw [char_script hb, if_pos ha]
    exact ⟨_, rfl⟩
  | alignment hb =>
    rw [char_align]
    have hT := hT rfl
    cases hal : h.align with
    | none => rw [hal, hb] at hT; cases hT
    | some al =>
      rw [hal, hb] at hT
      have : al.max - al.count = _ := Option.some.inj hT
      dsimp only
      rw [if_pos (by rw [ha]; simp; omega)]
      exact ⟨_, _, rfl, hs, (Bool.or_false _).symm, (Bool.or_false _).symm, hS⟩
  | noAlignment hb =>
    rw [char_align]
    cases hal : h.align with
    | none => exact ⟨_, rfl⟩
    | some al =>
      dsimp only
      rw [if_neg ?_]
      · exact ⟨_, rfl⟩
      · intro hc
        simp only [Bool.and_eq_true, decide_eq_true_eq, Bool.not_eq_true'] at hc
        have hf : a = false := by rw [← ha]; exact hc.2
        have hT := hT hf
        rw [hal] at hT
        rcases hb with hb | hb | hb
        · rw [hf] at hb; cases hb
        · rw [hb] at hT; cases hT
        · rw [hb] at hT
          have : al.max - al.count = 0 := Option.some.inj hT
          omega

theorem right_all : ∀ n, Right cf T n (handleToken cf n)
  | 0 => fun _ _ _ _ _ _ hn => by omega
  | n + 1 => by
    intro ht x t a h Δ hn hs hc ha hT hS
    subst hc
    cases ht with
    | cs m => cases x with
      | chr => exact hs.elim
      | cs name =>
        obtain rfl : m = name := hs
        exact exact_cs (right_all n) (by omega) ha hT hS
    | chr d ctx => cases x with
      | cs => exact hs.elim
      | chr c =>
        obtain ⟨rfl, -⟩ := id hs
        exact exact_chr hs ha hT hS

end PL.Formula
