import Verif.Spec.Formula
import Verif.Lemmas.Formula.Outcome
import Verif.Props.Groups
import Verif.Props.Environments
import Verif.Props.Scripts
import Verif.Props.Characters
import Verif.Props.Values
set_option autoImplicit false
/-! # Running handlers: what they stage and where they leave the text -/
namespace PL.Formula
open PL PL.Lex PL.H Spec PL.Props

variable {cf : Cfg} {D : Macros.Ctx}

/-- Instructions that unfold into some events when they are on top of the stack. -/
def Unfolds (cf : Cfg) (D : Macros.Ctx) (is : List Instr) (es : List Event) : Prop :=
  ∀ B sp, Outcome cf D ⟨is ++ B, [], D, sp⟩ es fun s' => ∃ sp', s' = ⟨B, [], D, sp'⟩

theorem Unfolds.nil : Unfolds cf D [] [] := fun _ sp => .exec .init ⟨sp, rfl⟩

theorem Unfolds.ev (e : Event) : Unfolds cf D [.ev e] [e] := fun _ sp => .exec (Exec.init.item rfl) ⟨sp, rfl⟩

theorem Unfolds.append {is js : List Instr} {es fs : List Event} (h : Unfolds cf D is es) (h' : Unfolds cf D js fs) : Unfolds cf D (is ++ js) (es ++ fs) := by
  intro B sp
  rw [List.append_assoc]
  refine (h _ _).bind ?_
  rintro _ ⟨sp', rfl⟩
  exact h' _ _

theorem Unfolds.cons {js : List Instr} {fs : List Event} (e : Event) (h' : Unfolds cf D js fs) : Unfolds cf D (.ev e :: js) (e :: fs) :=
  (Unfolds.ev e).append h'

theorem walk_stuck {s s' : State} {its : List Item} (h : Walk cf s its s') (hs : s.stack = []) : its = [] ∧ s' = s := by
  induction h with
  | init => exact ⟨rfl, rfl⟩
  | item _ h2 ih =>
    obtain ⟨-, rfl⟩ := ih
    unfold step at h2
    rw [hs] at h2
    cases h2
  | again _ h2 ih =>
    obtain ⟨-, rfl⟩ := ih
    unfold step at h2
    rw [hs] at h2
    cases h2
  | expand _ _ ih =>
    obtain ⟨-, rfl⟩ := ih
    cases hs

theorem Unfolds.ne {is : List Instr} {es : List Event} (h : Unfolds cf D is es) (he : es ≠ []) : is ≠ [] := by
  rintro rfl
  rcases h [] (.init []) with ⟨s', h, -⟩ | ⟨-, es1, s', -, h, hs⟩
  · have := (walk_stuck h rfl).1
    simp at this
    exact he this
  · obtain ⟨-, rfl⟩ := walk_stuck h rfl
    cases hs

/-- What a handler leaves: the text `r`, and instructions staged for some events. -/
structure After (cf : Cfg) (D : Macros.Ctx) (h h' : HSt) (es : List Event) (r : Str) (pl : Place) : Prop where
  cs : h'.content.cs = r
  mods : h'.allowMods = (h.allowMods || pl.mods)
  pos : h'.pos = pl.pos.getD h.pos
  skip : h'.skip = (h.skip || pl.skip)
  align : h'.align = h.align
  macros : h'.macros = h.macros
  buf : ∃ is, h'.buf = h.buf ++ is ∧ Unfolds cf D is es

/-- A handler succeeds. -/
def Runs (cf : Cfg) (D : Macros.Ctx) (m : H PUnit) (h : HSt) (es : List Event) (r : Str) (pl : Place) : Prop := ∃ h', m h = .ok ⟨⟩ h' ∧ After cf D h h' es r pl

theorem After.trans {h h' h'' : HSt} {es fs : List Event} {r r' : Str} {p q : Place} (a : After cf D h h' es r p) (b : After cf D h' h'' fs r' q) :
    After cf D h h'' (es ++ fs) r' (p.over q) := by
  obtain ⟨is, hi, ui⟩ := a.buf
  obtain ⟨js, hj, uj⟩ := b.buf
  refine ⟨b.cs, ?_, ?_, ?_, b.align.trans a.align, b.macros.trans a.macros, is ++ js, ?_, ui.append uj⟩
  · rw [b.mods, a.mods, Bool.or_assoc]; rfl
  · rw [b.pos, a.pos]
    unfold Place.over
    cases q.pos <;> rfl
  · rw [b.skip, a.skip, Bool.or_assoc]; rfl
  · rw [hj, hi, List.append_assoc]

theorem over_none (p : Place) : Place.over {} p = p := by
  unfold Place.over
  cases p with
  | mk pos mods skip => cases pos <;> rfl

theorem none_over (p : Place) : Place.over p {} = p := by
  unfold Place.over
  simp

/-- Two handlers in sequence. -/
theorem Runs.seq {m m' : H PUnit} {h : HSt} {es fs : List Event} {r r' : Str} {p q : Place} (a : Runs cf D m h es r p)
    (b : ∀ h', After cf D h h' es r p → Runs cf D m' h' fs r' q) : Runs cf D (do m; m') h (es ++ fs) r' (p.over q) := by
  obtain ⟨h', e, a⟩ := a
  obtain ⟨h'', e', b⟩ := b h' a
  refine ⟨h'', ?_, a.trans b⟩
  rw [M.bind_ok e]
  exact e'

theorem Runs.seq' {m m' : H PUnit} {h : HSt} {es fs gs : List Event} {r r' : Str} {p q pq : Place} (a : Runs cf D m h es r p)
    (b : ∀ h', After cf D h h' es r p → Runs cf D m' h' fs r' q) (hg : gs = es ++ fs) (hp : pq = p.over q) : Runs cf D (do m; m') h gs r' pq := by
  subst hg hp
  exact a.seq b

/-- Something that only moves on in the text, before a handler. -/
theorem Runs.after {α : Type} {m : H α} {f : α → H PUnit} {h : HSt} {a : α} {t : Str} {es : List Event} {r : Str} {p : Place}
    (e : m h = .ok a (past h t)) (b : Runs cf D (f a) (past h t) es r p) : Runs cf D (m >>= f) h es r p := by
  obtain ⟨h', e', b⟩ := b
  refine ⟨h', ?_, ⟨b.cs, b.mods, b.pos, b.skip, b.align, b.macros, b.buf⟩⟩
  rw [M.bind_ok e]
  exact e'

theorem Runs.push {h : HSt} {is : List Instr} {es : List Event} {r : Str} (hu : Unfolds cf D is es) (hr : h.content.cs = r) :
    Runs cf D (H.push is) h es r {} :=
  ⟨_, rfl, ⟨hr, by simp, rfl, by simp, rfl, rfl, is, rfl, hu⟩⟩

theorem Runs.ev {h : HSt} {e : Event} {r : Str} (hr : h.content.cs = r) : Runs cf D (H.ev e) h [e] r {} := Runs.push (.ev e) hr

theorem Runs.pure {h : HSt} {r : Str} (hr : h.content.cs = r) : Runs cf D (Pure.pure ⟨⟩) h [] r {} :=
  ⟨h, rfl, ⟨hr, by simp, rfl, by simp, rfl, rfl, [], by simp, .nil⟩⟩

theorem Runs.allowMods {h : HSt} {r : Str} (hr : h.content.cs = r) : Runs cf D H.allowMods h [] r ⟨none, true, false⟩ :=
  ⟨_, rfl, ⟨hr, by simp, rfl, by simp, rfl, rfl, [], by simp, .nil⟩⟩

theorem Runs.setPos {h : HSt} {r : Str} {p : ScriptPos} (hr : h.content.cs = r) : Runs cf D (H.setPos p) h [] r ⟨some p, false, false⟩ :=
  ⟨_, rfl, ⟨hr, by simp, rfl, by simp, rfl, rfl, [], by simp, .nil⟩⟩

theorem Runs.congr {m : H PUnit} {h : HSt} {es es' : List Event} {r r' : Str} {p p' : Place} (a : Runs cf D m h es r p) (h1 : es' = es) (h2 : r' = r)
    (h3 : p' = p) : Runs cf D m h es' r' p' := by
  subst h1 h2 h3
  exact a

/-! ### Texts -/

theorem noScript_iff {s : Str} : Spec.NoScript s ↔ NoScriptAfter s := by
  obtain ⟨w, hw, e⟩ := trimStart_spec s
  unfold Spec.NoScript NoScriptAfter
  constructor
  · intro h
    cases ht : trimStart s with
    | nil => simp
    | cons c u =>
      have := h w c u hw (by rw [e, ht])
      simpa using this
  · intro h w' c u hw' e'
    rw [e', trimStart_ws_append hw'] at h
    by_cases hc : isWs c = true
    · constructor <;> (rintro rfl; revert hc; decide)
    · rw [trimStart_eq_self (by intro d r e; cases e; simpa using hc)] at h
      simpa using h

theorem noScriptHere_iff {s : Str} : NoScriptHere s ↔ NoScriptNext s := by
  unfold NoScriptHere NoScriptNext
  cases s with
  | nil => simp
  | cons c u =>
    simp only [List.head?_cons, ne_eq, Option.some.injEq]
    constructor
    · intro h; exact h c u rfl
    · rintro h d v e; cases e; exact h

/-- The token read by the parser is the word `x`, and `s` follows it. -/
def _root_.PL.HTok.is (ht : HTok) (x : Word) (s : Str) : Prop :=
  match ht, x with
  | .cs n, .cs m => n = m
  | .chr c ctx, .chr d => c = d ∧ ctx.cs = d :: s
  | _, _ => False

theorem ofTok_is {sl : Sl} {s r : Str} {t : Tok} {x : Word} (h : token s = .ok t r) (hx : Tok.says t x) : (HTok.ofTok sl t).is x r := by
  cases t with
  | cs n => cases x with
    | cs m => exact hx
    | chr => cases hx
  | chr c ctx =>
    have := (token_facts h).1
    cases x with
    | cs => cases hx
    | chr d => cases hx; subst this; exact ⟨rfl, rfl⟩

theorem nextTok_length {s r : Str} {x : Word} (h : NextTok s x r) : r.length < s.length := by
  obtain ⟨t, ht, -⟩ := nextTok_iff.1 h
  have := token_facts ht
  cases t with
  | cs n => obtain ⟨k, w, -, -, -, rfl⟩ := this; simp; omega
  | chr c ctx => obtain ⟨-, k, -, rfl, -⟩ := this; simp; omega

theorem split_length {op cl s g r : Str} {d : Nat} (h : Split op cl d s g r) : r.length ≤ s.length := by
  have := congrArg List.length h.eq
  simp at this
  omega

theorem braced_length {s g r : Str} (h : Braced s g r) : r.length < s.length := by
  obtain ⟨w, t, -, rfl, h⟩ := h
  have := split_length h
  simp; omega

theorem bracketed_length {s g r : Str} (h : Bracketed s g r) : r.length < s.length := by
  obtain ⟨w, t, -, rfl, h⟩ := h
  have := split_length h
  simp; omega

theorem tokArg_argument {s t : Str} {x : Word} (h : TokArg s x t) : ∃ tk, Lex.argument s = .ok (.token tk) t ∧ token s = .ok tk t ∧ Tok.says tk x := by
  obtain ⟨h1, h2⟩ := h
  obtain ⟨tk, ht, hx⟩ := nextTok_iff.1 h1
  refine ⟨tk, ?_, ht, hx⟩
  unfold Lex.argument
  obtain ⟨w, hw, e⟩ := trimStart_spec s
  split
  · rename_i u hu
    rw [stripPrefix_some] at hu
    exact absurd (by rw [e, hu]; rfl) (h2 w u hw)
  · rw [M.bind_ok ht]; rfl

/-! ### Reading arguments -/

theorem argument_group {h : HSt} {g r : Str} (hb : Braced h.content.cs g r) :
    H.argument h = .ok (.group (h.content.part g 1 r)) (past h r) := by
  unfold H.argument
  rw [argument_group_iff.2 hb]
  rfl

theorem argument_token {h : HSt} {x : Word} {t : Str} (hb : TokArg h.content.cs x t) :
    ∃ ht : HTok, H.argument h = .ok (.token ht) (past h t) ∧ ht.is x t := by
  obtain ⟨tk, h1, h2, h3⟩ := tokArg_argument hb
  refine ⟨.ofTok h.content tk, ?_, ofTok_is h2 h3⟩
  unfold H.argument
  rw [h1]
  rfl

theorem groupArg_of {h : HSt} {e : ErrorKind} {g r : Str} (hb : Braced h.content.cs g r) :
    groupArg e h = .ok (h.content.part g 1 r) (past h r) := groupArg_iff.2 ⟨g, r, hb, rfl, rfl⟩

theorem braceArgument_of {h : HSt} {g r : Str} (hb : Braced h.content.cs g r) : H.braceArgument h = .ok (h.content.part g 1 r) (past h r) := by
  unfold H.braceArgument
  rw [braceArgument_iff.2 hb]
  rfl

theorem optionalArgument_some {h : HSt} {g r : Str} (hb : Bracketed h.content.cs g r) :
    H.optionalArgument h = .ok (some (h.content.part g 1 r)) (past h r) := by
  unfold H.optionalArgument
  rw [bracketed_iff.2 hb]
  rfl

theorem past_self (h : HSt) : past h h.content.cs = h := rfl

theorem optionalArgument_none {h : HSt} {r : Str} (hb : NoOptional h.content.cs r) : H.optionalArgument h = .ok none (past h r) := by
  unfold H.optionalArgument
  rw [noOptional_iff.2 hb]
  rfl

theorem groupContent_of {h : HSt} {k : GroupingKind} {g r : Str} (hb : Split k.openingStr k.closingStr 0 h.content.cs g r) :
    H.groupContent k h = .ok (h.content.part g (blen k.closingStr) r) (past h r) := by
  unfold H.groupContent
  rw [groupContent_ok.2 hb]
  rfl

theorem lex_of {α : Type} {m : L α} {h : HSt} {a : α} {r : Str} (e : m h.content.cs = .ok a r) : H.lex m h = .ok a (past h r) := by
  unfold H.lex
  rw [e]
  rfl

theorem onStr_of {α : Type} {m : L α} {h : HSt} {g : Str} {a : α} {r : Str} (e : m g = .ok a r) : H.onStr m g h = .ok a (past h h.content.cs) := by
  unfold H.onStr
  rw [e]
  rfl

theorem colorOf_of {h : HSt} {g : Str} {c : Nat × Nat × Nat} (hp : '+' ∉ g) (hc : Colour g c) : colorOf g h = .ok c (past h h.content.cs) := by
  unfold colorOf
  rw [(C21_colour_partial g c hp).2 hc]
  rfl

/-! ### Lengths -/

theorem length_dimension {s r : Str} {d : Dim} (h : Length s d r) : dimension s = .ok d r := by
  cases h with
  | mk h1 h2 h3 => exact C22_reads_partial _ _ _ _ _ _ _ h1 h2 h3

theorem optSpace_length {t r : Str} (h : OptSpace t r) : r.length ≤ t.length := by
  cases h <;> simp

theorem length_le {s r : Str} {d : Dim} (h : Length s d r) : r.length ≤ s.length := by
  cases h with
  | mk h1 h2 h3 =>
    have := optSpace_length h2
    cases h1 <;> simp <;> omega

theorem stretch_tail {kw s r : Str} {d : Option Dim} (hk : ∀ c u, kw = c :: u → isWs c = false) (hk0 : kw ≠ []) (h : Stretch kw s d r) :
    glueTail kw s = .ok d r := by
  unfold glueTail
  rw [M.get_bind]
  cases h with
  | none h =>
    obtain ⟨w, hw, e⟩ := trimStart_spec s
    cases hu : stripPrefix kw (trimStart s) with
    | some u =>
      rw [stripPrefix_some] at hu
      exact absurd (by rw [List.append_assoc, ← hu]; exact e) (h w u hw)
    | none => rfl
  | @some w s d r hw hl =>
    have : trimStart (w ++ kw ++ s) = kw ++ s := by
      rw [List.append_assoc, trimStart_ws_append hw, trimStart_eq_self]
      intro c u e
      cases kw with
      | nil => exact absurd rfl hk0
      | cons d v => cases e; exact hk _ _ rfl
    rw [this, stripPrefix_some.2 rfl]
    dsimp only
    rw [M.set_bind, M.bind_ok (length_dimension hl)]
    rfl

theorem stretch_le {kw s r : Str} {d : Option Dim} (h : Stretch kw s d r) : r.length ≤ s.length := by
  cases h with
  | none => exact Nat.le_refl _
  | some _ h => have := length_le h; simp; omega

theorem glue_of {s r : Str} {x : Dim × Option Dim × Option Dim} (h : Glue s x r) : glue s = .ok x r := by
  cases h with
  | mk h1 h2 h3 =>
    unfold glue
    rw [M.bind_ok (length_dimension h1), M.bind_ok (stretch_tail (by intro c u e; cases e; decide) (by decide) h2),
      M.bind_ok (stretch_tail (by intro c u e; cases e; decide) (by decide) h3)]
    rfl

theorem glue_le {s r : Str} {x : Dim × Option Dim × Option Dim} (h : Glue s x r) : r.length ≤ s.length := by
  cases h with
  | mk h1 h2 h3 =>
    have := length_le h1
    have := stretch_le h2
    have := stretch_le h3
    omega

theorem maybeBraced_of {α : Type} {What : Str → α → Str → Prop} {m : L α} (hm : ∀ s a r, What s a r → m s = .ok a r) {s r : Str} {a : α}
    (h : MaybeBraced What s a r) : orBraced m s = .ok a r := by
  unfold orBraced
  rw [M.get_bind]
  obtain ⟨w, hw, e⟩ := trimStart_spec s
  cases h with
  | bare h1 h2 =>
    rw [if_neg]
    · exact hm _ _ _ h2
    · intro hs
      cases ht : trimStart s with
      | nil => rw [ht] at hs; cases hs
      | cons c u =>
        rw [ht] at hs
        have : '{' = c := by simpa [startsWith] using hs
        subst this
        exact h1 w u hw (by rw [e, ht])
  | @braced g _ u _ h1 h2 h3 =>
    obtain ⟨w', t, hw', rfl, hs⟩ := h1
    rw [trimStart_ws_append hw', trimStart_eq_self (by intro c r e; cases e; decide), if_pos (show startsWith ['{'] ('{' :: t) = true by simp [startsWith]),
      M.bind_ok (braceArgument_iff.2 ⟨w', t, hw', rfl, hs⟩)]
    have : onInner m g r = .ok (a, u) r := by
      unfold onInner
      rw [hm _ _ _ h2]
    rw [M.bind_ok this]
    dsimp only
    rw [trimStart_nil_iff.2 h3]
    rfl

theorem maybeBraced_le {α : Type} {What : Str → α → Str → Prop} (hm : ∀ s a r, What s a r → r.length ≤ s.length) {s r : Str} {a : α}
    (h : MaybeBraced What s a r) : r.length ≤ s.length := by
  cases h with
  | bare _ h => exact hm _ _ _ h
  | braced h _ _ => exact Nat.le_of_lt (braced_length h)

/-! ### Delimiters -/

theorem delim_of {s r : Str} {d : Char} {ty : DelimType} (h : Delim s d ty r) : delimiter s = .ok (d, ty) r := by
  unfold delimiter
  cases h with
  | chr h1 h2 =>
    obtain ⟨t, ht, hx⟩ := nextTok_iff.1 h1
    rw [M.bind_ok ht]
    cases t with
    | chr c ctx => cases hx; simp only [tokenToDelim, h2]; rfl
    | cs => cases hx
  | cs h1 h2 =>
    obtain ⟨t, ht, hx⟩ := nextTok_iff.1 h1
    rw [M.bind_ok ht]
    cases t with
    | cs c => cases hx; simp only [tokenToDelim, h2]; rfl
    | chr => cases hx

theorem delim_length {s r : Str} {d : Char} {ty : DelimType} (h : Delim s d ty r) : r.length < s.length := by
  cases h with
  | chr h _ => exact nextTok_length h
  | cs h _ => exact nextTok_length h

theorem delimText_length {s r : Str} {d : Option Char} (h : DelimText s d r) : r.length < s.length := by
  cases h with
  | dot => simp
  | chr _ h _ => exact nextTok_length h
  | cs _ h _ => exact nextTok_length h

theorem leftDelim_of {h : HSt} {r : Str} {d : Option Char} (hd : DelimText h.content.cs d r) : leftDelim h = .ok d (past h r) := by
  unfold leftDelim
  rw [M.get_bind]
  generalize hs : h.content.cs = s at hd
  cases hd with
  | dot => rfl
  | chr h1 h2 h3 =>
    split
    · simp at h1
    · rw [M.bind_ok (lex_of (by rw [hs]; exact delim_of (.chr h2 h3)))]; rfl
  | cs h1 h2 h3 =>
    split
    · simp at h1
    · rw [M.bind_ok (lex_of (by rw [hs]; exact delim_of (.cs h2 h3)))]; rfl

/-! ### Trees -/

theorem node_events_ne (n : Node) : n.events ≠ [] := by
  unfold Node.events
  split <;> simp

theorem nodes_append_events (ns ms : Nodes) : (ns.append ms).events = ns.events ++ ms.events := by
  induction ns using Nodes.rec (motive_1 := fun _ => True) (motive_3 := fun _ => True) (motive_4 := fun _ => True) with
  | nil => simp [Nodes.append, Nodes.events]
  | cons n ns _ ih => simp [Nodes.append, Nodes.events, ih]
  | _ => trivial

theorem leading_body (ns : Nodes) : ns.events = ns.leading.map .stateChange ++ ns.body.events := by
  induction ns using Nodes.rec (motive_1 := fun _ => True) (motive_3 := fun _ => True) (motive_4 := fun _ => True) with
  | nil => simp [Nodes.leading, Nodes.body, Nodes.events]
  | cons n ns _ ih =>
    cases n with
    | change sc => simp [Nodes.leading, Nodes.body, Nodes.events, Node.events, ih]
    | _ => simp [Nodes.leading, Nodes.body, Nodes.events]
  | _ => trivial

/-- The event that starts a group. -/
def opening : Option (Option Char × Option Char) → Event
  | none => .begin_ .normal
  | some (l, r) => .begin_ (.leftRight l r)

theorem group_events (d : Option (Option Char × Option Char)) (cs : List StateChange) (b : Nodes) :
    (Node.group d cs b).events = opening d :: (cs.map .stateChange ++ (b.events ++ [.end_])) := by
  rcases d with _ | ⟨l, r⟩ <;> simp [Node.events, opening]

theorem block_events (d : Option (Option Char × Option Char)) (cs : List StateChange) (b : Nodes) :
    (block d cs b).events = opening d :: (cs.map .stateChange ++ (b.events ++ [.end_])) := by
  rw [block, group_events, leading_body b]
  simp

theorem one_ne (n : Node) : (Nodes.one n).events ≠ [] := by
  intro h
  apply node_events_ne n
  simpa [Nodes.one, Nodes.events] using h

@[simp] theorem one_events (n : Node) : (Nodes.one n).events = n.events := by simp [Nodes.one, Nodes.events]
@[simp] theorem two_events (n m : Node) : (Nodes.two n m).events = n.events ++ m.events := by simp [Nodes.two, Nodes.events]
@[simp] theorem three_events (n m k : Node) : (Nodes.three n m k).events = n.events ++ m.events ++ k.events := by simp [Nodes.three, Nodes.events]

end PL.Formula
