import Verif.Lemmas.LexSuffix
import Verif.Lemmas.Frames
import Verif.Lemmas.Sat
import Verif.Lemmas.Expand
import Verif.Spec.Clean
set_option autoImplicit false
/-!
# Effects of handlers

`Ext st o s s' d`: going from `s` to `s'` a handler appended `d` to the buffer, and everything it kept is a part
of the slice `o`.
-/
namespace PL
open Lex Spec Macros

/-! ### Parts of slices -/

/-- `a` is a part of the slice `b`. -/
def Sub (a b : Sl) : Prop :=
  a.src = b.src ∧ ∃ pre post, b.cs = pre ++ a.cs ++ post ∧ a.stop + blen post = b.stop

theorem Sub.refl (a : Sl) : Sub a a := ⟨rfl, [], [], by simp, by simp [blen]⟩

theorem Sub.trans {a b c : Sl} (h1 : Sub a b) (h2 : Sub b c) : Sub a c := by
  obtain ⟨e1, p1, q1, h1, g1⟩ := h1
  obtain ⟨e2, p2, q2, h2, g2⟩ := h2
  refine ⟨e1.trans e2, p2 ++ p1, q1 ++ q2, by rw [h2, h1]; simp, ?_⟩
  rw [blen_append]; omega

theorem Sub.infix {a b : Sl} (h : Sub a b) : a.cs <:+: b.cs := by
  obtain ⟨_, p, q, h, _⟩ := h
  exact ⟨p, q, h.symm⟩

theorem Sub.suffix {s o : Sl} (h : Sub s o) {r : Str} (hr : r <:+ s.cs) : Sub { s with cs := r } o := by
  refine Sub.trans ?_ h
  obtain ⟨t, e⟩ := hr
  exact ⟨rfl, t, [], by simp [e], by simp [blen]⟩

/-- The bytes of the slice are inside its allocation. -/
def Sl.wf (s : Sl) : Prop := blen s.cs ≤ s.stop

theorem Sub.wf {a b : Sl} (h : Sub a b) (hb : b.wf) : a.wf := by
  obtain ⟨_, p, q, e, h⟩ := h
  unfold Sl.wf at *
  rw [e, blen_append, blen_append] at hb
  omega

theorem Sub.part {w o : Sl} (hw : o.wf) (h : Sub w o) {pre g close rest : Str} {n : Nat}
    (e : w.cs = pre ++ g ++ close ++ rest) (hn : n = blen close) : Sub (w.part g n rest) o := by
  have hwf := h.wf hw
  refine Sub.trans ?_ h
  refine ⟨rfl, pre, close ++ rest, by simp [e, Sl.part], ?_⟩
  unfold Sl.wf at hwf
  rw [e] at hwf
  simp only [blen_append] at hwf
  simp only [Sl.part, blen_append]
  omega

/-! ### Definitions made from a text -/

/-- The definition was read from the text `o`. -/
inductive DefFrom (o : Str) : Definition → Prop
  | mac {pt rt pre ds b repl} : DefText pt pre ds b → parseReplacement rt ds.length = .ok repl → pt <:+: o → rt <:+: o →
      DefFrom o (.macro_ ⟨opt pre, ds.map opt, b, repl⟩)
  | cmd {rt n d repl} : n ≤ 9 → parseReplacement rt n = .ok repl → rt <:+: o → (∀ t, d = some t → t <:+: o) →
      DefFrom o (.command ⟨n, d, repl⟩)
  | chr {c} : c ∈ o → c ≠ '\\' → c ≠ '%' → isWs c = false → DefFrom o (.aliasChr c)
  | cs {name} : '\\' :: name <:+: o → name ≠ [] → DefFrom o (.aliasCs name)

theorem DefFrom.mono {o o' : Str} (h : o <:+: o') {d : Definition} (hd : DefFrom o d) : DefFrom o' d := by
  cases hd with
  | mac h1 h2 h3 h4 => exact .mac h1 h2 (h3.trans h) (h4.trans h)
  | cmd h1 h2 h3 h4 => exact .cmd h1 h2 (h3.trans h) fun t ht => (h4 t ht).trans h
  | chr h1 h2 h3 h4 => exact .chr (h.subset h1) h2 h3 h4
  | cs h1 h2 => exact .cs (h1.trans h) h2

/-! ### Effects -/

/-- Length of the remaining text. -/
def HSt.len (s : HSt) : Nat := s.content.cs.length

/-- Assumptions on the state of a handler. -/
structure Pre (st : Bool) (o : Sl) (s : HSt) : Prop where
  wf : o.wf
  sub : Sub s.content o
  clean : st = true → Clean o.cs

structure Ext (st : Bool) (o : Sl) (s s' : HSt) (d : List Instr) : Prop where
  buf : s'.buf = s.buf ++ d
  sub : Sub s'.content o
  subs : ∀ x al, Instr.sub x al ∈ d → Sub x o
  mac : ∀ x ∈ s'.macros, x ∈ s.macros ∨ Defines o.cs ∧ DefFrom o.cs x.2
  smac : st = true → s'.macros = s.macros
  harg : s.harg = true → s'.harg = true
  skip : s.skip = true → s'.skip = true

theorem Pre.next {st : Bool} {o : Sl} {s s' : HSt} {d : List Instr} (h : Pre st o s) (e : Ext st o s s' d) :
    Pre st o s' := ⟨h.wf, e.sub, h.clean⟩

theorem Ext.refl {st : Bool} {o : Sl} {s : HSt} (h : Pre st o s) : Ext st o s s [] where
  buf := by simp
  sub := h.sub
  subs := by simp
  mac x hx := .inl hx
  smac _ := rfl
  harg h := h
  skip h := h

theorem Ext.trans {st : Bool} {o : Sl} {s s1 s2 : HSt} {d1 d2 : List Instr} (h1 : Ext st o s s1 d1)
    (h2 : Ext st o s1 s2 d2) : Ext st o s s2 (d1 ++ d2) where
  buf := by rw [h2.buf, h1.buf, List.append_assoc]
  sub := h2.sub
  subs x al hx := by
    rcases List.mem_append.1 hx with h | h
    · exact h1.subs x al h
    · exact h2.subs x al h
  mac x hx := by
    rcases h2.mac x hx with h | h
    · exact h1.mac x h
    · exact .inr h
  smac h := (h2.smac h).trans (h1.smac h)
  harg h := h2.harg (h1.harg h)
  skip h := h2.skip (h1.skip h)

/-- Effect of an error. -/
def EP (st : Bool) (o : Sl) (s : HSt) (b : Nat) : ErrorKind → HSt → Prop := fun _ s' =>
  ∃ d, Ext st o s s' d ∧ Grow d ∧ W d + 16 * s'.len ≤ 16 * s.len + b

theorem EP.mono {st : Bool} {o : Sl} {s : HSt} {b b' : Nat} (hb : b ≤ b') {e : ErrorKind} {s' : HSt}
    (h : EP st o s b e s') : EP st o s b' e s' := by
  obtain ⟨d, h1, h2, h3⟩ := h
  exact ⟨d, h1, h2, by omega⟩

/-- Sequencing. -/
theorem Step.bind {cf : Cfg} {α β : Type} {st : Bool} {o : Sl} {s0 s : HSt} {d0 : List Instr} {b B : Nat}
    {m : H α} {f : α → H β} {Q1 : α → HSt → Prop} {Q : β → HSt → Prop}
    (e0 : Ext st o s0 s d0) (g0 : Grow d0)
    (h : Sat Q1 (EP st o s b) (LexPanic cf o.cs) (m s))
    (hb : W d0 + 16 * s.len + b ≤ 16 * s0.len + B)
    (hf : ∀ a s', Q1 a s' → Sat Q (EP st o s0 B) (LexPanic cf o.cs) (f a s')) :
    Sat Q (EP st o s0 B) (LexPanic cf o.cs) ((m >>= f) s) := by
  refine Sat.bind (Q1 := Q1) (h.mono (fun _ _ h => h) ?_ fun _ h => h) hf
  rintro e s' ⟨d, h1, h2, h3⟩
  refine ⟨d0 ++ d, e0.trans h1, g0.append h2, ?_⟩
  rw [W_append]; omega

/-- A step that only consumes text. -/
structure Mv (st : Bool) (o : Sl) (s s' : HSt) : Prop extends Ext st o s s' [] where
  align : s'.align = s.align
  harg' : s'.harg = s.harg
  mods : s'.allowMods = s.allowMods
  len : s'.len ≤ s.len

theorem Mv.refl {st : Bool} {o : Sl} {s : HSt} (h : Pre st o s) : Mv st o s s :=
  { Ext.refl h with align := rfl, harg' := rfl, mods := rfl, len := Nat.le_refl _ }

theorem Mv.trans {st : Bool} {o : Sl} {s s1 s2 : HSt} (h1 : Mv st o s s1) (h2 : Mv st o s1 s2) : Mv st o s s2 :=
  { h1.toExt.trans h2.toExt with
    align := h2.align.trans h1.align
    harg' := h2.harg'.trans h1.harg'
    mods := h2.mods.trans h1.mods
    len := Nat.le_trans h2.len h1.len }

theorem Mv.ext {st : Bool} {o : Sl} {s s' : HSt} (h : Mv st o s s') : Ext st o s s' [] := h.toExt

/-- A step that does not touch the text. -/
structure Fl (st : Bool) (o : Sl) (s s' : HSt) (d : List Instr) : Prop extends Ext st o s s' d where
  align : s'.align = s.align
  len : s'.len = s.len

theorem suffix_len {r s : Str} (h : r <:+ s) : r.length ≤ s.length := h.length_le

theorem mv_content {st : Bool} {o : Sl} {s : HSt} (h : Pre st o s) {r : Str} (hr : r <:+ s.content.cs) :
    Mv st o s { s with content := { s.content with cs := r } } where
  buf := by simp
  sub := h.sub.suffix hr
  subs := by simp
  mac x hx := .inl hx
  smac _ := rfl
  harg h := h
  skip h := h
  align := rfl
  harg' := rfl
  mods := rfl
  len := hr.length_le

theorem Mv.ep {st : Bool} {o : Sl} {s s' : HSt} (h : Mv st o s s') (e : ErrorKind) {b : Nat} : EP st o s b e s' :=
  ⟨[], h.toExt, Grow.nil, by have := h.len; simp [W]; omega⟩

variable {cf : Cfg} {st : Bool} {o : Sl} {s : HSt}

theorem lexPanic_sub (h : Pre st o s) {p : Panic} (hp : LexPanic cf s.content.cs p) : LexPanic cf o.cs p :=
  hp.mono fun _ hc => h.sub.infix.subset hc

/-- A lexer run on the content. -/
theorem lex_spec {α : Type} {m : L α} (hm : ∀ s, Good cf s (m s)) (h : Pre st o s) :
    Sat (fun a s' => Mv st o s s' ∧ ∃ r, m s.content.cs = .ok a r ∧ s' = { s with content := { s.content with cs := r } })
      (EP st o s 0) (LexPanic cf o.cs) (H.lex m s) := by
  have hg := hm s.content.cs
  unfold H.lex
  cases hr : m s.content.cs with
  | ok a r => rw [hr] at hg; exact ⟨mv_content h hg, r, rfl, rfl⟩
  | err e r => rw [hr] at hg; exact (mv_content h hg).ep e
  | panic p => rw [hr] at hg; exact lexPanic_sub h hg

/-- A lexer run on another part of the text. -/
theorem onStr_spec {α : Type} {m : L α} (hm : ∀ s, Good cf s (m s)) (h : Pre st o s) {t : Str} (ht : t <:+: o.cs) :
    Sat (fun a s' => s' = s ∧ ∃ r, m t = .ok a r) (EP st o s 0) (LexPanic cf o.cs) (H.onStr m t s) := by
  have hg := hm t
  unfold H.onStr
  cases hr : m t with
  | ok a r => exact ⟨rfl, r, rfl⟩
  | err e r => exact (Mv.refl h).ep e
  | panic p => rw [hr] at hg; exact LexPanic.mono hg fun c hc => ht.subset hc

theorem fail_spec {α : Type} {e : ErrorKind} {Q : α → HSt → Prop} (h : Pre st o s) {b : Nat} :
    Sat Q (EP st o s b) (LexPanic cf o.cs) ((M.fail e : H α) s) := (Mv.refl h).ep e

/-! ### Tokens and arguments -/

/-- Length of the text of a character token after its character. -/
def HTok.tl : HTok → Nat
  | .cs _ => 0
  | .chr _ ctx => ctx.cs.length - 1

/-- A token read from a part of `o`; a control sequence stands directly before the content. -/
def TokOK (st : Bool) (o : Sl) (s : HSt) : HTok → Prop
  | .cs name => ('\\' :: name) <:+: o.cs ∧ (st = true → ∃ w, Spaces w ∧ ('\\' :: name ++ w ++ s.content.cs) <:+: o.cs)
  | .chr c ctx => Sub ctx o ∧ (∃ r, ctx.cs = c :: r) ∧ c ≠ '\\' ∧ c ≠ '%'

def ArgOK (st : Bool) (o : Sl) (s : HSt) : HArg → Prop
  | .token t => TokOK st o s t
  | .group g => Sub g o

/-- The text of an argument as it was read from `t`. -/
def ArgText (t : Str) : HArg → Prop
  | .token (.cs name) => ∃ k r, Blank k ∧ t = k ++ '\\' :: (name ++ r)
  | .token (.chr c _) => ∃ k r, Blank k ∧ t = k ++ c :: r
  | .group _ => True

/-- Least number of characters of an argument. -/
def HArg.size : HArg → Nat
  | .token (.cs _) => 2
  | .token (.chr _ _) => 1
  | .group g => g.cs.length + 2

def HArg.tl : HArg → Nat
  | .token t => t.tl
  | .group _ => 0

theorem token_facts {t : Str} {tok : Tok} {r : Str} (h : token t = .ok tok r) :
    match tok with
    | .cs name => ∃ k w, Blank k ∧ Spaces w ∧ name ≠ [] ∧ t = k ++ '\\' :: (name ++ w ++ r)
    | .chr c r' => r' = r ∧ ∃ k, Blank k ∧ t = k ++ c :: r ∧ c ≠ '\\' ∧ c ≠ '%' ∧ isWs c = false := by
  have hs := token_spec t
  rw [h] at hs
  cases hs with
  | chr h1 h2 h3 h4 h5 => exact ⟨rfl, _, h1, h2, h3, h4, h5⟩
  | @cs k u name r' h1 h2 h3 =>
    obtain ⟨w, hw, e⟩ := trimStart_spec r'
    refine ⟨k, w, h1, hw, h3.eq.2, ?_⟩
    rw [h2, h3.eq.1, List.append_assoc]
    rw [← e]

theorem tok_ok {sl : Sl} {s' : HSt} {tok : Tok} {r : Str} (h : token sl.cs = .ok tok r) (hs : Sub sl o)
    (hr : st = true → s'.content.cs = r) : TokOK st o s' (.ofTok sl tok) := by
  have hf := token_facts h
  cases tok with
  | cs name =>
    obtain ⟨k, w, hk, hw, hn, e⟩ := hf
    refine ⟨List.IsInfix.trans ⟨k, w ++ r, by rw [e]; simp⟩ hs.infix, fun hst => ?_⟩
    refine ⟨w, hw, List.IsInfix.trans ?_ hs.infix⟩
    rw [hr hst, e]
    exact ⟨k, [], by simp⟩
  | chr c r' =>
    obtain ⟨rfl, k, hk, e, h1, h2, h3⟩ := hf
    refine ⟨?_, ⟨r', rfl⟩, h1, h2⟩
    exact hs.suffix ⟨k, by rw [e]⟩

theorem arg_facts {t r : Str} {a : Arg} (h : Lex.argument t = .ok a r) :
    match a with
    | .token tok => token t = .ok tok r
    | .group g => ∃ w, AllWs w ∧ t = w ++ '{' :: (g ++ '}' :: r) := by
  unfold Lex.argument at h
  split at h
  · rename_i rest hr
    rw [stripPrefix_some] at hr
    obtain ⟨w, hw, e⟩ := trimStart_spec t
    obtain ⟨g, r', hg, h⟩ := M.bind_eq_ok h
    cases h
    refine ⟨w, hw, ?_⟩
    rw [e, hr, groupContent_eq hg]
    simp [GroupingKind.closingStr]
  · obtain ⟨tok, r', ht, h⟩ := M.bind_eq_ok h
    cases h
    exact ht

theorem argument_facts {sl : Sl} {s' : HSt} {a : Arg} {r : Str} (h : Lex.argument sl.cs = .ok a r) (hw : o.wf)
    (hs : Sub sl o) (hr : st = true → s'.content.cs = r) :
    ArgOK st o s' (.ofArg sl r a) ∧ ArgText sl.cs (.ofArg sl r a) ∧
      (HArg.ofArg sl r a).size + r.length ≤ sl.cs.length ∧ (HArg.ofArg sl r a).tl ≤ r.length := by
  have hf := arg_facts h
  cases a with
  | group g =>
    obtain ⟨w, _, e⟩ := hf
    refine ⟨?_, trivial, ?_, Nat.zero_le _⟩
    · exact Sub.part (pre := w ++ ['{']) (close := ['}']) hw hs (by rw [e]; simp) rfl
    · rw [e]; simp [HArg.ofArg, HArg.size, Sl.part]; omega
  | token tok =>
    have ht := token_facts hf
    refine ⟨tok_ok hf hs hr, ?_⟩
    cases tok with
    | cs name =>
      obtain ⟨k, w, hk, hw, hn, e⟩ := ht
      have : 0 < name.length := List.length_pos_iff.2 hn
      refine ⟨⟨k, w ++ r, hk, by rw [e]; simp⟩, ?_, Nat.zero_le _⟩
      rw [e]; simp [HArg.ofArg, HArg.size, HTok.ofTok]; omega
    | chr c r' =>
      obtain ⟨rfl, k, hk, e, h1, h2, h3⟩ := ht
      refine ⟨⟨k, r', hk, e⟩, ?_, ?_⟩
      · rw [e]; simp [HArg.ofArg, HArg.size, HTok.ofTok]; omega
      · simp [HArg.ofArg, HArg.tl, HTok.ofTok, HTok.tl]

theorem argument_spec (h : Pre st o s) :
    Sat (fun a s' => Mv st o s s' ∧ ArgOK st o s' a ∧ ArgText s.content.cs a ∧ a.size + s'.len ≤ s.len ∧ a.tl ≤ s'.len)
      (EP st o s 0) (LexPanic cf o.cs) (H.argument s) := by
  have hg := good_argument (cf := cf) s.content.cs
  unfold H.argument
  cases hr : Lex.argument s.content.cs with
  | ok a r =>
    rw [hr] at hg
    have := argument_facts (st := st) (s' := { s with content := { s.content with cs := r } }) hr h.wf h.sub (fun _ => rfl)
    exact ⟨mv_content h hg, this.1, this.2.1, this.2.2.1, this.2.2.2⟩
  | err e r => rw [hr] at hg; exact (mv_content h hg).ep e
  | panic p => rw [hr] at hg; exact lexPanic_sub h hg

theorem groupContent_spec (k : GroupingKind) (h : Pre st o s) :
    Sat (fun g s' => Mv st o s s' ∧ Sub g o ∧ g.cs.length + s'.len + 1 ≤ s.len)
      (EP st o s 0) (LexPanic cf o.cs) (H.groupContent k s) := by
  have hg := good_groupContent (cf := cf) k s.content.cs
  unfold H.groupContent
  cases hr : Lex.groupContent k s.content.cs with
  | ok g r =>
    rw [hr] at hg
    have e := groupContent_eq hr
    have hk := List.length_pos_iff.2 (closingStr_ne k)
    refine ⟨mv_content h hg, Sub.part (pre := []) h.wf h.sub (by rw [e]; simp) rfl, ?_⟩
    unfold HSt.len
    rw [e]; simp [Sl.part]; omega
  | err e r => rw [hr] at hg; exact (mv_content h hg).ep e
  | panic p => rw [hr] at hg; exact lexPanic_sub h hg

theorem braceArgument_spec (h : Pre st o s) :
    Sat (fun g s' => Mv st o s s' ∧ Sub g o ∧ g.cs.length + s'.len + 2 ≤ s.len)
      (EP st o s 0) (LexPanic cf o.cs) (H.braceArgument s) := by
  have hg := good_braceArgument (cf := cf) s.content.cs
  unfold H.braceArgument
  cases hr : Lex.braceArgument s.content.cs with
  | ok g r =>
    rw [hr] at hg
    obtain ⟨w, _, e⟩ := braceArgument_eq hr
    refine ⟨mv_content h hg, Sub.part (pre := w ++ ['{']) (close := ['}']) h.wf h.sub (by rw [e]; simp) rfl, ?_⟩
    unfold HSt.len
    rw [e]; simp [Sl.part]; omega
  | err e r => rw [hr] at hg; exact (mv_content h hg).ep e
  | panic p => rw [hr] at hg; exact lexPanic_sub h hg

/-- Outcomes of an optional argument. -/
theorem optionalArgument_eq {s r : Str} {g : Option Str} (h : Lex.optionalArgument s = .ok g r) :
    (g = none ∧ r = s) ∨ (∃ w t, AllWs w ∧ s = w ++ '[' :: t ∧ (g = none ∧ (r = [] ∨ r = t) ∨
      ∃ g', g = some g' ∧ t = g' ++ ']' :: r)) := by
  unfold Lex.optionalArgument at h
  split at h
  · rename_i rest hr
    rw [stripPrefix_some] at hr
    obtain ⟨w, hw, e⟩ := trimStart_spec s
    refine .inr ⟨w, rest, hw, by rw [e, hr]; rfl, ?_⟩
    split at h
    · rename_i g' r' hg
      cases h
      refine .inr ⟨g', rfl, ?_⟩
      rw [groupContent_eq hg]; simp [GroupingKind.closingStr]
    · rename_i hg
      cases h
      exact .inl ⟨rfl, (groupContent_err hg).2⟩
    · cases h
  · cases h; exact .inl ⟨rfl, rfl⟩

theorem optionalArgument_spec (h : Pre st o s) :
    Sat (fun g s' => Mv st o s s' ∧ (∀ x, g = some x → Sub x o ∧ x.cs.length + s'.len + 2 ≤ s.len ∧
          ∃ w t, Spaces w ∧ s.content.cs = w ++ '[' :: t) ∧
        ∃ r, Lex.optionalArgument s.content.cs = .ok (g.map (·.cs)) r ∧ s'.content.cs = r)
      (EP st o s 0) (LexPanic cf o.cs) (H.optionalArgument s) := by
  have hg := good_optionalArgument (cf := cf) s.content.cs
  unfold H.optionalArgument
  cases hr : Lex.optionalArgument s.content.cs with
  | ok g r =>
    rw [hr] at hg
    refine ⟨mv_content h hg, ?_, r, ?_, rfl⟩
    · intro x hx
      cases g with
      | none => cases hx
      | some g =>
        cases hx
        rcases optionalArgument_eq hr with ⟨h1, _⟩ | ⟨w, t, hw, e, ⟨h1, _⟩ | ⟨g', h1, e2⟩⟩
        · cases h1
        · cases h1
        · cases h1
          refine ⟨Sub.part (pre := w ++ ['[']) (close := [']']) h.wf h.sub (by rw [e, e2]; simp) rfl, ?_, w, t, hw, e⟩
          unfold HSt.len
          rw [e, e2]; simp [Sl.part]; omega
    · cases g <;> rfl
  | err e r => rw [hr] at hg; exact (mv_content h hg).ep e
  | panic p => rw [hr] at hg; exact lexPanic_sub h hg

theorem contentWithSuffix_spec {d : Str} (hd : 1 < blen d) (h : Pre st o s) :
    Sat (fun g s' => Mv st o s s' ∧ Sub g o ∧ g.cs.length + s'.len + 1 ≤ s.len)
      (EP st o s 0) (LexPanic cf o.cs) (H.contentWithSuffix d s) := by
  have hg := good_contentWithSuffix (cf := cf) hd s.content.cs
  unfold H.contentWithSuffix
  cases hr : Lex.contentWithSuffix d s.content.cs with
  | ok g r =>
    rw [hr] at hg
    have : ∀ {s g r}, Delimited d s g r → s = g ++ d ++ r := by
      intro s g r h
      induction h with
      | found => simp
      | comment _ _ _ ih => rw [ih]; simp
      | escaped _ _ ih => rw [ih]; simp
      | braces _ h1 _ ih => rw [h1.eq, ih]; simp
      | char _ _ _ _ _ ih => rw [ih]; simp
    have e := this (contentWithSuffix_ok.1 hr)
    have hk : 0 < d.length := by
      cases d with
      | nil => simp [blen] at hd
      | cons => simp
    refine ⟨mv_content h hg, Sub.part (pre := []) h.wf h.sub (by rw [e]; simp) rfl, ?_⟩
    unfold HSt.len
    rw [e]; simp [Sl.part]; omega
  | err e r => rw [hr] at hg; exact (mv_content h hg).ep e
  | panic p => rw [hr] at hg; exact lexPanic_sub h hg

theorem argumentOf_spec {sl : Sl} (h : Pre st o s) (hs : Sub sl o) (hst : st = false) :
    Sat (fun a s' => s' = s ∧ ArgOK st o s a ∧ a.size ≤ sl.cs.length ∧ a.size + a.tl ≤ sl.cs.length)
      (EP st o s 0) (LexPanic cf o.cs) (H.argumentOf sl s) := by
  have hg := good_argument (cf := cf) sl.cs
  unfold H.argumentOf
  cases hr : Lex.argument sl.cs with
  | ok a r =>
    have := argument_facts (st := st) (s' := s) hr h.wf hs (fun h => by rw [hst] at h; cases h)
    exact ⟨rfl, this.1, by omega, by omega⟩
  | err e r => exact (Mv.refl h).ep e
  | panic p => rw [hr] at hg; exact LexPanic.mono hg fun c hc => hs.infix.subset hc

end PL
