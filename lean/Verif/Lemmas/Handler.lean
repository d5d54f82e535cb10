import Verif.Lemmas.Ext
set_option autoImplicit false
/-!
# What handlers do

Every arm of `execPrim` appends one element (or, for `&` and line breaks, one flow event), keeps everything a part
of the text it started with, and can only panic in the lexer.
-/
namespace PL
open Lex Spec Macros H

/-- A handler started at `s0` and is now at `s`, with `d` appended and `j` groups open. -/
structure At (st : Bool) (o : Sl) (s0 : HSt) (j : Nat) (s : HSt) (d : List Instr) : Prop where
  pre0 : Pre st o s0
  ext : Ext st o s0 s d
  op : Opens j d
  align : s.align = s0.align

variable {cf : Cfg} {st : Bool} {o : Sl} {s0 s s' : HSt} {j : Nat} {d : List Instr} {α β : Type}

theorem At.pre (A : At st o s0 j s d) : Pre st o s := A.pre0.next A.ext
theorem At.start (h : Pre st o s) : At st o s 0 s [] := ⟨h, Ext.refl h, Flat.nil, rfl⟩
theorem At.mv (A : At st o s0 j s d) (h : Mv st o s s') : At st o s0 j s' d :=
  ⟨A.pre0, by simpa using A.ext.trans h.ext, A.op, h.align.trans A.align⟩
theorem At.flat (A : At st o s0 0 s d) : Flat d := A.op

theorem At.append (A : At st o s0 j s d) {d1 : List Instr} {j' : Nat} (h : Ext st o s s' d1)
    (ho : ∀ k, dep (k + j) d1 = some (k + j')) (ha : s'.align = s.align) : At st o s0 j' s' (d ++ d1) := by
  refine ⟨A.pre0, A.ext.trans h, fun k => ?_, ha.trans A.align⟩
  rw [dep_append, A.op k]
  exact ho k

/-- Results of a handler with `slack` left over. -/
abbrev HSat (cf : Cfg) (st : Bool) (o : Sl) (s0 : HSt) (b : Nat) (Q : α → HSt → Prop) : Res HSt α → Prop :=
  Sat Q (EP st o s0 b) (LexPanic cf o.cs)

variable {Q : α → HSt → Prop} {b : Nat}

theorem At.bindMv {m : H β} {f : β → H α} {R : β → HSt → Prop} (A : At st o s0 j s d)
    (h : HSat cf st o s 0 (fun a s' => Mv st o s s' ∧ R a s') (m s))
    (hb : W d + 16 * s.len ≤ 16 * s0.len + b)
    (hf : ∀ a s', At st o s0 j s' d → s'.len ≤ s.len → R a s' → HSat cf st o s0 b Q (f a s')) :
    HSat cf st o s0 b Q ((m >>= f) s) :=
  Step.bind A.ext ⟨j, A.op⟩ h (by simpa using hb) fun a s' ⟨h1, h2⟩ => hf a s' (A.mv h1) h1.len h2

/-- A step that leaves the state alone. -/
theorem At.bindSame {m : H β} {f : β → H α} {R : β → Prop} (A : At st o s0 j s d)
    (h : HSat cf st o s 0 (fun a s' => s' = s ∧ R a) (m s))
    (hb : W d + 16 * s.len ≤ 16 * s0.len + b)
    (hf : ∀ a, R a → HSat cf st o s0 b Q (f a s)) :
    HSat cf st o s0 b Q ((m >>= f) s) :=
  Step.bind A.ext ⟨j, A.op⟩ h (by simpa using hb) fun a s' ⟨h1, h2⟩ => h1 ▸ hf a h2

theorem push_ext (h : Pre st o s) {is : List Instr} (hs : ∀ x al, Instr.sub x al ∈ is → Sub x o) :
    Ext st o s { s with buf := s.buf ++ is } is where
  buf := rfl
  sub := h.sub
  subs := hs
  mac _ hx := .inl hx
  smac _ := rfl
  harg h := h
  skip h := h

theorem At.push (A : At st o s0 j s d) {is : List Instr} {j' : Nat} {f : PUnit → H α}
    (hs : ∀ x al, Instr.sub x al ∈ is → Sub x o) (ho : ∀ k, dep (k + j) is = some (k + j'))
    (hf : ∀ s', At st o s0 j' s' (d ++ is) → s'.len = s.len → s'.content = s.content → HSat cf st o s0 b Q (f ⟨⟩ s')) :
    HSat cf st o s0 b Q ((H.push is >>= f) s) :=
  hf _ (A.append (push_ext A.pre hs) ho rfl) rfl rfl

theorem At.ev (A : At st o s0 j s d) {e : Event} {j' : Nat} {f : PUnit → H α}
    (ho : ∀ k, dep (k + j) [.ev e] = some (k + j'))
    (hf : ∀ s', At st o s0 j' s' (d ++ [.ev e]) → s'.len = s.len → s'.content = s.content → HSat cf st o s0 b Q (f ⟨⟩ s')) :
    HSat cf st o s0 b Q ((H.ev e >>= f) s) := A.push (by simp) ho hf

theorem At.push' (A : At st o s0 j s d) {is : List Instr} {j' : Nat} {Q : PUnit → HSt → Prop}
    (hs : ∀ x al, Instr.sub x al ∈ is → Sub x o) (ho : ∀ k, dep (k + j) is = some (k + j'))
    (hf : ∀ s', At st o s0 j' s' (d ++ is) → s'.len = s.len → s'.content = s.content → Q ⟨⟩ s') :
    HSat cf st o s0 b Q (H.push is s) :=
  hf _ (A.append (push_ext A.pre hs) ho rfl) rfl rfl

theorem At.ev' (A : At st o s0 j s d) {e : Event} {j' : Nat} {Q : PUnit → HSt → Prop}
    (ho : ∀ k, dep (k + j) [.ev e] = some (k + j'))
    (hf : ∀ s', At st o s0 j' s' (d ++ [.ev e]) → s'.len = s.len → s'.content = s.content → Q ⟨⟩ s') :
    HSat cf st o s0 b Q (H.ev e s) := A.push' (by simp) ho hf

theorem At.allowMods (A : At st o s0 j s d) {f : PUnit → H α}
    (hf : ∀ s', At st o s0 j s' d → s'.len = s.len → s'.content = s.content → HSat cf st o s0 b Q (f ⟨⟩ s')) :
    HSat cf st o s0 b Q ((H.allowMods >>= f) s) :=
  hf _ ⟨A.pre0, ⟨A.ext.buf, A.ext.sub, A.ext.subs, A.ext.mac, A.ext.smac, A.ext.harg, A.ext.skip⟩, A.op, A.align⟩ rfl rfl

theorem At.setPos (A : At st o s0 j s d) {p : ScriptPos} {f : PUnit → H α}
    (hf : ∀ s', At st o s0 j s' d → s'.len = s.len → s'.content = s.content → HSat cf st o s0 b Q (f ⟨⟩ s')) :
    HSat cf st o s0 b Q ((H.setPos p >>= f) s) :=
  hf _ ⟨A.pre0, ⟨A.ext.buf, A.ext.sub, A.ext.subs, A.ext.mac, A.ext.smac, A.ext.harg, A.ext.skip⟩, A.op, A.align⟩ rfl rfl

theorem At.setSkip (A : At st o s0 j s d) {f : PUnit → H α}
    (hf : ∀ s', At st o s0 j s' d → s'.len = s.len → s'.content = s.content → HSat cf st o s0 b Q (f ⟨⟩ s')) :
    HSat cf st o s0 b Q ((H.setSkip >>= f) s) :=
  hf _ ⟨A.pre0, ⟨A.ext.buf, A.ext.sub, A.ext.subs, A.ext.mac, A.ext.smac, A.ext.harg, fun _ => rfl⟩, A.op, A.align⟩ rfl rfl

theorem At.setHarg (A : At st o s0 j s d) {f : PUnit → H α}
    (hf : ∀ s', At st o s0 j s' d → s'.len = s.len → s'.content = s.content → s'.harg = true →
      HSat cf st o s0 b Q (f ⟨⟩ s')) :
    HSat cf st o s0 b Q ((H.setHarg >>= f) s) :=
  hf _ ⟨A.pre0, ⟨A.ext.buf, A.ext.sub, A.ext.subs, A.ext.mac, A.ext.smac, fun _ => rfl, A.ext.skip⟩, A.op, A.align⟩
    rfl rfl rfl

theorem At.fail (A : At st o s0 j s d) {e : ErrorKind} (hb : W d + 16 * s.len ≤ 16 * s0.len + b) :
    HSat cf st o s0 b Q ((M.fail e : H α) s) := ⟨d, A.ext, ⟨j, A.op⟩, hb⟩

theorem At.bindFail (A : At st o s0 j s d) {e : ErrorKind} {f : β → H α} (hb : W d + 16 * s.len ≤ 16 * s0.len + b) :
    HSat cf st o s0 b Q (((M.fail e : H β) >>= f) s) := ⟨d, A.ext, ⟨j, A.op⟩, hb⟩

/-! ### The token handler -/

/-- Tokens that make flow events. -/
def FlowTok : HTok → Prop
  | .cs name => primOf name = .newline
  | .chr c _ => c = '&'

/-- What a flow token leaves. -/
def FlowPost (t : HTok) (s s' : HSt) : Prop :=
  s'.allowMods = s.allowMods ∧
    match t with
    | .cs _ => s'.content.cs = [] ∨ ∃ m, BreakTail m ∧ s.content.cs = m ++ s'.content.cs
    | .chr _ _ => s'.content = s.content

def bonus (t : HTok) (s : HSt) : Nat :=
  match t with
  | .chr c _ => if (c = '_' ∨ c = '^') ∧ s.harg = false then 1 else 0
  | .cs _ => 0

/-- Most text there can be after a token. -/
def room (t : HTok) (s : HSt) : Nat := max s.len (t.tl + bonus t s)

theorem len_le_room {t : HTok} {s : HSt} : s.len ≤ room t s := Nat.le_max_left _ _

def slack : HTok → Nat
  | .cs _ => 8
  | .chr _ _ => 2

theorem slack_le (t : HTok) : slack t ≤ 8 := by cases t <;> simp [slack]

/-- The effect of a token: an element, or a flow event. -/
def TokPost (st : Bool) (o : Sl) (t : HTok) (s s' : HSt) : Prop :=
  ∃ d, Ext st o s s' d ∧ Flat d ∧ W d + 16 * s'.len ≤ 16 * room t s + slack t ∧ s'.len ≤ room t s ∧
    (Elem st d ∧ s'.align = s.align ∨
      s.harg = false ∧ Shape st s.align s'.align d ∧
        (st = true → FlowTok t ∧ FlowPost t s s'))

def RecOK (cf : Cfg) (st : Bool) (o : Sl) (n : Nat) (rec : HTok → H PUnit) : Prop :=
  ∀ t s, Pre st o s → TokOK st o s t → s.len + 2 ≤ n → HSat cf st o s 8 (fun _ s' => TokPost st o t s s') (rec t s)

/-- Weight of the element of an argument. -/
def HArg.w : HArg → Nat
  | .group g => 16 * g.cs.length + 3
  | .token _ => 8

variable {n : Nat} {rec : HTok → H PUnit}

theorem room_harg {t : HTok} {s : HSt} (h : s.harg = true) : room t s = max s.len t.tl := by
  unfold room bonus
  cases t <;> simp [h]

theorem elem_braces {g : Sl} : Elem st [.ev (.begin_ .normal), .sub g none, .ev .end_] :=
  Elem.group (Inside.sub Inside.nil)

theorem mem_one {g : Sl} (hg : Sub g o) {is : List Instr} (a : Option AlignCount)
    (hs : ∀ i ∈ is, i = .sub g a ∨ ∃ e, i = .ev e) : ∀ x al, Instr.sub x al ∈ is → Sub x o := by
  intro x al h
  rcases hs _ h with h | ⟨e, h⟩
  · cases h; exact hg
  · cases h

/-- Handling of an argument that has been read. -/
theorem handleArgument_spec (hr : RecOK cf st o n rec) {a : HArg} (h : Pre st o s) (ha : ArgOK st o s a)
    (hn : s.len + 2 ≤ n) :
    HSat cf st o s 8 (fun _ s' => ∃ d, Ext st o s s' d ∧ Flat d ∧ Elem st d ∧ s'.align = s.align ∧
      W d + 16 * s'.len ≤ 16 * max s.len a.tl + a.w ∧ s'.len ≤ max s.len a.tl) (handleArgument rec a s) := by
  cases a with
  | group g =>
    refine (At.start h).push' (mem_one (o := o) (g := g) ha none (by simp)) (j' := 0) (fun _ => rfl) fun s' A hl hc => ?_
    refine ⟨_, A.ext, A.flat, elem_braces, A.align, ?_, ?_⟩
    · rw [hl]; simp [W, HArg.w, HArg.tl]; omega
    · rw [hl]; omega
  | token t =>
    unfold handleArgument
    refine (At.start h).setHarg fun s1 A hl hc hh => ?_
    have ht : TokOK st o s1 t := by
      cases t with
      | cs => simp only [ArgOK, TokOK] at ha ⊢; rw [hc]; exact ha
      | chr => exact ha
    refine Sat.mono (hr t s1 A.pre ht (by omega)) ?_ ?_ (fun _ h => h)
    · rintro _ s' ⟨d, h1, h2, h3, h4, h5⟩
      have := slack_le t
      rw [room_harg hh, hl] at h3 h4
      refine ⟨d, by simpa using A.ext.trans h1, h2, ?_⟩
      rcases h5 with ⟨h5, h6⟩ | ⟨h5, _⟩
      · exact ⟨h5, h6.trans A.align, by simp only [HArg.w, HArg.tl]; omega, h4⟩
      · rw [hh] at h5; cases h5
    · rintro e s' ⟨d, h1, h2, h3⟩
      refine ⟨d, by simpa using A.ext.trans h1, h2, ?_⟩
      rw [hl] at h3; exact h3

/-- Handling of an argument in sequence. -/
theorem At.handle (A : At st o s0 j s d) (hr : RecOK cf st o n rec) {a : HArg} {f : PUnit → H α}
    (ha : ArgOK st o s a) (hn : s.len + 2 ≤ n) (ht : a.tl ≤ s.len)
    (hb : W d + 16 * s.len + 8 ≤ 16 * s0.len + b)
    (hf : ∀ s' d1, At st o s0 j s' (d ++ d1) → Elem st d1 → W d1 + 16 * s'.len ≤ 16 * s.len + a.w → s'.len ≤ s.len →
      HSat cf st o s0 b Q (f ⟨⟩ s')) :
    HSat cf st o s0 b Q ((handleArgument rec a >>= f) s) := by
  refine Step.bind A.ext ⟨j, A.op⟩ (handleArgument_spec hr A.pre ha hn) hb ?_
  rintro _ s' ⟨d1, h1, h2, h3, h4, h5, h6⟩
  have hm : max s.len a.tl = s.len := by omega
  rw [hm] at h5 h6
  exact hf s' d1 (A.append h1 (fun k => h2 _) h4) h3 h5 h6

theorem At.handle' (A : At st o s0 j s d) (hr : RecOK cf st o n rec) {a : HArg} {Q : PUnit → HSt → Prop}
    (ha : ArgOK st o s a) (hn : s.len + 2 ≤ n) (ht : a.tl ≤ s.len)
    (hb : W d + 16 * s.len + 8 ≤ 16 * s0.len + b)
    (hf : ∀ s' d1, At st o s0 j s' (d ++ d1) → Elem st d1 → W d1 + 16 * s'.len ≤ 16 * s.len + a.w → s'.len ≤ s.len →
      Q ⟨⟩ s') :
    HSat cf st o s0 b Q (handleArgument rec a s) := by
  have := A.handle (f := pure) hr ha hn ht hb fun s' d1 h1 h2 h3 h4 => (hf s' d1 h1 h2 h3 h4 : HSat cf st o s0 b Q (Res.ok _ _))
  rw [M.run_bind] at this
  revert this
  cases handleArgument rec a s <;> exact id

theorem HArg.size_w (a : HArg) : a.w + 8 ≤ 16 * a.size := by
  cases a with
  | group g => simp only [HArg.w, HArg.size]; omega
  | token t => cases t <;> simp [HArg.w, HArg.size]

theorem HArg.size_pos (a : HArg) : 1 ≤ a.size := by
  cases a with
  | group g => simp only [HArg.size]; omega
  | token t => cases t <;> simp [HArg.size]

theorem ArgOK.congr {a : HArg} (h : ArgOK st o s a) (hc : s'.content = s.content) : ArgOK st o s' a := by
  cases a with
  | group => exact h
  | token t =>
    cases t with
    | cs => simp only [ArgOK, TokOK] at h ⊢; rw [hc]; exact h
    | chr => exact h

/-- The effect of an arm. -/
def ArmPost (st : Bool) (o : Sl) (s s' : HSt) : Prop :=
  ∃ d, Ext st o s s' d ∧ Flat d ∧ W d + 16 * s'.len ≤ 16 * s.len + 8 ∧ s'.len ≤ s.len ∧ Elem st d ∧ s'.align = s.align

theorem At.done (A : At st o s0 0 s d) {d' : List Instr} (hd : d = d') (hw : W d' + 16 * s.len ≤ 16 * s0.len + 8)
    (hl : s.len ≤ s0.len) (he : Elem st d') : ArmPost st o s0 s := by
  subst hd
  exact ⟨d, A.ext, A.flat, hw, hl, he, A.align⟩

end PL
