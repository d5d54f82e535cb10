import Verif.Spec.Mistakes
import Verif.Lemmas.Formula.Main
set_option autoImplicit false
/-! # Arguments that are not there make the handlers fail -/
namespace PL.Formula
open PL PL.Lex PL.H Spec PL.Props

variable {cf : Cfg} {D : Macros.Ctx}

/-- A handler fails with an error. -/
def Errs {α : Type} (m : H α) (h : HSt) (k : ErrorKind) : Prop := ∃ h', m h = .err k h'

theorem Errs.bind {α β : Type} {m : H α} {f : α → H β} {h : HSt} {k : ErrorKind} (e : Errs m h k) : Errs (m >>= f) h k := by
  obtain ⟨h', e⟩ := e
  exact ⟨h', by rw [M.run_bind, e]⟩

theorem Errs.after {α β : Type} {m : H α} {f : α → H β} {h h1 : HSt} {a : α} {k : ErrorKind} (e : m h = .ok a h1) (e' : Errs (f a) h1 k) :
    Errs (m >>= f) h k := by
  obtain ⟨h', e'⟩ := e'
  exact ⟨h', by rw [M.bind_ok e]; exact e'⟩

theorem Errs.fail {α : Type} {h : HSt} {k : ErrorKind} : Errs (M.fail k : H α) h k := ⟨h, rfl⟩

theorem Errs.push {β : Type} {f : PUnit → H β} {is : List Instr} {h : HSt} {k : ErrorKind} (e : Errs (f ⟨⟩) { h with buf := h.buf ++ is } k) :
    Errs (H.push is >>= f) h k := .after rfl e

theorem Errs.ev {β : Type} {f : PUnit → H β} {x : Event} {h : HSt} {k : ErrorKind} (e : Errs (f ⟨⟩) { h with buf := h.buf ++ [.ev x] } k) :
    Errs (H.ev x >>= f) h k := .after rfl e

theorem Errs.lex {α : Type} {m : L α} {h : HSt} {k : ErrorKind} (e : ∃ r, m h.content.cs = .err k r) : Errs (H.lex m) h k := by
  obtain ⟨r, e⟩ := e
  exact ⟨_, by unfold H.lex; rw [e]⟩

theorem Errs.onStr {α : Type} {m : L α} {g : Str} {h : HSt} {k : ErrorKind} (e : ∃ r, m g = .err k r) : Errs (H.onStr m g) h k := by
  obtain ⟨r, e⟩ := e
  exact ⟨_, by unfold H.onStr; rw [e]⟩

/-- Alignments that are left. -/
def room (A : Option AlignCount) : Option Nat := A.map fun a => a.max - a.count

/-- The macros and the alignments of a state. -/
def Fit (D : Macros.Ctx) (T : Option Nat) (h : HSt) : Prop := h.macros = D ∧ room h.align = T

theorem After.fit {h h' : HSt} {es : List Event} {r : Str} {p : Place} {T : Option Nat} (a : After cf D h h' es r p) (hf : Fit D T h) : Fit D T h' :=
  ⟨a.macros.trans hf.1, by rw [a.align]; exact hf.2⟩

/-- An operand cannot be read or cannot be handled. -/
def BadOperand (cf : Cfg) (D : Macros.Ctx) (T : Option Nat) (n : Nat) (s : Str) (k : ErrorKind) : Prop :=
  ∀ h : HSt, h.content.cs = s → Fit D T h → Errs H.argument h k ∨ ∃ arg t, H.argument h = .ok arg (past h t) ∧
    ∀ h2 : HSt, h2.content.cs = t → Fit D T h2 → Errs (handleArgument (handleToken cf n) arg) h2 k

/-- What a mistake claims. -/
def Bad (cf : Cfg) (D : Macros.Ctx) (T : Option Nat) : Spot → ErrorKind → Prop
  | .token a x s, k => ∀ n h ht, s.length + 2 ≤ n → HTok.is ht x s → h.content.cs = s → h.harg = a → Fit D T h → Errs (handleToken cf n ht) h k
  | .operand s, k => ∀ n, s.length + 1 ≤ n → BadOperand cf D T n s k
  | .element s, k => ∀ c A B sp, trimStart c.cs = trimStart s → room A = T → trimStart c.cs ≠ [] ∧
      ∃ h', parse cf (startSt ⟨.sub c A :: B, [], D, sp⟩ c A) = .err k ⟨h', sp⟩

variable {T : Option Nat} {a : Bool} {name s : Str} {k : ErrorKind}

theorem Errs.arg {β : Type} {n : Nat} {s : Str} {f : HArg → H β} {h : HSt} (o : BadOperand cf D T n s k) (hs : h.content.cs = s) (hh : Fit D T h)
    (hf : ∀ arg t, (∀ h2 : HSt, h2.content.cs = t → Fit D T h2 → Errs (handleArgument (handleToken cf n) arg) h2 k) → Errs (f arg) (past h t) k) :
    Errs (H.argument >>= f) h k := by
  rcases o h hs hh with e | ⟨arg, t, e, H⟩
  · exact e.bind
  · exact .after e (hf arg t H)

/-- Reading and handling an operand. -/
theorem Errs.operand {β : Type} {n : Nat} {s : Str} {f : PUnit → H β} {h : HSt} (o : BadOperand cf D T n s k) (hs : h.content.cs = s) (hh : Fit D T h) :
    Errs (H.argument >>= fun arg => handleArgument (handleToken cf n) arg >>= f) h k :=
  Errs.arg o hs hh fun _ _ H => (H _ rfl hh : Errs _ (past _ _) _).bind

/-- An operand that is right. -/
theorem Errs.good {β : Type} {n : Nat} {s : Str} {nd : Nodes} {r : Str} {pl : Place} {f : PUnit → H β} {h : HSt} (o : Operand cf D n s nd r pl) (hs : h.content.cs = s)
    (hh : Fit D T h) (hf : ∀ h' : HSt, h'.content.cs = r → Fit D T h' → Errs (f ⟨⟩) h' k) :
    Errs (H.argument >>= fun arg => handleArgument (handleToken cf n) arg >>= f) h k := by
  obtain ⟨arg, t, e, H⟩ := o h hs
  obtain ⟨h', e', A⟩ := H (past h t) rfl
  exact .after e (.after e' (hf h' A.cs ⟨A.macros.trans hh.1, by rw [A.align]; exact hh.2⟩))

/-- A command. -/
theorem bad_cs {p : Prim} (hp : primOf name = p) (H : ∀ n h, s.length + 1 ≤ n → h.content.cs = s → h.harg = a → Fit D T h →
    Errs (execPrim cf (handleToken cf n) p) h k) : Bad cf D T (.token a (.cs name) s) k := by
  intro n h ht hn hx hs ha hf
  cases ht with
  | chr => cases hx
  | cs m =>
    obtain rfl : m = name := hx
    cases n with
    | zero => omega
    | succ j =>
      show Errs (execPrim cf (handleToken cf j) (primOf m)) h _
      rw [hp]
      exact H j h (by omega) hs ha hf

/-- A character. -/
theorem bad_chr {c : Char} (H : ∀ (h : HSt) (ctx : Sl), h.content.cs = s → h.harg = a → Fit D T h → Errs (handleChar c ctx) h k) :
    Bad cf D T (.token a (.chr c) s) k := by
  intro n h ht hn hx hs ha hf
  cases ht with
  | cs => cases hx
  | chr d ctx =>
    obtain ⟨rfl, hx⟩ := hx
    cases n with
    | zero => omega
    | succ j => exact H h ctx hs ha hf

/-! ### Arguments that are not there -/

theorem unclosed_group {K : GroupingKind} (h : Unclosed K.openingStr K.closingStr s) : ∃ r, Lex.groupContent K s = .err (.unbalancedGroup (some K)) r :=
  (C12_fail K s).2 h

theorem errs_group {K : GroupingKind} {h : HSt} (hu : Unclosed K.openingStr K.closingStr h.content.cs) :
    Errs (H.groupContent K) h (.unbalancedGroup (some K)) := by
  obtain ⟨r, e⟩ := unclosed_group hu
  exact ⟨_, by unfold H.groupContent; rw [e]⟩

theorem backslash_token {b : Str} (hb : Blank b) : token (b ++ ['\\']) = .err .emptyControlSequence [] := by
  rw [token_blank hb]
  rfl

theorem backslash_noBrace {b : Str} (hb : Blank b) : stripPrefix ['{'] (trimStart (b ++ ['\\'])) = none := by
  cases ht : stripPrefix ['{'] (trimStart (b ++ ['\\'])) with
  | none => rfl
  | some u =>
    rw [stripPrefix_some] at ht
    have := backslash_token hb
    rw [← token_trim, ht] at this
    cases this

theorem blankEnd_noBrace (hb : BlankEnd s) : stripPrefix ['{'] (trimStart s) = none := by
  cases ht : stripPrefix ['{'] (trimStart s) with
  | none => rfl
  | some u =>
    rw [stripPrefix_some] at ht
    have := token_blankEnd hb
    rw [← token_trim, ht] at this
    cases this

theorem noArgument_err (h : NoArgument s k) : ∃ r, Lex.argument s = .err k r := by
  unfold Lex.argument
  cases h with
  | nothing hb =>
    rw [blankEnd_noBrace hb]
    dsimp only
    rw [M.run_bind, token_blankEnd hb]
    exact ⟨_, rfl⟩
  | @unclosed w t hw hu =>
    obtain ⟨r, e⟩ := unclosed_group (K := .normal) hu
    rw [trimStart_ws_append hw, trimStart_eq_self (by intro c r e; cases e; decide), show stripPrefix ['{'] ('{' :: t) = some t from rfl]
    dsimp only
    rw [M.run_bind, e]
    exact ⟨_, rfl⟩
  | backslash hb =>
    rw [backslash_noBrace hb]
    dsimp only
    rw [M.run_bind, backslash_token hb]
    exact ⟨_, rfl⟩

theorem errs_argument {h : HSt} (hk : NoArgument h.content.cs k) : Errs H.argument h k := by
  obtain ⟨r, e⟩ := noArgument_err hk
  exact ⟨_, by unfold H.argument; rw [e]⟩

theorem errs_groupArg {h : HSt} {e : ErrorKind} (hk : NoGroup e h.content.cs k) : Errs (groupArg e) h k := by
  unfold groupArg
  generalize hs : h.content.cs = s at hk
  cases hk with
  | nothing hk => exact (errs_argument (by rw [hs]; exact hk)).bind
  | token ht =>
    obtain ⟨tk, e, -⟩ := argument_token (h := h) (by rw [hs]; exact ht)
    exact .after e .fail

theorem errs_text {h : HSt} {f : Option Font} (hk : NoText h.content.cs k) : Errs (textArgument f) h k := by
  unfold textArgument
  generalize hs : h.content.cs = s at hk
  refine Errs.bind ?_
  cases hk with
  | nothing hk => exact (errs_argument (by rw [hs]; exact hk)).bind
  | command ht =>
    obtain ⟨tk, e, hx⟩ := argument_token (h := h) (by rw [hs]; exact ht)
    refine .after e ?_
    cases tk with
    | chr => cases hx
    | cs => exact .fail

theorem noDelim_err (h : NoDelim s k) : ∃ r, delimiter s = .err k r := by
  unfold delimiter
  cases h with
  | nothing hb => exact ⟨_, by rw [M.run_bind, token_blankEnd hb]⟩
  | backslash hb => exact ⟨_, by rw [M.run_bind, backslash_token hb]⟩
  | chr h1 h2 =>
    obtain ⟨t, ht, hx⟩ := nextTok_iff.1 h1
    rw [M.bind_ok ht]
    cases t with
    | chr c ctx => cases hx; simp only [tokenToDelim, h2]; exact ⟨_, rfl⟩
    | cs => cases hx
  | cs h1 h2 =>
    obtain ⟨t, ht, hx⟩ := nextTok_iff.1 h1
    rw [M.bind_ok ht]
    cases t with
    | cs c => cases hx; simp only [tokenToDelim, h2]; exact ⟨_, rfl⟩
    | chr => cases hx

theorem errs_leftDelim {h : HSt} (hd : h.content.cs.head? ≠ some '.') (hk : NoDelim h.content.cs k) : Errs leftDelim h k := by
  unfold leftDelim
  refine .after (m := M.get) (a := h) (h1 := h) rfl ?_
  split
  · rename_i rest he
    rw [he] at hd
    exact absurd rfl hd
  · exact (Errs.lex (noDelim_err hk)).bind

/-! ### Lengths -/

theorem noLength_err (h : NoLength s) : ∃ r, dimension s = .err .dimensionUnit r := by
  cases hd : dimension s with
  | ok d r =>
    obtain ⟨neg, ip, fp, u, t, h1, -⟩ := C22_accepts _ _ _ hd
    exact absurd h1 (h _ _ _ _ _)
  | panic p =>
    obtain ⟨-, neg, ip, fp, u, c, t, h1, -⟩ := C22_panics_only _ _ hd
    exact absurd h1 (h _ _ _ _ _)
  | err e r =>
    have : e = .dimensionUnit := by
      unfold dimension at hd
      obtain ⟨n, r1, hf⟩ := floatingPoint_isOk s
      rw [M.bind_ok hf, M.run_bind, dimensionUnit_eq] at hd
      split at hd
      · cases hd
      · rename_i he
        cases hd
        split at he
        · split at he
          · split at he
            · cases he
            · rename_i hq
              unfold oneOptionalSpace at hq
              split at hq
              · split at hq
                · split at hq <;> cases hq
                · cases hq
              · cases hq
            · cases he
          · cases he; rfl
        · cases he; rfl
      · cases hd
    subst this
    exact ⟨r, rfl⟩

theorem orBraced_err {α : Type} {m : L α} (hm : ∀ s, NoLength s → ∃ r, m s = .err .dimensionUnit r) (h : NoLengthHere s k) : ∃ r, orBraced m s = .err k r := by
  unfold orBraced
  rw [M.get_bind]
  obtain ⟨w, hw, e⟩ := trimStart_spec s
  cases h with
  | bare h1 h2 =>
    rw [if_neg]
    · exact hm _ h2
    · intro hs
      cases ht : trimStart s with
      | nil => rw [ht] at hs; cases hs
      | cons c u =>
        rw [ht] at hs
        have : '{' = c := by simpa [startsWith] using hs
        subst this
        exact h1 w u hw (by rw [e, ht])
  | @unclosed w' t hw' hu =>
    obtain ⟨r, er⟩ := unclosed_group (K := .normal) hu
    have : Lex.braceArgument (w' ++ '{' :: t) = .err (.unbalancedGroup (some .normal)) r := by
      unfold Lex.braceArgument
      rw [trimStart_ws_append hw', trimStart_eq_self (by intro c r e; cases e; decide)]
      exact er
    rw [trimStart_ws_append hw', trimStart_eq_self (by intro c r e; cases e; decide), if_pos (show startsWith ['{'] ('{' :: t) = true by simp [startsWith]),
      M.run_bind, this]
    exact ⟨_, rfl⟩
  | @braced _ g r h1 h2 =>
    obtain ⟨w', t, hw', rfl, hs⟩ := h1
    obtain ⟨q, hq⟩ := hm _ h2
    rw [trimStart_ws_append hw', trimStart_eq_self (by intro c r e; cases e; decide), if_pos (show startsWith ['{'] ('{' :: t) = true by simp [startsWith]),
      M.bind_ok (braceArgument_iff.2 ⟨w', t, hw', rfl, hs⟩)]
    have : onInner m g r = .err .dimensionUnit r := by
      unfold onInner
      rw [hq]
    rw [M.run_bind, this]
    exact ⟨_, rfl⟩

theorem orBraced_more {α : Type} {m : L α} {g u r : Str} {x : α} (hb : Braced s g r) (hm : m g = .ok x u) (hu : ¬ Spaces u) :
    ∃ q, orBraced m s = .err .dimensionArgument q := by
  obtain ⟨w', t, hw', rfl, hs⟩ := hb
  unfold orBraced
  rw [M.get_bind, trimStart_ws_append hw', trimStart_eq_self (by intro c r e; cases e; decide),
    if_pos (show startsWith ['{'] ('{' :: t) = true by simp [startsWith]), M.bind_ok (braceArgument_iff.2 ⟨w', t, hw', rfl, hs⟩)]
  have e1 : onInner m g r = .ok (x, u) r := by
    unfold onInner
    rw [hm]
  have e2 : trimStart u ≠ [] := by
    intro h0
    obtain ⟨w, hw, e⟩ := trimStart_spec u
    rw [h0, List.append_nil] at e
    exact hu (e ▸ hw)
  rw [M.bind_ok e1]
  dsimp only
  rw [if_pos (by simpa using e2)]
  exact ⟨_, rfl⟩

theorem noLength_glue (h : NoLength s) : ∃ r, glue s = .err .dimensionUnit r := by
  obtain ⟨r, e⟩ := noLength_err h
  exact ⟨r, by unfold glue; rw [M.run_bind, e]⟩

/-- A group with a length that is used. -/
theorem errs_lengthArg {α β : Type} {m : L α} {f : α → H β} {h : HSt} (hm : ∀ s, NoLength s → ∃ r, m s = .err .dimensionUnit r)
    (hk : NoLengthArg h.content.cs k) : Errs (do let g ← groupArg .dimensionArgument; let x ← onStr m g.cs; f x) h k := by
  generalize hs : h.content.cs = s at hk
  cases hk with
  | group hk => exact (errs_groupArg (by rw [hs]; exact hk)).bind
  | @length g r hb hl =>
    refine .after (groupArg_of (by rw [hs]; exact hb)) ?_
    exact (Errs.onStr (g := g) (hm g hl)).bind

/-! ### Colours -/

theorem errs_colorOf {g : Str} {h : HSt} (hg : ∀ c ∈ g, c.toNat < 128 ∧ c ≠ '+') (hc : ∀ c, ¬ Colour g c) : Errs (colorOf g) h .unknownColor := by
  unfold colorOf
  cases e : Lex.color g with
  | some c => exact absurd ((C21_colour_partial g c (fun hm => (hg _ hm).2 rfl)).1 e) (hc c)
  | none => exact .fail
  | panic => exact absurd e (C21_no_panic_partial g fun c hm => (hg c hm).1)

theorem errs_colour {β : Type} {f : Sl → H β} {h : HSt} (hk : NoColour h.content.cs k)
    (hf : ∀ sl h', (∀ c ∈ sl.cs, c.toNat < 128 ∧ c ≠ '+') → (∀ c, ¬ Colour sl.cs c) → Errs (f sl) h' .unknownColor) :
    Errs (groupArg .argument >>= f) h k := by
  generalize hs : h.content.cs = s at hk
  cases hk with
  | group hk => exact (errs_groupArg (by rw [hs]; exact hk)).bind
  | @name g r hb hg hc => exact .after (groupArg_of (by rw [hs]; exact hb)) (hf _ _ hg hc)

/-! ### Arguments of `\genfrac` -/

theorem errs_genDelim {h : HSt} (hk : NoGenDelim h.content.cs k) : Errs genfracDelim h k := by
  unfold genfracDelim
  generalize hs : h.content.cs = s at hk
  cases hk with
  | nothing hk => exact (errs_argument (by rw [hs]; exact hk)).bind
  | chr ht hm =>
    obtain ⟨tk, e, hx⟩ := argument_token (h := h) (by rw [hs]; exact ht)
    refine .after e ?_
    cases tk with
    | cs => cases hx
    | chr d ctx =>
      obtain ⟨rfl, -⟩ := hx
      simp only [hm]
      exact .fail
  | cs ht hm =>
    obtain ⟨tk, e, hx⟩ := argument_token (h := h) (by rw [hs]; exact ht)
    refine .after e ?_
    cases tk with
    | chr => cases hx
    | cs d =>
      obtain rfl : d = _ := hx
      simp only [hm]
      exact .fail
  | @group g r hb hg =>
    refine .after (argument_group (by rw [hs]; exact hb)) ?_
    dsimp only
    rw [if_neg (by simpa [Sl.part] using hg)]
    exact .fail

theorem errs_genBar {h : HSt} (hk : NoGenBar h.content.cs k) : Errs genfracBar h k := by
  unfold genfracBar
  generalize hs : h.content.cs = s at hk
  cases hk with
  | group hk =>
    cases hk with
    | nothing hk => exact (errs_argument (by rw [hs]; exact hk)).bind
    | token ht =>
      obtain ⟨tk, e, hx⟩ := argument_token (h := h) (by rw [hs]; exact ht)
      exact .after e .fail
  | @length g r hb hg hl =>
    refine .after (argument_group (by rw [hs]; exact hb)) ?_
    dsimp only
    rw [if_neg (by simpa [Sl.part] using hg)]
    obtain ⟨q, e⟩ := noLength_err hl
    refine Errs.bind (Errs.onStr (g := g) ⟨q, ?_⟩)
    rw [M.run_bind, e]
  | @more g d u r hb hl hu =>
    refine .after (argument_group (by rw [hs]; exact hb)) ?_
    dsimp only
    have hg : g ≠ [] := by
      rintro rfl
      cases length_dimension hl
    rw [if_neg (by simpa [Sl.part] using hg)]
    have : (do let d ← dimension; let l ← M.get; return (d, l) : L (Dim × Str)) g = .ok (d, u) u := by
      rw [M.bind_ok (length_dimension hl), M.get_bind]
      rfl
    refine .after (onStr_of (g := g) this) ?_
    dsimp only
    rw [if_neg (by simpa using hu)]
    exact .fail

theorem styleOf_none {c : Char} (h : c ∉ ['0', '1', '2', '3']) : styleOf c = none := by
  unfold styleOf
  split <;> first | rfl | simp at h

theorem errs_genStyle {h : HSt} (hk : NoGenStyle h.content.cs k) : Errs genfracStyle h k := by
  unfold genfracStyle
  generalize hs : h.content.cs = s at hk
  cases hk with
  | nothing hk => exact (errs_argument (by rw [hs]; exact hk)).bind
  | cs ht =>
    obtain ⟨tk, e, hx⟩ := argument_token (h := h) (by rw [hs]; exact ht)
    refine .after e ?_
    cases tk with
    | chr => cases hx
    | cs => exact .fail
  | chr ht hc =>
    obtain ⟨tk, e, hx⟩ := argument_token (h := h) (by rw [hs]; exact ht)
    refine .after e ?_
    cases tk with
    | cs => cases hx
    | chr d ctx =>
      obtain ⟨rfl, -⟩ := hx
      dsimp only
      rw [styleOf_none hc]
      exact .fail
  | @group g r hb hg =>
    refine .after (argument_group (by rw [hs]; exact hb)) ?_
    dsimp only [Sl.part]
    match g, hg with
    | [], hg => simp at hg
    | [c], hg =>
      dsimp only
      rw [styleOf_none (by simpa using hg)]
      exact .fail
    | _ :: _ :: _, _ => exact .fail

/-! ### Numbers -/

theorem noNumber_err (h : NoNumber s) : ∃ r, unsignedInteger cf s = .err .number r := by
  unfold unsignedInteger
  cases s with
  | nil => exact ⟨_, rfl⟩
  | cons c r =>
    obtain ⟨h1, h2, h3, h4, h5⟩ := h c r rfl
    dsimp only
    rw [if_neg (by simp [h2]), if_neg (by simpa using ascii_size (by omega)), if_neg h3, if_neg h4, if_neg h5]
    exact ⟨_, rfl⟩

/-! ### Environments -/

theorem closing_injective {K K' : GroupingKind} (h : K.closingStr = K'.closingStr) : K = K' := by
  have all : ∀ K : GroupingKind, K ∈ ([.normal, .optionalArgument, .beginEnd, .leftRight, .aligned, .subArray, .alignedat, .gathered, .multline, .split] ++
      [true, false].flatMap (fun b => [.array b, .equation b, .align b, .alignat b, .gather b, .cases b true, .cases b false, .matrix .normal b,
        .matrix .small b, .matrix .parens b, .matrix .brackets b, .matrix .braces b, .matrix .vertical b, .matrix .doubleVertical b]) : List GroupingKind) := by
    rintro (_ | _ | _ | _ | b | ⟨ty, b⟩ | ⟨b, b'⟩ | b | b | _ | _ | b | _ | b | _ | _ | _)
    all_goals first | simp; done | (cases b <;> simp; done) | (cases ty <;> cases b <;> simp)
  have dec : ∀ K ∈ ([.normal, .optionalArgument, .beginEnd, .leftRight, .aligned, .subArray, .alignedat, .gathered, .multline, .split] ++
      [true, false].flatMap (fun b => [.array b, .equation b, .align b, .alignat b, .gather b, .cases b true, .cases b false, .matrix .normal b,
        .matrix .small b, .matrix .parens b, .matrix .brackets b, .matrix .braces b, .matrix .vertical b, .matrix .doubleVertical b]) : List GroupingKind),
      ∀ K' ∈ ([.normal, .optionalArgument, .beginEnd, .leftRight, .aligned, .subArray, .alignedat, .gathered, .multline, .split] ++
      [true, false].flatMap (fun b => [.array b, .equation b, .align b, .alignat b, .gather b, .cases b true, .cases b false, .matrix .normal b,
        .matrix .small b, .matrix .parens b, .matrix .brackets b, .matrix .braces b, .matrix .vertical b, .matrix .doubleVertical b]) : List GroupingKind),
      K.closingStr = K'.closingStr → K = K' := by decide +kernel
  exact dec K (all K) K' (all K') h

theorem errs_optionalAlignment {h : HSt} {g r : Str} (hb : Bracketed h.content.cs g r) (hg : ∀ c a, AlignFor c a → g ≠ [c]) :
    Errs optionalAlignment h .argument := by
  unfold optionalAlignment
  refine .after (optionalArgument_some hb) ?_
  dsimp only [Sl.part]
  rw [if_neg (hg 'c' _ .center), if_neg (hg 'l' _ .left), if_neg (hg 'r' _ .right)]
  exact .fail

theorem columns_bad {p q : Str} {c : Char} {cols : List ArrayCol} (h : ColumnsFor p cols) (hc : ∀ col, ¬ ColumnFor c col) (n : Nat)
    (hn : n + columnCount cols < 65535) : columns cf n (p ++ c :: q) = .error (.inl .argument) := by
  have hc' : columnOf c = none := by
    cases e : columnOf c with
    | none => rfl
    | some col => exact absurd (columnOf_spec.1 e) (hc col)
  induction h generalizing n with
  | nil => rw [List.nil_append, columns_cons cf n c q (by omega), hc']
  | @cons d s col cols hd _ ih =>
    rw [columnCount_cons] at hn
    rw [List.cons_append, columns_cons cf n d _ (by omega), columnOf_spec.2 hd]
    cases col with
    | column a => dsimp only; rw [ih (n + 1) (by simp at hn; omega)]
    | separator a => dsimp only; rw [ih n (by simp at hn; omega)]

theorem errs_array {h : HSt} (hk : NoGroup .argument h.content.cs k) : Errs (arrayEnvironment cf) h k :=
  (errs_groupArg hk).bind

theorem errs_arrayColumns {h : HSt} {g r : Str} {e : ErrorKind} (hb : Braced h.content.cs g r) (he : columns cf 0 g = .error (.inl e)) :
    Errs (arrayEnvironment cf) h e := by
  unfold arrayEnvironment
  refine .after (groupArg_of hb) ?_
  dsimp only [Sl.part]
  rw [he]
  exact .fail

theorem errs_arrayNone {h : HSt} {g r : Str} {cols : List ArrayCol} (hb : Braced h.content.cs g r) (hc : ColumnsFor g cols) (h0 : columnCount cols = 0) :
    Errs (arrayEnvironment cf) h .arrayNoColumns := by
  unfold arrayEnvironment
  refine .after (groupArg_of hb) ?_
  dsimp only [Sl.part]
  rw [columns_of cf hc 0 (by omega)]
  dsimp only
  have : cols.any ArrayCol.isColumn = false := by
    cases e : cols.any ArrayCol.isColumn with
    | false => rfl
    | true => have := (columnCount_any cols).1 e; omega
  rw [if_pos (by rw [this]; rfl)]
  exact .fail

theorem errs_pairs {h : HSt} {g : Nat → Grouping} {K : GroupingKind} (hk : NoGroup .argument h.content.cs k) : Errs (alignatEnv cf g K) h k :=
  ((errs_groupArg hk).bind : Errs (pairsArg cf) h k).bind

theorem errs_pairsNumber {h : HSt} {f : Nat → Grouping} {K : GroupingKind} {g r : Str} (hb : Braced h.content.cs g r) (hn : NoNumber g) :
    Errs (alignatEnv cf f K) h .number := by
  unfold alignatEnv pairsArg
  refine Errs.bind (.after (groupArg_of hb) ?_)
  exact (Errs.onStr (g := g) (noNumber_err hn)).bind

theorem errs_subarray {h : HSt} (hk : NoGroup .argument h.content.cs k) : Errs subarrayAlign h k := by
  unfold subarrayAlign
  generalize hs : h.content.cs = s at hk
  cases hk with
  | nothing hk => exact (errs_argument (by rw [hs]; exact hk)).bind
  | token ht =>
    obtain ⟨tk, e, -⟩ := argument_token (h := h) (by rw [hs]; exact ht)
    exact .after e .fail

theorem errs_subarrayAlign {h : HSt} {g r : Str} (hb : Braced h.content.cs g r) (hg : ∀ c a, AlignFor c a → g ≠ [c]) : Errs subarrayAlign h .argument := by
  unfold subarrayAlign
  refine .after (argument_group hb) ?_
  dsimp only [Sl.part]
  rw [if_neg (hg 'l' _ .left), if_neg (hg 'c' _ .center), if_neg (hg 'r' _ .right)]
  exact .fail

theorem errs_envArgs {h : HSt} {name : Str} (hk : NoEnvArgs name h.content.cs k) : ∃ m, (environments cf).lookup name = some m ∧ Errs m h k := by
  generalize hs : h.content.cs = s at hk
  cases hk with
  | starred hm hb hg =>
    have he := errs_optionalAlignment (h := h) (by rw [hs]; exact hb) hg
    simp only [starredMatrices, List.mem_cons, List.not_mem_nil, or_false, Prod.mk.injEq] at hm
    rcases hm with ⟨rfl, -⟩ | ⟨rfl, -⟩ | ⟨rfl, -⟩ | ⟨rfl, -⟩ | ⟨rfl, -⟩ | ⟨rfl, -⟩ <;> exact ⟨_, rfl, he.bind⟩
  | array hm hk =>
    have he := errs_array (cf := cf) (h := h) (by rw [hs]; exact hk)
    simp only [arrayEnvironments, List.mem_cons, List.not_mem_nil, or_false, Prod.mk.injEq] at hm
    rcases hm with ⟨rfl, -⟩ | ⟨rfl, -⟩ <;> exact ⟨_, rfl, he.bind⟩
  | column hm hb hp hn hc =>
    have he := errs_arrayColumns (cf := cf) (h := h) (by rw [hs]; exact hb) (columns_bad hp hc 0 (by omega))
    simp only [arrayEnvironments, List.mem_cons, List.not_mem_nil, or_false, Prod.mk.injEq] at hm
    rcases hm with ⟨rfl, -⟩ | ⟨rfl, -⟩ <;> exact ⟨_, rfl, he.bind⟩
  | noColumns hm hb hp h0 =>
    have he := errs_arrayNone (cf := cf) (h := h) (by rw [hs]; exact hb) hp h0
    simp only [arrayEnvironments, List.mem_cons, List.not_mem_nil, or_false, Prod.mk.injEq] at hm
    rcases hm with ⟨rfl, -⟩ | ⟨rfl, -⟩ <;> exact ⟨_, rfl, he.bind⟩
  | pairs hm hk =>
    simp only [pairEnvironments, List.mem_cons, List.not_mem_nil, or_false, Prod.mk.injEq] at hm
    rcases hm with ⟨rfl, -⟩ | ⟨rfl, -⟩ | ⟨rfl, -⟩ <;> exact ⟨_, rfl, errs_pairs (by rw [hs]; exact hk)⟩
  | noNumber hm hb hn =>
    simp only [pairEnvironments, List.mem_cons, List.not_mem_nil, or_false, Prod.mk.injEq] at hm
    rcases hm with ⟨rfl, -⟩ | ⟨rfl, -⟩ | ⟨rfl, -⟩ <;> exact ⟨_, rfl, errs_pairsNumber (by rw [hs]; exact hb) hn⟩
  | subarray hk => exact ⟨_, rfl, (errs_subarray (by rw [hs]; exact hk)).bind⟩
  | noAlignment hb hg => exact ⟨_, rfl, (errs_subarrayAlign (by rw [hs]; exact hb) hg).bind⟩

end PL.Formula
