import Verif.Spec.Environment
import Verif.Props.Integers
import Verif.Props.Lines
set_option autoImplicit false
/-!
# Environments (C49)
-/
namespace PL.Props
open PL PL.Lex Spec PL.H

theorem argument_group_iff {s g r : Str} : Lex.argument s = .ok (.group g) r ↔ Braced s g r := by
  rw [← braceArgument_iff]
  unfold Lex.argument Lex.braceArgument
  split
  · rename_i t _
    simp only [bind, M.bind]
    cases Lex.groupContent .normal t with
    | ok a r' => constructor <;> · intro h; cases h; rfl
    | err e r' => constructor <;> · intro h; cases h
    | panic p => constructor <;> · intro h; cases h
  · simp only [bind, M.bind]
    constructor
    · intro h
      split at h
      · cases h
      · cases h
      · cases h
    · intro h; cases h

theorem groupArg_iff {e : ErrorKind} {s s' : HSt} {g : Sl} : groupArg e s = .ok g s' ↔
    ∃ t r, Braced s.content.cs t r ∧ g = s.content.part t 1 r ∧ s' = { s with content := { s.content with cs := r } } := by
  unfold groupArg
  rw [M.run_bind]
  unfold H.argument
  constructor
  · intro h
    cases ha : Lex.argument s.content.cs with
    | ok a r =>
      rw [ha] at h
      cases a with
      | token t => cases h
      | group t => cases h; exact ⟨t, r, argument_group_iff.1 ha, rfl, rfl⟩
    | err e r => rw [ha] at h; cases h
    | panic p => rw [ha] at h; cases h
  · rintro ⟨t, r, h, rfl, rfl⟩
    rw [argument_group_iff.2 h]
    rfl

theorem columnCount_cons (c : ArrayCol) (cols : List ArrayCol) :
    columnCount (c :: cols) = (match c with | .column _ => 1 | .separator _ => 0) + columnCount cols := by
  cases c <;> simp [columnCount, Nat.add_comm]

theorem columnCount_any (cols : List ArrayCol) : cols.any ArrayCol.isColumn = true ↔ 0 < columnCount cols := by
  induction cols with
  | nil => simp [columnCount]
  | cons c cols ih =>
    rw [columnCount_cons, List.any_cons, Bool.or_eq_true, ih]
    cases c <;> simp [ArrayCol.isColumn] 

theorem columns_of (cf : Cfg) {s : Str} {cols : List ArrayCol} (h : ColumnsFor s cols) (n : Nat) (hn : n + columnCount cols < 65535) :
    columns cf n s = .ok (cols, n + columnCount cols) := by
  induction h generalizing n with
  | nil => rfl
  | @cons c s col cols hc _ ih =>
    rw [columnCount_cons] at hn ⊢
    rw [columns_cons cf n c s (by omega), columnOf_spec.2 hc]
    cases col with
    | column a =>
      simp only at hn ⊢
      rw [ih (n + 1) (by omega)]
      simp only [Nat.add_assoc]
    | separator a =>
      simp only at hn ⊢
      rw [ih n (by omega)]
      simp only [Nat.zero_add]

theorem columnCount_le {s : Str} {cols : List ArrayCol} (h : ColumnsFor s cols) : columnCount cols ≤ s.length := by
  induction h with
  | nil => exact Nat.le_refl _
  | @cons c s col cols hc _ ih =>
    rw [columnCount_cons, List.length_cons]
    cases col <;> simp only <;> omega

/-- The opening and closing strings of a kind are those of the name. -/
def Named (name : Str) (k : GroupingKind) : Prop :=
  k.openingStr = c!"\\begin{" ++ name ++ c!"}" ∧ k.closingStr = c!"\\end{" ++ name ++ c!"}"

/-- A shape is what an environment of the model selects. -/
def Env.shape (e : Env) : EnvShape := ⟨e.g, e.max, e.style, e.wrap⟩

theorem arrayEnvironment_of {cf : Cfg} {s : HSt} {g r : Str} {cols : List ArrayCol} (h : Braced s.content.cs g r) (hc : ColumnsFor g cols)
    (h0 : 0 < columnCount cols) (hn : columnCount cols < 65535) :
    arrayEnvironment cf s = .ok (.array cols, columnCount cols - 1) { s with content := { s.content with cs := r } } := by
  unfold arrayEnvironment
  rw [M.bind_ok (groupArg_iff.2 ⟨g, r, h, rfl, rfl⟩)]
  rw [show (s.content.part g 1 r).cs = g from rfl, columns_of cf hc 0 (by omega)]
  dsimp only
  rw [(columnCount_any cols).2 h0]
  simp only [Nat.zero_add]
  rfl

theorem alignatEnv_of {cf : Cfg} {f : Nat → Grouping} {k : GroupingKind} {s : HSt} {g r u : Str} {n : Nat} (h : Braced s.content.cs g r)
    (hc : IntConst g n u) (hn : n < 32768) :
    alignatEnv cf f k s = .ok { g := f n, max := 2 * n - 1, kind := k } { s with content := { s.content with cs := r } } := by
  have e : unsignedInteger cf g = .ok n u := (C51_integer cf g u n).2 ⟨n, hc, .inl (by omega), (Nat.mod_eq_of_lt (by omega)).symm⟩
  unfold alignatEnv
  rw [M.bind_ok (m := pairsArg cf) (a := n) (s' := { s with content := { s.content with cs := r } })
    (by
      unfold pairsArg
      rw [M.bind_ok (groupArg_iff.2 ⟨g, r, h, rfl, rfl⟩)]
      rw [M.bind_ok (a := n) (s' := { s with content := { s.content with cs := r } })
        (by unfold H.onStr; rw [show (s.content.part g 1 r).cs = g from rfl, e])]
      rw [Nat.mod_eq_of_lt (by omega)]
      rfl)]
  unfold pairsMax
  rw [if_pos (by omega), Nat.mul_comm]
  rfl

theorem optionalAlignment_default {s : HSt} {r : Str} (h : NoOptional s.content.cs r) :
    optionalAlignment s = .ok .center { s with content := { s.content with cs := r } } := by
  unfold optionalAlignment
  rw [M.bind_ok (m := H.optionalArgument) (a := none) (s' := { s with content := { s.content with cs := r } })
    (by unfold H.optionalArgument; rw [noOptional_iff.2 h]; rfl)]
  rfl

theorem optionalAlignment_of {s : HSt} {c : Char} {a : ColAlign} {r : Str} (h : Bracketed s.content.cs [c] r) (ha : AlignFor c a) :
    optionalAlignment s = .ok a { s with content := { s.content with cs := r } } := by
  unfold optionalAlignment
  rw [M.bind_ok (m := H.optionalArgument) (a := some (s.content.part [c] 1 r)) (s' := { s with content := { s.content with cs := r } })
    (by unfold H.optionalArgument; rw [bracketed_iff.2 h]; rfl)]
  cases ha <;> rfl

theorem subarrayAlign_of {s : HSt} {c : Char} {a : ColAlign} {r : Str} (h : Braced s.content.cs [c] r) (ha : AlignFor c a) :
    subarrayAlign s = .ok a { s with content := { s.content with cs := r } } := by
  unfold subarrayAlign
  rw [M.bind_ok (m := H.argument) (a := .group (s.content.part [c] 1 r)) (s' := { s with content := { s.content with cs := r } })
    (by unfold H.argument; rw [argument_group_iff.2 h]; rfl)]
  cases ha <;> rfl

theorem matrixEnv_of {ty : MatrixType} {st : Option Style} {w : Option (Char × Char)} {s s' : HSt} {a : ColAlign}
    (h : optionalAlignment s = .ok a s') : matrixEnv ty true st w s = .ok { g := .matrix a, max := 65535, kind := .matrix ty true, style := st, wrap := w } s' := by
  unfold matrixEnv
  rw [if_pos rfl, M.bind_ok h]
  rfl

/-- The table has what the specification says. -/
theorem select_of (cf : Cfg) {name : Str} {s : HSt} {sh : EnvShape} {r : Str} (h : Selects name s.content.cs sh r) :
    ∃ m env, (environments cf).lookup name = some m ∧ m s = .ok env { s with content := { s.content with cs := r } } ∧ Env.shape env = sh ∧
      Named name env.kind := by
  cases h with
  | @plain _ sh _ h =>
    simp only [plainEnvironments, List.mem_cons, List.not_mem_nil, or_false, Prod.mk.injEq] at h
    rcases h with ⟨rfl, rfl⟩ | ⟨rfl, rfl⟩ | ⟨rfl, rfl⟩ | ⟨rfl, rfl⟩ | ⟨rfl, rfl⟩ | ⟨rfl, rfl⟩ | ⟨rfl, rfl⟩ | ⟨rfl, rfl⟩ | ⟨rfl, rfl⟩ |
      ⟨rfl, rfl⟩ | ⟨rfl, rfl⟩ | ⟨rfl, rfl⟩ | ⟨rfl, rfl⟩ | ⟨rfl, rfl⟩ | ⟨rfl, rfl⟩ | ⟨rfl, rfl⟩ | ⟨rfl, rfl⟩ | ⟨rfl, rfl⟩ |
      ⟨rfl, rfl⟩ | ⟨rfl, rfl⟩ | ⟨rfl, rfl⟩ <;> exact ⟨_, _, rfl, rfl, rfl, rfl, rfl⟩
  | @default _ w _ _ h hb =>
    have := optionalAlignment_default hb
    simp only [starredMatrices, List.mem_cons, List.not_mem_nil, or_false, Prod.mk.injEq] at h
    rcases h with ⟨rfl, rfl⟩ | ⟨rfl, rfl⟩ | ⟨rfl, rfl⟩ | ⟨rfl, rfl⟩ | ⟨rfl, rfl⟩ | ⟨rfl, rfl⟩ <;>
      exact ⟨_, _, rfl, matrixEnv_of this, rfl, rfl, rfl⟩
  | @aligned _ w _ c a _ h hb ha =>
    have := optionalAlignment_of hb ha
    simp only [starredMatrices, List.mem_cons, List.not_mem_nil, or_false, Prod.mk.injEq] at h
    rcases h with ⟨rfl, rfl⟩ | ⟨rfl, rfl⟩ | ⟨rfl, rfl⟩ | ⟨rfl, rfl⟩ | ⟨rfl, rfl⟩ | ⟨rfl, rfl⟩ <;>
      exact ⟨_, _, rfl, matrixEnv_of this, rfl, rfl, rfl⟩
  | @array _ st _ g cols _ h hb hc h0 hn =>
    have e := arrayEnvironment_of (cf := cf) hb hc h0 hn
    simp only [arrayEnvironments, List.mem_cons, List.not_mem_nil, or_false, Prod.mk.injEq] at h
    rcases h with ⟨rfl, rfl⟩ | ⟨rfl, rfl⟩
    · exact ⟨_, { g := .array cols, max := columnCount cols - 1, kind := .array false }, rfl, by rw [M.bind_ok e]; rfl, rfl, rfl, rfl⟩
    · exact ⟨_, { g := .array cols, max := columnCount cols - 1, kind := .array true, style := some .display }, rfl, by rw [M.bind_ok e]; rfl, rfl, rfl, rfl⟩
  | @pairs _ f _ g n u _ h hb hc hn =>
    simp only [pairEnvironments, List.mem_cons, List.not_mem_nil, or_false, Prod.mk.injEq] at h
    rcases h with ⟨rfl, rfl⟩ | ⟨rfl, rfl⟩ | ⟨rfl, rfl⟩ <;>
      exact ⟨_, _, rfl, alignatEnv_of hb hc hn, rfl, rfl, rfl⟩
  | @subarray _ c a _ hb ha =>
    exact ⟨_, { g := .subArray a, max := 0, kind := .subArray }, rfl, by rw [M.bind_ok (subarrayAlign_of hb ha)]; rfl, rfl, rfl, rfl⟩

theorem primOf_begin : primOf c!"begin" = .begin_ := by decide +kernel

/-- `\begin{name}`, the arguments of the environment, lines, and a content that `\end{name}` closes: exactly the documented group is opened around
the content, with the documented alignments, style and delimiters. -/
theorem C49_begin (cf : Cfg) (k : Nat) (s : HSt) (name r0 : Str) (sh : EnvShape) (r1 : Str) (ls : List Line) (r2 X v : Str)
    (hn : Braced s.content.cs name r0) (hs : Selects name r0 sh r1) (hl : WordSeq lineWords r1 ls r2)
    (hb : Split (c!"\\begin{" ++ name ++ c!"}") (c!"\\end{" ++ name ++ c!"}") 0 r2 X v) :
    ∃ x : Sl, x.cs = X ∧ handleToken cf (k + 1) (.cs c!"begin") s =
      .ok ⟨⟩ { s with content := { s.content with cs := v }, buf := s.buf ++ shapeOf sh ls x } := by
  obtain ⟨m, env, h1, h2, rfl, h4, h5⟩ := select_of cf (s := { s with content := { s.content with cs := r0 } }) hs
  obtain ⟨x, hx, h⟩ := C44_begin cf (handleToken cf k) s _ _ _ m env ls r2 X v (groupArg_iff.2 ⟨name, r0, hn, rfl, rfl⟩) h1 h2 hl
    (by rw [h4, h5]; exact hb)
  refine ⟨x, hx, ?_⟩
  show execPrim cf (handleToken cf k) (primOf c!"begin") s = _
  rw [primOf_begin, h]
  rfl

theorem bind_inv {σ α β : Type} {m : M σ α} {f : α → M σ β} {s s' : σ} {b : β} (h : (m >>= f) s = .ok b s') :
    ∃ a s1, m s = .ok a s1 ∧ f a s1 = .ok b s' := by
  rw [M.run_bind] at h
  split at h
  · exact ⟨_, _, ‹_›, h⟩
  · cases h
  · cases h

theorem arrayEnvironment_inv {cf : Cfg} {s s' : HSt} {g : Grouping} {n : Nat} (h : arrayEnvironment cf s = .ok (g, n) s') :
    ∃ t cols r, s' = { s with content := { s.content with cs := r } } ∧ Braced s.content.cs t r ∧ ColumnsFor t cols ∧ 0 < columnCount cols ∧
      g = .array cols ∧ (t.length < 65535 → n = columnCount cols - 1) := by
  unfold arrayEnvironment at h
  obtain ⟨x, s1, h1, h2⟩ := bind_inv h
  obtain ⟨t, r, hb, rfl, rfl⟩ := groupArg_iff.1 h1
  rw [show (s.content.part t 1 r).cs = t from rfl] at h2
  cases hk : columns cf 0 t with
  | error x => rw [hk] at h2; cases x <;> cases h2
  | ok x =>
    obtain ⟨cols, k⟩ := x
    rw [hk] at h2
    dsimp only at h2
    split at h2
    · cases h2
    · rename_i hany
      cases h2
      have hc := C11_columns_accepted cf t cols 0 k hk
      refine ⟨t, cols, r, rfl, hb, hc, (columnCount_any cols).1 (by simpa using hany), rfl, fun hl => ?_⟩
      have := columnCount_le hc
      rw [columns_of cf hc 0 (by omega)] at hk
      cases hk
      rw [Nat.zero_add]

theorem alignatEnv_inv {cf : Cfg} {f : Nat → Grouping} {k : GroupingKind} {s s' : HSt} {env : Env} (h : alignatEnv cf f k s = .ok env s') :
    ∃ t n u r, s' = { s with content := { s.content with cs := r } } ∧ env.kind = k ∧ Braced s.content.cs t r ∧ IntConst t n u ∧
      (n < 32768 → Env.shape env = ⟨f n, 2 * n - 1, none, none⟩) := by
  unfold alignatEnv at h
  obtain ⟨p, s1, h1, h2⟩ := bind_inv h
  obtain ⟨q, s2, h3, h4⟩ := bind_inv h2
  cases h4
  unfold pairsArg at h1
  obtain ⟨x, s3, h5, h6⟩ := bind_inv h1
  obtain ⟨t, r, hb, rfl, rfl⟩ := groupArg_iff.1 h5
  obtain ⟨i, s4, h7, h8⟩ := bind_inv h6
  cases h8
  unfold H.onStr at h7
  rw [show (s.content.part t 1 r).cs = t from rfl] at h7
  split at h7
  · rename_i a u hu
    cases h7
    obtain ⟨n, hn, _, rfl⟩ := (C51_integer cf t u _).1 hu
    have e : s' = { s with content := { s.content with cs := r } } := by
      unfold pairsMax at h3
      split at h3
      · cases h3; rfl
      · split at h3 <;> cases h3; rfl
    refine ⟨t, n, u, r, e, rfl, hb, hn, fun hl => ?_⟩
    have : n % 2 ^ 64 % 2 ^ 16 = n := by omega
    unfold pairsMax at h3
    rw [this] at h3
    rw [if_pos (by omega)] at h3
    cases h3
    simp only [Env.shape, this, Nat.mul_comm]
  · cases h7
  · cases h7

theorem alignFor_of {g : Str} {a : ColAlign} (h : g = c!"c" ∧ a = .center ∨ g = c!"l" ∧ a = .left ∨ g = c!"r" ∧ a = .right) :
    ∃ c, g = [c] ∧ AlignFor c a := by
  rcases h with ⟨rfl, rfl⟩ | ⟨rfl, rfl⟩ | ⟨rfl, rfl⟩
  · exact ⟨_, rfl, .center⟩
  · exact ⟨_, rfl, .left⟩
  · exact ⟨_, rfl, .right⟩

theorem optionalAlignment_inv {s s' : HSt} {a : ColAlign} (h : optionalAlignment s = .ok a s') :
    ∃ r, s' = { s with content := { s.content with cs := r } } ∧ ((∃ c, Bracketed s.content.cs [c] r ∧ AlignFor c a) ∨
      a = .center ∧ NoOptional s.content.cs r) := by
  unfold optionalAlignment at h
  obtain ⟨x, s1, h1, h2⟩ := bind_inv h
  unfold H.optionalArgument at h1
  cases ho : Lex.optionalArgument s.content.cs with
  | ok g r =>
    rw [ho] at h1
    cases g with
    | none =>
      cases h1
      cases h2
      exact ⟨r, rfl, .inr ⟨rfl, noOptional_iff.1 ho⟩⟩
    | some g =>
      cases h1
      have hb := bracketed_iff.1 ho
      replace h2 : (if g = c!"c" then pure ColAlign.center else if g = c!"l" then pure ColAlign.left
        else if g = c!"r" then pure ColAlign.right else M.fail .argument : H ColAlign) { s with content := { s.content with cs := r } } = .ok a s' := h2
      refine ⟨r, ?_, .inl ?_⟩
      · split at h2
        · cases h2; rfl
        · split at h2
          · cases h2; rfl
          · split at h2 <;> cases h2; rfl
      · obtain ⟨c, rfl, hc⟩ := alignFor_of (g := g) (a := a) (by
          split at h2
          · cases h2; exact .inl ⟨‹_›, rfl⟩
          · split at h2
            · cases h2; exact .inr (.inl ⟨‹_›, rfl⟩)
            · split at h2
              · cases h2; exact .inr (.inr ⟨‹_›, rfl⟩)
              · cases h2)
        exact ⟨c, hb, hc⟩
  | err e r => rw [ho] at h1; cases h1
  | panic p => rw [ho] at h1; cases h1

theorem subarrayAlign_inv {s s' : HSt} {a : ColAlign} (h : subarrayAlign s = .ok a s') :
    ∃ r c, s' = { s with content := { s.content with cs := r } } ∧ Braced s.content.cs [c] r ∧ AlignFor c a := by
  unfold subarrayAlign at h
  obtain ⟨x, s1, h1, h2⟩ := bind_inv h
  unfold H.argument at h1
  cases ho : Lex.argument s.content.cs with
  | ok y r =>
    rw [ho] at h1
    cases y with
    | token t => cases h1; cases h2
    | group g =>
      cases h1
      have hb := argument_group_iff.1 ho
      simp only [HArg.ofArg] at h2
      rw [show (s.content.part g 1 r).cs = g from rfl] at h2
      have hs : s' = { s with content := { s.content with cs := r } } := by
        split at h2
        · cases h2; rfl
        · split at h2
          · cases h2; rfl
          · split at h2 <;> cases h2; rfl
      obtain ⟨c, rfl, hc⟩ := alignFor_of (g := g) (a := a) (by
          split at h2
          · cases h2; exact .inr (.inl ⟨‹_›, rfl⟩)
          · split at h2
            · cases h2; exact .inl ⟨‹_›, rfl⟩
            · split at h2
              · cases h2; exact .inr (.inr ⟨‹_›, rfl⟩)
              · cases h2)
      exact ⟨r, c, hs, hb, hc⟩
  | err e r => rw [ho] at h1; cases h1
  | panic p => rw [ho] at h1; cases h1

/-- What an entry of the table may do. -/
def Entry (name : Str) (m : H Env) : Prop := ∀ (s s' : HSt) (env : Env), m s = .ok env s' →
  ∃ r, s' = { s with content := { s.content with cs := r } } ∧ Named name env.kind ∧
    (Selects name s.content.cs (Env.shape env) r ∨ Degenerate name s.content.cs)

theorem entry_pure {name : Str} {env : Env} (h : (name, Env.shape env) ∈ plainEnvironments) (hn : Named name env.kind) : Entry name (pure env) := by
  intro s s' env' h'
  cases h'
  exact ⟨s.content.cs, rfl, hn, .inl (.plain h)⟩

theorem entry_starred {name : Str} {ty : MatrixType} {w : Option (Char × Char)} (h : (name, w) ∈ starredMatrices) (hn : Named name (.matrix ty true)) :
    Entry name (matrixEnv ty true none w) := by
  intro s s' env h'
  unfold matrixEnv at h'
  obtain ⟨a, s1, h1, h2⟩ := bind_inv h'
  cases h2
  obtain ⟨r, rfl, h3⟩ := optionalAlignment_inv h1
  refine ⟨r, rfl, hn, ?_⟩
  rcases h3 with ⟨c, h3, h4⟩ | ⟨rfl, h3⟩
  · exact .inl (.aligned h h3 h4)
  · exact .inl (.default h h3)

theorem entry_array {cf : Cfg} {name : Str} {k : GroupingKind} {z : Option Style} (h : (name, z) ∈ arrayEnvironments) (hn : Named name k) :
    Entry name (do let (g, n) ← arrayEnvironment cf; return { g := g, max := n, kind := k, style := z }) := by
  intro s s' env h'
  obtain ⟨⟨g, n⟩, s1, h1, h2⟩ := bind_inv h'
  cases h2
  obtain ⟨t, cols, r, rfl, hb, hc, h0, rfl, hl⟩ := arrayEnvironment_inv h1
  refine ⟨r, rfl, hn, ?_⟩
  by_cases ht : t.length < 65535
  · have := hl ht
    subst this
    exact .inl (.array h hb hc h0 (Nat.lt_of_le_of_lt (columnCount_le hc) ht))
  · exact .inr (.columns h hb (by omega))

theorem entry_pairs {cf : Cfg} {name : Str} {k : GroupingKind} {f : Nat → Grouping} (h : (name, f) ∈ pairEnvironments) (hn : Named name k) :
    Entry name (alignatEnv cf f k) := by
  intro s s' env h'
  obtain ⟨t, n, u, r, rfl, rfl, hb, hc, hl⟩ := alignatEnv_inv h'
  refine ⟨r, rfl, hn, ?_⟩
  by_cases ht : n < 32768
  · rw [hl ht]
    exact .inl (.pairs h hb hc ht)
  · exact .inr (.pairs h hb hc (by omega))

theorem entry_all (cf : Cfg) : ∀ x ∈ environments cf, Entry x.1 x.2 := by
  have subarr : Entry c!"subarray" (do let a ← subarrayAlign; return { g := .subArray a, max := 0, kind := .subArray }) := by
    intro s s' env h'
    obtain ⟨a, s1, h1, h2⟩ := bind_inv h'
    cases h2
    obtain ⟨r, c, rfl, hb, hc⟩ := subarrayAlign_inv h1
    exact ⟨r, rfl, ⟨rfl, rfl⟩, .inl (.subarray hb hc)⟩
  have mat : ∀ {name : Str} {ty : MatrixType} {z : Option Style} {w : Option (Char × Char)}, (name, ⟨.matrix .center, 65535, z, w⟩) ∈ plainEnvironments →
      Named name (.matrix ty false) → Entry name (matrixEnv ty false z w) := by
    intro name ty z w h hn
    exact entry_pure (env := { g := .matrix .center, max := 65535, kind := .matrix ty false, style := z, wrap := w }) h hn
  intro x hx
  simp only [environments, List.mem_cons, List.not_mem_nil, or_false] at hx
  rcases hx with rfl | rfl | hx
  · exact entry_array (by simp [arrayEnvironments]) ⟨rfl, rfl⟩
  · exact entry_array (by simp [arrayEnvironments]) ⟨rfl, rfl⟩
  · rcases hx with rfl | rfl | rfl | rfl | rfl | rfl | rfl | rfl | rfl | rfl | rfl | rfl | rfl | rfl | rfl | rfl | rfl |
      rfl | rfl | rfl | rfl | rfl | rfl | rfl | rfl | rfl | rfl | rfl | rfl | rfl | rfl <;>
    first
      | exact subarr
      | exact entry_pure (by simp [plainEnvironments, Env.shape, u16Max]) ⟨rfl, rfl⟩
      | exact mat (by simp [plainEnvironments]) ⟨rfl, rfl⟩
      | exact entry_starred (by simp [starredMatrices]) ⟨rfl, rfl⟩
      | exact entry_pairs (by simp [pairEnvironments]) ⟨rfl, rfl⟩

theorem begin_inv {cf : Cfg} {s s' : HSt} (h : beginEnv cf s = .ok ⟨⟩ s') : ∃ name r0 m env s2 ls r2 X v x, Braced s.content.cs name r0 ∧
    (environments cf).lookup name = some m ∧ m { s with content := { s.content with cs := r0 } } = .ok env s2 ∧
    WordSeq lineWords s2.content.cs ls r2 ∧ Split env.kind.openingStr env.kind.closingStr 0 r2 X v ∧ x.cs = X ∧
    s' = { s2 with content := { s2.content with cs := v }, buf := s2.buf ++ shapeOf (Env.shape env) ls x } := by
  unfold beginEnv at h
  obtain ⟨nm, s1, h1, h2⟩ := bind_inv h
  obtain ⟨name, r0, hb, rfl, rfl⟩ := groupArg_iff.1 h1
  rw [show (s.content.part name 1 r0).cs = name from rfl] at h2
  cases hm : (environments cf).lookup name with
  | none => rw [hm] at h2; cases h2
  | some m =>
    rw [hm] at h2
    obtain ⟨env, s2, h3, h4⟩ := bind_inv h2
    have key : ∀ s3, (s3 = { s2 with buf := s2.buf ++ (match env.wrap with | some (l, r) => [.ev (.begin_ (.leftRight (some l) (some r)))] | none => []) }) →
        (do
          let lines ← lexPure horizontalLines
          let content ← groupContent env.kind
          push ([.ev (.begin_ env.g)] ++
            (match env.style with
              | some s => [.ev (.stateChange (.style s))]
              | none => []) ++
            (if lines.isEmpty then [] else [.ev (.flow (.startLines lines))]) ++
            [.sub content (some ⟨0, env.max⟩), .ev .end_] ++
            (if env.wrap.isSome then [.ev .end_] else [])) : H PUnit) s3 = .ok ⟨⟩ s' →
        ∃ ls r2 X v x, WordSeq lineWords s2.content.cs ls r2 ∧ Split env.kind.openingStr env.kind.closingStr 0 r2 X v ∧ x.cs = X ∧
          s' = { s2 with content := { s2.content with cs := v }, buf := s2.buf ++ shapeOf (Env.shape env) ls x } := by
      rintro _ rfl h5
      obtain ⟨ls, s4, h6, h7⟩ := bind_inv h5
      obtain ⟨X, s5, h8, h9⟩ := bind_inv h7
      cases h6
      unfold H.groupContent at h8
      dsimp only at h8
      split at h8
      · rename_i g v hg
        cases h8
        refine ⟨(horizontalLines s2.content.cs).1, (horizontalLines s2.content.cs).2, g, v, s2.content.part g (blen env.kind.closingStr) v, horizontalLines_of.1 rfl, groupContent_ok.1 hg, rfl, ?_⟩
        cases h9
        clear h h2 h4 h5 h7
        unfold shapeOf Env.shape
        dsimp only
        generalize (horizontalLines s2.content.cs).1 = ls
        generalize env.style = st
        generalize env.wrap = wr
        cases st <;> cases wr <;> cases ls <;> simp [Sl.part]
      · cases h8
      · cases h8
    have : ∃ s3, (s3 = { s2 with buf := s2.buf ++ (match env.wrap with | some (l, r) => [.ev (.begin_ (.leftRight (some l) (some r)))] | none => []) }) ∧
        (do
          let lines ← lexPure horizontalLines
          let content ← groupContent env.kind
          push ([.ev (.begin_ env.g)] ++
            (match env.style with
              | some s => [.ev (.stateChange (.style s))]
              | none => []) ++
            (if lines.isEmpty then [] else [.ev (.flow (.startLines lines))]) ++
            [.sub content (some ⟨0, env.max⟩), .ev .end_] ++
            (if env.wrap.isSome then [.ev .end_] else [])) : H PUnit) s3 = .ok ⟨⟩ s' := by
      cases hw : env.wrap with
      | none =>
        rw [hw] at h4
        exact ⟨_, rfl, by dsimp only; rw [List.append_nil]; exact h4⟩
      | some lr =>
        obtain ⟨l, r⟩ := lr
        rw [hw] at h4
        exact ⟨_, rfl, h4⟩
    obtain ⟨s3, e3, h5⟩ := this
    obtain ⟨ls, r2, X, v, x, a1, a2, a3, a4⟩ := key s3 e3 h5
    exact ⟨name, r0, m, env, s2, ls, r2, X, v, x, hb, hm, h3, a1, a2, a3, a4⟩

/-- Conversely, `\begin` succeeds only so: the environment is one of the table, its content ends at the matching `\end` of the same name, and the
group is the documented one unless the arguments are degenerate. -/
theorem C49_only (cf : Cfg) (k : Nat) (s s' : HSt) (h : handleToken cf (k + 1) (.cs c!"begin") s = .ok ⟨⟩ s') :
    ∃ name r0 sh r1 ls r2 X v x, Braced s.content.cs name r0 ∧ (Selects name r0 sh r1 ∨ Degenerate name r0) ∧ WordSeq lineWords r1 ls r2 ∧
      Split (c!"\\begin{" ++ name ++ c!"}") (c!"\\end{" ++ name ++ c!"}") 0 r2 X v ∧ x.cs = X ∧
      s' = { s with content := { s.content with cs := v }, buf := s.buf ++ shapeOf sh ls x } := by
  replace h : execPrim cf (handleToken cf k) (primOf c!"begin") s = .ok ⟨⟩ s' := h
  rw [primOf_begin] at h
  obtain ⟨name, r0, m, env, s2, ls, r2, X, v, x, hb, hm, he, hl, hs, hx, rfl⟩ := begin_inv h
  obtain ⟨r1, rfl, ⟨h4, h5⟩, h6⟩ := entry_all cf _ (mem_of_lookup hm) _ _ _ he
  rw [h4, h5] at hs
  exact ⟨name, r0, _, r1, ls, r2, X, v, x, hb, h6, hl, hs, hx, rfl⟩

theorem environments_names (cf : Cfg) (name : Str) : (environments cf).lookup name = none ↔ name ∉ environmentNames := by
  have : ∀ l : List (Str × H Env), l.lookup name = none ↔ name ∉ l.map (·.1) := by
    intro l
    induction l with
    | nil => simp
    | cons x l ih =>
      obtain ⟨a, m⟩ := x
      rw [List.lookup_cons]
      by_cases e : name = a
      · subst e; simp
      · have : (name == a) = false := by simpa using e
        rw [this]
        simp [ih, e]
  rw [this]
  have e : ∀ x, x ∈ (environments cf).map (·.1) ↔ x ∈ environmentNames := by
    intro x
    have h1 : ((environments cf).map (·.1)).all (· ∈ environmentNames) = true := by rfl
    have h2 : environmentNames.all (· ∈ (environments cf).map (·.1)) = true := by rfl
    rw [List.all_eq_true] at h1 h2
    exact ⟨fun h => of_decide_eq_true (h1 x h), fun h => of_decide_eq_true (h2 x h)⟩
  rw [e]

/-- Another name is an error, and nothing is emitted. -/
theorem C49_unknown (cf : Cfg) (k : Nat) (s : HSt) (name r0 : Str) (hn : Braced s.content.cs name r0) (h : name ∉ environmentNames) :
    handleToken cf (k + 1) (.cs c!"begin") s = .err .environment { s with content := { s.content with cs := r0 } } := by
  show execPrim cf (handleToken cf k) (primOf c!"begin") s = _
  rw [primOf_begin]
  show beginEnv cf s = _
  unfold beginEnv
  rw [M.bind_ok (groupArg_iff.2 ⟨name, r0, hn, rfl, rfl⟩), show (s.content.part name 1 r0).cs = name from rfl, (environments_names cf name).2 h]
  rfl

/-- Cases: one of each kind of arguments, nested in another, and a content with an inner environment of the same name. -/
example : Selects c!"array" c!"{l|r}a" ⟨.array [.column .left, .separator .solid, .column .right], 1, none, none⟩ c!"a" :=
  .array (by simp [arrayEnvironments]) (braceArgument_iff.1 (by decide +kernel)) (.cons .left (.cons .solid (.cons .right .nil))) (by decide) (by decide)
example : Selects c!"pmatrix*" c!"[r]a" ⟨.matrix .right, 65535, none, some ('(', ')')⟩ c!"a" :=
  .aligned (by simp [starredMatrices]) (bracketed_iff.1 (by decide +kernel)) .right
example : Selects c!"alignat*" c!"{2}a" ⟨.alignat 2 false, 3, none, none⟩ c!"a" := by
  have h : IntConst c!"2" 2 [] := .dec (ds := c!"2") (by decide)
    ⟨[], rfl, by simp [DecDigit], (by intro c v e; cases e), .none (by intro c v e; cases e), (by intro c v e; cases e)⟩
  exact .pairs (name := c!"alignat*") (f := fun n => .alignat n false) (s := c!"{2}a") (g := c!"2") (r := c!"a") (by simp [pairEnvironments])
    (braceArgument_iff.1 (by decide +kernel)) h (by decide)
example : (run cf0 60 (State.init c!"\\begin{aligned}\\begin{aligned}a\\end{aligned}\\end{aligned}")).1 =
    [.ok (.begin_ .aligned), .ok (.begin_ .aligned), .ok (ordinary 'a'), .ok .end_, .ok .end_] := by decide +kernel
/-- The degenerate case of a bracket that is never closed: the bracket is lost. -/
example : (run cf0 60 (State.init c!"\\begin{matrix*}[a\\end{matrix*}%")).1 =
    [.ok (.begin_ (.matrix .center)), .ok (ordinary 'a'), .ok .end_] := by decide +kernel

end PL.Props
