import Verif.Lemmas.Formula.Readers
set_option autoImplicit false
/-!
# Readers of arguments: environments, and texts up to a delimiter
-/
namespace PL.Formula
open PL PL.Lex PL.H Spec PL.Props

variable {cf : Cfg} {s r : Str} {k : ErrorKind}

/-! ### Columns -/

/-- There is room for every column. -/
def Room (n : Nat) (g : Str) : Prop := ∀ p c q cs, g = p ++ c :: q → ColumnsFor p cs → n + columnCount cs < 65535

theorem columns_room {g : Str} {cols : List ArrayCol} (h : ColumnsFor g cols) : ∀ n, Room n g → columns cf n g = .ok (cols, n + columnCount cols) := by
  induction h with
  | nil => intro n _; rfl
  | @cons c s col cols hc hs ih =>
    intro n hn
    have h0 : n < 65535 := hn [] c s [] rfl .nil
    rw [columns_cons cf n c s (by omega), columnOf_spec.2 hc, columnCount_cons]
    cases col with
    | column a =>
      dsimp only
      rw [ih (n + 1) ?_]
      · dsimp only; congr 2; omega
      · intro p d q cs e hp
        have := hn (c :: p) d q _ (by rw [e]; rfl) (.cons hc hp)
        rw [columnCount_cons] at this
        dsimp only at this
        omega
    | separator a =>
      dsimp only
      rw [ih n ?_]
      · dsimp only; congr 2; omega
      · intro p d q cs e hp
        have := hn (c :: p) d q _ (by rw [e]; rfl) (.cons hc hp)
        rw [columnCount_cons] at this
        dsimp only at this
        omega

theorem columnCount_one (c : ArrayCol) (cols : List ArrayCol) : columnCount (c :: cols) = columnCount [c] + columnCount cols := by
  rw [columnCount_cons, columnCount_cons]
  simp [columnCount]

theorem columns_total (ho : cf.overflowChecks = true) (g : Str) : ∀ n, (∀ p, columns cf n g ≠ .error (.inr p)) → (∃ cols, ColumnsFor g cols ∧ Room n g) ∨
    ∃ p c q cols, g = p ++ c :: q ∧ ColumnsFor p cols ∧ n + columnCount cols < 65535 ∧ ∀ col, ¬ ColumnFor c col := by
  induction g with
  | nil => intro n _; exact .inl ⟨[], .nil, by intro p c q cs e; cases p <;> cases e⟩
  | cons c s ih =>
    intro n hp
    have h0 : n < 65535 := by
      by_cases hn : n < 65535
      · exact hn
      · refine absurd ?_ (hp .overflow)
        unfold columns
        rw [if_pos (by simp [ho]; omega)]
    rw [columns_cons cf n c s (by omega)] at hp
    cases hc : columnOf c with
    | none =>
      refine .inr ⟨[], c, s, [], rfl, .nil, h0, fun col hcol => ?_⟩
      rw [columnOf_spec.2 hcol] at hc
      cases hc
    | some col =>
      have hc' := columnOf_spec.1 hc
      rw [hc] at hp
      have key : ∀ m, m = n + columnCount [col] → (∀ p, columns cf m s ≠ .error (.inr p)) →
          (∃ cols, ColumnsFor (c :: s) cols ∧ Room n (c :: s)) ∨
          ∃ p d q cols, c :: s = p ++ d :: q ∧ ColumnsFor p cols ∧ n + columnCount cols < 65535 ∧ ∀ col, ¬ ColumnFor d col := by
        intro m hm hq
        rcases ih m hq with ⟨cols, h1, h2⟩ | ⟨p, d, q, cols, rfl, h1, h2, h3⟩
        · refine .inl ⟨_, .cons hc' h1, ?_⟩
          intro p d q cs e hcs
          cases hcs with
          | nil => simpa [columnCount] using h0
          | @cons c' p' col' cs' hcol hcs =>
            cases e
            have h4 := h2 p' d q cs' rfl hcs
            rw [columnCount_one]
            obtain rfl : col' = col := by
              have := columnOf_spec.2 hcol
              rw [hc] at this
              cases this
              rfl
            omega
        · refine .inr ⟨c :: p, d, q, col :: cols, rfl, .cons hc' h1, ?_, h3⟩
          rw [columnCount_one]
          omega
      cases col with
      | column a =>
        refine key (n + 1) rfl fun p e => hp p ?_
        dsimp only
        rw [e]
      | separator a =>
        refine key n rfl fun p e => hp p ?_
        dsimp only
        rw [e]

/-! ### The arguments of environments -/

theorem env_of {h : HSt} {name : Str} (ha : EnvArgs name h.content.cs r) :
    ∃ m env, (environments cf).lookup name = some m ∧ m h = .ok env (past h r) ∧ Named name env.kind := by
  have sel : ∀ {sh : EnvShape}, Selects name h.content.cs sh r → ∃ m env, (environments cf).lookup name = some m ∧ m h = .ok env (past h r) ∧ Named name env.kind := by
    intro sh hs
    obtain ⟨m, env, h1, h2, -, h3⟩ := select_of cf hs
    exact ⟨m, env, h1, h2, h3⟩
  generalize hs : h.content.cs = s at ha sel
  cases ha with
  | plain hm => exact sel (.plain hm)
  | default hm hb => exact sel (.default hm hb)
  | aligned hm hb ha => exact sel (.aligned hm hb ha)
  | subarray hb ha => exact sel (.subarray hb ha)
  | @array _ st _ g cols _ hm hb hc h0 hn =>
    have e : arrayEnvironment cf h = .ok (.array cols, columnCount cols - 1) (past h r) := by
      unfold arrayEnvironment
      rw [M.bind_ok (groupArg_of (by rw [hs]; exact hb))]
      rw [show (h.content.part g 1 r).cs = g from rfl, columns_room hc 0 (fun p c q cs e hp => by rw [Nat.zero_add]; exact hn p c q cs e hp)]
      dsimp only
      rw [(columnCount_any cols).2 h0, Nat.zero_add]
      rfl
    simp only [arrayEnvironments, List.mem_cons, List.not_mem_nil, or_false, Prod.mk.injEq] at hm
    rcases hm with ⟨rfl, rfl⟩ | ⟨rfl, rfl⟩
    · exact ⟨_, { g := .array cols, max := columnCount cols - 1, kind := .array false }, rfl, by rw [M.bind_ok e]; rfl, rfl, rfl⟩
    · exact ⟨_, { g := .array cols, max := columnCount cols - 1, kind := .array true, style := some .display }, rfl, by rw [M.bind_ok e]; rfl, rfl, rfl⟩
  | @pairs _ f _ g n u _ hm hb hc hn hn' =>
    have e : ∀ F K, alignatEnv cf F K h = .ok { g := F (n % 2 ^ 16), max := n % 2 ^ 16 * 2 - 1, kind := K } (past h r) := by
      intro F K
      unfold alignatEnv
      have : pairsArg cf h = .ok (n % 2 ^ 16) (past h r) := by
        unfold pairsArg
        rw [M.bind_ok (groupArg_of (by rw [hs]; exact hb)), show (h.content.part g 1 r).cs = g from rfl, M.bind_ok (onStr_of (g := g) (const_ok hc hn))]
        rfl
      rw [M.bind_ok this]
      unfold pairsMax
      rw [if_pos (by omega)]
      rfl
    simp only [pairEnvironments, List.mem_cons, List.not_mem_nil, or_false, Prod.mk.injEq] at hm
    rcases hm with ⟨rfl, rfl⟩ | ⟨rfl, rfl⟩ | ⟨rfl, rfl⟩ <;>
      exact ⟨_, _, rfl, e _ _, rfl, rfl⟩

theorem env_err {h : HSt} {name : Str} (hk : BadEnvArgs name h.content.cs k) : ∃ m, (environments cf).lookup name = some m ∧ Errs m h k := by
  generalize hs : h.content.cs = s at hk
  cases hk with
  | absent hk => exact errs_envArgs (by rw [hs]; exact hk)
  | noNumber hm hb hn =>
    have e : ∀ F K, Errs (alignatEnv cf F K) h k := by
      intro F K
      unfold alignatEnv pairsArg
      refine Errs.bind (.after (groupArg_of (by rw [hs]; exact hb)) ?_)
      exact (Errs.onStr (noConst_err hn)).bind
    simp only [pairEnvironments, List.mem_cons, List.not_mem_nil, or_false, Prod.mk.injEq] at hm
    rcases hm with ⟨rfl, -⟩ | ⟨rfl, -⟩ | ⟨rfl, -⟩ <;> exact ⟨_, rfl, e _ _⟩

/-- The arguments are right or wrong unless there is a panic. -/
def Decided (name : Str) (m : H Env) : Prop := ∀ h : HSt, (∀ p, m h ≠ .panic p) → (∃ r, EnvArgs name h.content.cs r) ∨ ∃ k, BadEnvArgs name h.content.cs k

theorem decided_plain {name : Str} {m : H Env} {sh : EnvShape} (hm : (name, sh) ∈ plainEnvironments) : Decided name m := fun _ _ => .inl ⟨_, .plain hm⟩

theorem align_or (g : Str) : (∃ c a, AlignFor c a ∧ g = [c]) ∨ ∀ c a, AlignFor c a → g ≠ [c] := by
  by_cases h : ∃ c a, AlignFor c a ∧ g = [c]
  · exact .inl h
  · exact .inr fun c a ha e => h ⟨c, a, ha, e⟩

theorem decided_starred {name : Str} {m : H Env} {w : Option (Char × Char)} (hm : (name, w) ∈ starredMatrices) : Decided name m := by
  intro h _
  obtain ⟨g, r, hg⟩ := optional_total h.content.cs
  cases hg with
  | absent h => exact .inl ⟨r, .default hm h⟩
  | given h =>
    rename_i g
    rcases align_or g with ⟨c, a, ha, rfl⟩ | hn
    · exact .inl ⟨r, .aligned hm h ha⟩
    · exact .inr ⟨_, .absent (.starred hm h hn)⟩

theorem decided_subarray {m : H Env} : Decided c!"subarray" m := by
  intro h _
  rcases group_total .argument h.content.cs with ⟨g, r, h⟩ | ⟨k, h⟩
  · rcases align_or g with ⟨c, a, ha, rfl⟩ | hn
    · exact .inl ⟨r, .subarray h ha⟩
    · exact .inr ⟨_, .absent (.noAlignment h hn)⟩
  · exact .inr ⟨k, .absent (.subarray h)⟩

theorem decided_array (ho : cf.overflowChecks = true) {name : Str} {st : Option Style} {f : Grouping × Nat → H Env} (hm : (name, st) ∈ arrayEnvironments) :
    Decided name (arrayEnvironment cf >>= f) := by
  intro h hp
  have hp := np_bind hp
  unfold arrayEnvironment at hp
  rcases group_total .argument h.content.cs with ⟨g, r, hb⟩ | ⟨k, hb⟩
  · have hp1 := np_after (groupArg_of hb) hp
    rw [show (h.content.part g 1 r).cs = g from rfl] at hp1
    rcases columns_total ho g 0 (fun p e => by rw [e] at hp1; exact hp1 p rfl) with ⟨cols, h1, h2⟩ | ⟨p, c, q, cols, rfl, h1, h2, h3⟩
    · by_cases h0 : columnCount cols = 0
      · exact .inr ⟨_, .absent (.noColumns hm hb h1 h0)⟩
      · refine .inl ⟨r, .array hm hb h1 (by omega) fun p c q cs e hc => ?_⟩
        have := h2 p c q cs e hc
        omega
    · exact .inr ⟨_, .absent (.column hm hb h1 (by omega) h3)⟩
  · exact .inr ⟨k, .absent (.array hm hb)⟩

theorem decided_pairs (ho : cf.overflowChecks = true) {name : Str} {f F : Nat → Grouping} {K : GroupingKind} (hm : (name, f) ∈ pairEnvironments) :
    Decided name (alignatEnv cf F K) := by
  intro h hp
  unfold alignatEnv at hp
  have hp0 := np_bind hp
  unfold pairsArg at hp0
  rcases group_total .argument h.content.cs with ⟨g, r, hb⟩ | ⟨k, hb⟩
  · have hp1 := np_after (groupArg_of hb) hp0
    rcases const_total ho (np_onStr (np_bind hp1)) with ⟨n, u, h1, h2⟩ | ⟨k, hk⟩
    · by_cases h3 : n % 2 ^ 16 < 2 ^ 15
      · exact .inl ⟨r, .pairs hm hb h1 h2 h3⟩
      · exfalso
        have : pairsArg cf h = .ok (n % 2 ^ 16) (past h r) := by
          unfold pairsArg
          rw [M.bind_ok (groupArg_of hb), show (h.content.part g 1 r).cs = g from rfl, M.bind_ok (onStr_of (g := g) (const_ok h1 h2))]
          rfl
        have hp1 := np_after this hp
        have hp2 := np_bind hp1
        unfold pairsMax at hp2
        rw [if_neg (by omega), if_pos ho] at hp2
        exact hp2 _ rfl
    · exact .inr ⟨k, .noNumber hm hb hk⟩
  · exact .inr ⟨k, .absent (.pairs hm hb)⟩

theorem decided_all (ho : cf.overflowChecks = true) : ∀ x ∈ environments cf, Decided x.1 x.2 := by
  intro x hx
  simp only [environments, List.mem_cons, List.not_mem_nil, or_false] at hx
  rcases hx with rfl | rfl | hx
  · exact decided_array ho (st := none) (by simp [arrayEnvironments])
  · exact decided_array ho (st := some .display) (by simp [arrayEnvironments])
  · rcases hx with rfl | rfl | rfl | rfl | rfl | rfl | rfl | rfl | rfl | rfl | rfl | rfl | rfl | rfl | rfl | rfl | rfl |
      rfl | rfl | rfl | rfl | rfl | rfl | rfl | rfl | rfl | rfl | rfl | rfl | rfl | rfl <;>
    first
      | exact decided_subarray
      | exact decided_plain (List.mem_of_getElem? (i := 0) rfl)
      | exact decided_plain (by unfold plainEnvironments; repeat (first | exact List.mem_cons_self | apply List.mem_cons_of_mem))
      | exact decided_starred (by unfold starredMatrices; repeat (first | exact List.mem_cons_self | apply List.mem_cons_of_mem))
      | exact decided_pairs ho (by unfold pairEnvironments; repeat (first | exact List.mem_cons_self | apply List.mem_cons_of_mem))

theorem lines_total (s : Str) : ∃ (ls : List Line) (r : Str), WordSeq lineWords s ls r := ⟨_, _, horizontalLines_of.1 rfl⟩

theorem lexLines {h : HSt} {ls : List Line} (hl : WordSeq lineWords h.content.cs ls r) : lexPure horizontalLines h = .ok ls (past h r) := by
  have hl' : horizontalLines h.content.cs = (ls, r) := horizontalLines_of.2 hl
  exact lex_of (m := (fun s => .ok (horizontalLines s).1 (horizontalLines s).2 : L (List Line))) (by rw [hl'])

/-- What `\begin` does after the arguments. -/
def beginTail (env : Env) : H PUnit := do
  let lines ← lexPure horizontalLines
  let content ← H.groupContent env.kind
  push ([.ev (.begin_ env.g)] ++
    (match env.style with
      | some s => [.ev (.stateChange (.style s))]
      | none => []) ++
    (if lines.isEmpty then [] else [.ev (.flow (.startLines lines))]) ++
    [.sub content (some ⟨0, env.max⟩), .ev .end_] ++
    (if env.wrap.isSome then [.ev .end_] else []))

def beginWrap (env : Env) : H PUnit := do
  match env.wrap with
  | some (l, r) => ev (.begin_ (.leftRight (some l) (some r)))
  | none => pure ⟨⟩
  beginTail env

theorem beginEnv_of {h : HSt} {name r0 : Str} {m : H Env} (hb : Braced h.content.cs name r0) (hm : (environments cf).lookup name = some m) :
    beginEnv cf h = (m >>= beginWrap) (past h r0) := by
  unfold beginEnv
  rw [M.bind_ok (groupArg_of hb), show (h.content.part name 1 r0).cs = name from rfl, hm]
  rfl

theorem reader_begin : Reader cf (beginEnv cf) .environment where
  ok h r := by
    intro ht
    cases ht with | environment hb ha hl hs =>
    rename_i name r0 r1 r2 X ls
    obtain ⟨m, env, h1, h2, h3, h4⟩ := env_of (cf := cf) (h := past h _) ha
    rw [beginEnv_of hb h1, M.bind_ok h2]
    have tail : ∀ h' : HSt, Like h h' r1 → ∃ a h'', beginTail env h' = .ok a h'' ∧ Like h h'' r := by
      intro h' L
      unfold beginTail
      rw [M.bind_ok (lexLines (by rw [L.cs]; exact hl)), M.bind_ok (groupContent_of (by rw [h3, h4]; exact hs))]
      exact ⟨⟨⟩, _, rfl, rfl, L.mods, L.skip, L.macros⟩
    unfold beginWrap
    cases env.wrap with
    | none => exact tail _ .past
    | some w => exact tail _ ⟨rfl, rfl, rfl, rfl⟩
  err h k := by
    intro hk
    cases hk with
    | noName hk => exact (errs_groupArg hk).bind
    | @unknown _ name _ hb hn =>
      unfold beginEnv
      refine .after (groupArg_of hb) ?_
      rw [show ∀ r, (h.content.part name 1 r).cs = name from fun _ => rfl, (environments_names cf name).2 hn]
      exact .fail
    | arguments hb hk =>
      obtain ⟨m, h1, h2⟩ := env_err (cf := cf) (h := past h _) hk
      unfold Errs
      rw [beginEnv_of hb h1]
      exact h2.bind
    | @unclosed _ name r0 r1 r2 K ls hb ha hl hu hK =>
      obtain ⟨m, env, h1, h2, h3, h4⟩ := env_of (cf := cf) (h := past h _) ha
      obtain rfl : K = env.kind := closing_injective (hK.trans h4.symm)
      unfold Errs
      rw [beginEnv_of hb h1, M.bind_ok h2]
      have tail : ∀ h' : HSt, h'.content.cs = r1 → Errs (beginTail env) h' (.unbalancedGroup (some env.kind)) := by
        intro h' e
        unfold beginTail
        refine .after (lexLines (by rw [e]; exact hl)) ?_
        exact (errs_group (h := past h' r2) (by rw [h3, h4]; exact hu)).bind
      unfold beginWrap
      cases env.wrap with
      | none => exact tail _ rfl
      | some w => exact tail _ rfl
  total ho h hp := by
    rcases group_total .argument h.content.cs with ⟨name, r0, hb⟩ | ⟨k, hk⟩
    · cases hm : (environments cf).lookup name with
      | none => exact .inr ⟨_, .unknown hb ((environments_names cf name).1 hm)⟩
      | some m =>
        rw [beginEnv_of hb hm] at hp
        rcases decided_all ho _ (mem_of_lookup hm) (past h r0) (np_bind hp) with ⟨r1, ha⟩ | ⟨k, hk⟩
        · obtain ⟨m', env, h1, h2, h3, h4⟩ := env_of (cf := cf) (h := past h r0) ha
          obtain ⟨ls, r2, hl⟩ := lines_total r1
          by_cases hs : ∃ X r, Split env.kind.openingStr env.kind.closingStr 0 r2 X r
          · obtain ⟨X, r, hs⟩ := hs
            rw [h3, h4] at hs
            exact .inl ⟨r, .environment hb ha hl hs⟩
          · exact .inr ⟨_, .unclosed hb ha hl (by rw [h3, h4] at hs; exact hs) h4⟩
        · exact .inr ⟨k, .arguments hb hk⟩
    · exact .inr ⟨k, .noName hk⟩

/-! ### Up to a delimiter -/

theorem notDelimited_short {d : Str} (h : NotDelimited d s k) : blen s < blen d → k = .macroSuffixNotFound := by
  induction h with
  | short => intro _; rfl
  | unfinished => intro _; rfl
  | unclosed _ h => intro h'; omega
  | comment _ _ _ ih => intro h'; refine ih ?_; simp at h'; omega
  | escaped _ _ ih => intro h'; refine ih ?_; simp at h'; omega
  | braces _ hs _ ih => intro h'; refine ih ?_; rw [hs.eq] at h'; simp at h'; omega
  | char _ _ _ _ _ ih => intro h'; refine ih ?_; simp at h'; omega

theorem not_prefix {d s : Str} (h : ¬ d <+: s) : (!startsWith d s) = true := by simp [not_prefix_iff.2 h]

theorem suffixLoop_not {d : Str} (h : NotDelimited d s k) : ∀ {n : Nat} {acc : Str}, s.length < n →
    suffixLoop d n false acc s = .inner k ∨ suffixLoop d n false acc s = .eof ∧ k = .macroSuffixNotFound := by
  induction h with
  | short h =>
    intro n acc hn
    obtain ⟨n, rfl⟩ : ∃ m, n = m + 1 := ⟨n - 1, by omega⟩
    right
    unfold suffixLoop
    rw [if_pos (by simp [h])]
    exact ⟨rfl, rfl⟩
  | @unfinished line hd hl =>
    intro n acc hn
    obtain ⟨n, rfl⟩ : ∃ m, n = m + 1 := ⟨n - 1, by omega⟩
    right
    unfold suffixLoop
    have : splitOnce ['\n'] ('%' :: line) = none := by
      refine (splitOnce_none (by simp)).2 ?_
      intro h
      have := h.subset (List.mem_singleton_self '\n')
      simp [hl] at this
    split
    · exact ⟨rfl, rfl⟩
    · rw [if_pos (by simp [not_prefix_iff.2 hd])]
      simp [this]
  | @unclosed s hd hl hu =>
    intro n acc hn
    obtain ⟨n, rfl⟩ : ∃ m, n = m + 1 := ⟨n - 1, by omega⟩
    left
    unfold suffixLoop
    rw [if_neg (by simp only [show ¬ blen ('{' :: s) < blen d by omega]; simp), if_pos (by simp [not_prefix_iff.2 hd])]
    obtain ⟨s', e⟩ : ∃ s', groupContent .normal s = .err (.unbalancedGroup (some .normal)) s' := unclosed_group (K := .normal) hu
    simp [e]
  | @comment line s k hd hl hn' ih =>
    intro n acc hn
    obtain ⟨n, rfl⟩ : ∃ m, n = m + 1 := ⟨n - 1, by omega⟩
    by_cases hb : blen ('%' :: (line ++ '\n' :: s)) < blen d
    · right
      unfold suffixLoop
      rw [if_pos (by simp only [hb]; rfl)]
      exact ⟨rfl, notDelimited_short (.comment hd hl hn') hb⟩
    · have : splitOnce ['\n'] ('%' :: (line ++ '\n' :: s)) = some ('%' :: line, s) := by
        have := splitOnce_char_eq (c := '\n') (a := '%' :: line) (b := s) (by simp [hl])
        simpa using this
      simp at hn
      unfold suffixLoop
      rw [if_neg (by simp only [hb]; simp), if_pos (by simp [not_prefix_iff.2 hd])]
      simp [this]
      exact ih (by omega)
  | @escaped c s k hd hn' ih =>
    intro n acc hn
    simp at hn
    obtain ⟨n, rfl⟩ : ∃ m, n = m + 2 := ⟨n - 2, by omega⟩
    by_cases hb : blen ('\\' :: c :: s) < blen d
    · right
      unfold suffixLoop
      rw [if_pos (by simp only [hb]; rfl)]
      exact ⟨rfl, notDelimited_short (.escaped hd hn') hb⟩
    · unfold suffixLoop
      rw [if_neg (by simp only [hb]; simp), if_pos (by simp [not_prefix_iff.2 hd])]
      simp only [if_true, Bool.not_false]
      rw [Macros.suffixLoop_escaped]
      exact ih (by omega)
  | @braces s g s' k hd hs hn' ih =>
    intro n acc hn
    obtain ⟨n, rfl⟩ : ∃ m, n = m + 1 := ⟨n - 1, by omega⟩
    by_cases hb : blen ('{' :: s) < blen d
    · right
      unfold suffixLoop
      rw [if_pos (by simp only [hb]; rfl)]
      exact ⟨rfl, notDelimited_short (.braces hd hs hn') hb⟩
    · have e := congrArg List.length hs.eq
      simp at hn e
      have hg : groupContent .normal s = .ok g s' := groupContent_ok.2 hs
      unfold suffixLoop
      rw [if_neg (by simp only [hb]; simp), if_pos (by simp [not_prefix_iff.2 hd])]
      simp [hg]
      exact ih (by omega)
  | @char c s k hd h1 h2 h3 hn' ih =>
    intro n acc hn
    obtain ⟨n, rfl⟩ : ∃ m, n = m + 1 := ⟨n - 1, by omega⟩
    by_cases hb : blen (c :: s) < blen d
    · right
      unfold suffixLoop
      rw [if_pos (by simp only [hb]; rfl)]
      exact ⟨rfl, notDelimited_short (.char hd h1 h2 h3 hn') hb⟩
    · simp at hn
      unfold suffixLoop
      rw [if_neg (by simp only [hb]; simp), if_pos (by simp [not_prefix_iff.2 hd])]
      simp [h1, h2, h3]
      exact ih (by omega)

theorem notDelimited_err {d : Str} (h : NotDelimited d s k) : ∃ s', Lex.contentWithSuffix d s = .err k s' := by
  unfold Lex.contentWithSuffix
  rcases suffixLoop_not h (n := s.length + 1) (acc := []) (by omega) with e | ⟨e, rfl⟩ <;> rw [e] <;> exact ⟨_, rfl⟩

theorem mem_first {c : Char} : ∀ {s : Str}, c ∈ s ↔ ∃ p q, s = p ++ c :: q ∧ c ∉ p := by
  intro s
  constructor
  · intro h
    obtain ⟨p, q, h1, h2⟩ := List.eq_append_cons_of_mem h
    exact ⟨p, q, h1, h2⟩
  · rintro ⟨p, q, rfl, _⟩; simp

theorem suffixLoop_total {d : Str} : ∀ {n : Nat} {acc s : Str}, s.length < n → (∀ p, suffixLoop d n false acc s ≠ .panic p) →
    (∃ g r, Delimited d s g r) ∨ ∃ k, NotDelimited d s k := by
  intro n
  induction n using Nat.strongRecOn with
  | ind n ih =>
    intro acc s hn hp
    obtain ⟨n, rfl⟩ : ∃ m, n = m + 1 := ⟨n - 1, by omega⟩
    by_cases hb : blen s < blen d
    · exact .inr ⟨_, .short hb⟩
    by_cases hs : d <+: s
    · obtain ⟨r, rfl⟩ := hs
      exact .inl ⟨[], r, .found⟩
    unfold suffixLoop at hp
    rw [if_neg (by simp only [hb]; simp), if_pos (by simp [not_prefix_iff.2 hs])] at hp
    cases s with
    | nil => exact absurd rfl (hp .index)
    | cons c r =>
      simp at hn
      by_cases h1 : c = '\\'
      · subst h1
        simp only [if_true, Bool.not_false] at hp
        cases n with
        | zero => omega
        | succ n =>
          cases r with
          | nil => exact absurd (by simp [suffixLoop]) (hp .index)
          | cons c2 r2 =>
            rw [Macros.suffixLoop_escaped] at hp
            simp at hn
            rcases ih n (by omega) (by omega) hp with ⟨g, r, h⟩ | ⟨k, h⟩
            · exact .inl ⟨_, _, .escaped hs h⟩
            · exact .inr ⟨_, .escaped hs h⟩
      · by_cases h2 : c = '%'
        · subst h2
          by_cases hm : '\n' ∈ r
          · obtain ⟨line, s', rfl, hl⟩ := mem_first.1 hm
            have : splitOnce ['\n'] ('%' :: (line ++ '\n' :: s')) = some ('%' :: line, s') := by
              have := splitOnce_char_eq (c := '\n') (a := '%' :: line) (b := s') (by simp [hl])
              simpa using this
            simp [this] at hp
            simp at hn
            rcases ih n (by omega) (by omega) hp with ⟨g, r, h⟩ | ⟨k, h⟩
            · exact .inl ⟨_, _, .comment hs hl h⟩
            · exact .inr ⟨_, .comment hs hl h⟩
          · exact .inr ⟨_, .unfinished hs hm⟩
        · by_cases h3 : c = '{'
          · subst h3
            by_cases hg : ∃ g s', Split ['{'] ['}'] 0 r g s'
            · obtain ⟨g, s', hg⟩ := hg
              have e := congrArg List.length hg.eq
              simp at e
              have hg' : groupContent .normal r = .ok g s' := groupContent_ok.2 hg
              simp [hg'] at hp
              rcases ih n (by omega) (by omega) hp with ⟨g, r, h⟩ | ⟨k, h⟩
              · exact .inl ⟨_, _, .braces hs hg h⟩
              · exact .inr ⟨_, .braces hs hg h⟩
            · exact .inr ⟨_, .unclosed hs (by omega) hg⟩
          · simp [h1, h2, h3] at hp
            rcases ih n (by omega) (by omega) hp with ⟨g, r, h⟩ | ⟨k, h⟩
            · exact .inl ⟨_, _, .char hs h1 h2 h3 h⟩
            · exact .inr ⟨_, .char hs h1 h2 h3 h⟩

theorem delimited_total {d : Str} (hp : ∀ p, Lex.contentWithSuffix d s ≠ .panic p) : (∃ g r, Delimited d s g r) ∨ ∃ k, NotDelimited d s k := by
  refine suffixLoop_total (n := s.length + 1) (acc := []) (by omega) ?_
  intro p e
  refine hp p ?_
  unfold Lex.contentWithSuffix
  rw [e]

end PL.Formula
