import Verif.Lemmas.Str
import Verif.Spec.Text
set_option autoImplicit false
/-!
# Lemmas on the lexer: groups, tokens, control sequences
-/
namespace PL.Lex
open PL.Spec

theorem prefix_iff {p s : Str} : startsWith p s = true ↔ p <+: s := List.isPrefixOf_iff_prefix
theorem not_prefix_iff {p s : Str} : startsWith p s = false ↔ ¬ p <+: s := by
  rw [← prefix_iff]; simp

/-! ### group_content -/

theorem groupLoop_escaped {op cl : Str} {n d : Nat} {acc r : Str} {c : Char} :
    groupLoop op cl (n + 1) true d acc (c :: r) =
      if blen (c :: r) < blen cl then .eof else groupLoop op cl n false d (c :: acc) r := by
  rw [groupLoop]
  by_cases hc : c = '\\'
  · simp [hc]
  · simp [hc]; rfl

theorem groupLoop_escaped_nil {op cl : Str} (hcl : cl ≠ []) {n d : Nat} {acc : Str} :
    groupLoop op cl (n + 1) true d acc [] = .eof := by
  have : 0 < blen cl := by
    have := length_le_blen cl
    have := List.length_pos_iff.2 hcl
    omega
  rw [groupLoop]
  simp [this]

/-- What the loop computes, given enough fuel. -/
theorem groupLoop_found {op cl : Str} (hop : op ≠ []) (hcl : cl ≠ []) :
    ∀ {n : Nat} {d : Nat} {acc s g r : Str}, s.length < n →
      groupLoop op cl n false d acc s = .found g r → ∃ g', g = acc.reverse ++ g' ∧ Split op cl d s g' r := by
  intro n
  induction n using Nat.strongRecOn with
  | ind n ih =>
    intro d acc s g r hn h
    cases n with
    | zero => omega
    | succ n =>
      have hopl : 0 < op.length := List.length_pos_iff.2 hop
      have hcll : 0 < cl.length := List.length_pos_iff.2 hcl
      unfold groupLoop at h
      simp only [Bool.false_or, Bool.not_false, Bool.true_and] at h
      split at h
      · rename_i hcond
        split at h
        · cases h
        · rename_i hlen
          split at h
          · rename_i hs
            obtain ⟨r', rfl⟩ := prefix_iff.1 hs
            simp only [List.take_left, List.drop_left] at h
            simp at hn
            obtain ⟨g', e, hsp⟩ := ih n (by omega) (by omega) h
            refine ⟨op ++ g', by rw [e]; simp, Split.opener ?_ hsp⟩
            intro hd hp
            subst hd
            simp [prefix_iff.2 hp] at hcond
          · rename_i hs
            have hs' : ¬ op <+: s := fun hp => hs (prefix_iff.2 hp)
            split at h
            · rename_i he
              split at h
              · rename_i hd
                subst hd
                simp [he] at hcond
              · rename_i hd
                obtain ⟨r', rfl⟩ := prefix_iff.1 he
                simp only [List.take_left, List.drop_left] at h
                simp at hn
                obtain ⟨g', e, hsp⟩ := ih n (by omega) (by omega) h
                obtain ⟨d', rfl⟩ : ∃ d', d = d' + 1 := ⟨d - 1, by omega⟩
                exact ⟨cl ++ g', by rw [e]; simp, Split.closer hs' hsp⟩
            · rename_i he
              have he' : ¬ cl <+: s := fun hp => he (prefix_iff.2 hp)
              split at h
              · cases h
              · rename_i c r'
                split at h
                · rename_i hc
                  subst hc
                  -- the escaped character
                  cases n with
                  | zero => simp at hn
                  | succ n =>
                    cases r' with
                    | nil =>
                      rw [groupLoop_escaped_nil hcl] at h
                      cases h
                    | cons c2 r2 =>
                      rw [groupLoop_escaped] at h
                      split at h
                      · cases h
                      · simp at hn
                        obtain ⟨g', e, hsp⟩ := ih n (by omega) (by omega) h
                        exact ⟨'\\' :: c2 :: g', by rw [e]; simp, Split.escaped hs' he' hsp⟩
                · rename_i hc
                  split at h
                  · rename_i hp
                    simp at hp
                    subst hp
                    split at h
                    · cases h
                    · rename_i before after hsp
                      obtain ⟨e1, e2⟩ := splitOnce_char hsp
                      cases before with
                      | nil => cases e1
                      | cons b line =>
                        simp only [List.cons_append, List.cons.injEq] at e1
                        obtain ⟨e0, e1⟩ := e1
                        subst e0
                        subst e1
                        simp at hn
                        obtain ⟨g', e, hspl⟩ := ih n (by omega) (by omega) h
                        refine ⟨'%' :: (line ++ '\n' :: g'), by rw [e]; simp, Split.comment hs' he' ?_ hspl⟩
                        intro hm; exact e2 (by simp [hm])
                  · rename_i hp
                    simp at hn
                    obtain ⟨g', e, hspl⟩ := ih n (by omega) (by omega) h
                    refine ⟨c :: g', by rw [e]; simp, Split.char hs' he' hc ?_ hspl⟩
                    simpa using hp
      · rename_i hcond
        simp at hcond
        obtain ⟨hd, he⟩ := hcond
        obtain ⟨r', rfl⟩ := prefix_iff.1 he
        subst hd
        simp at h
        obtain ⟨h1, h2⟩ := h
        subst h1; subst h2
        exact ⟨[], by simp, Split.done⟩

theorem _root_.PL.Spec.Split.blen_le {op cl : Str} {d : Nat} {s g r : Str} (h : Split op cl d s g r) : blen cl ≤ blen s := by
  induction h <;> simp <;> omega

/-- The split determines the result of the loop, given enough fuel. -/
theorem groupLoop_of_split {op cl : Str} (hop : op ≠ []) (hcl : cl ≠ []) {d : Nat} {s g r : Str}
    (h : Split op cl d s g r) : ∀ {n : Nat} {acc : Str}, s.length < n →
      groupLoop op cl n false d acc s = .found (acc.reverse ++ g) r := by
  have hopl : 0 < op.length := List.length_pos_iff.2 hop
  have hcll : 0 < cl.length := List.length_pos_iff.2 hcl
  induction h with
  | @done r =>
    intro n acc hn
    cases n with
    | zero => omega
    | succ n =>
      unfold groupLoop
      rw [if_neg]
      · simp
      · simp [prefix_iff.2 (List.prefix_append cl r)]
  | @opener d s g r h0 hs ih =>
    intro n acc hn
    cases n with
    | zero => omega
    | succ n =>
      have hb := hs.blen_le
      simp at hn
      unfold groupLoop
      rw [if_pos]
      · rw [if_neg (by simp; omega), if_pos (by simp [prefix_iff.2 (List.prefix_append op s)])]
        simp only [List.take_left, List.drop_left]
        rw [ih (by omega)]; simp
      · cases d with
        | zero => simp [not_prefix_iff.2 (h0 rfl)]
        | succ d => simp
  | @closer d s g r h0 hs ih =>
    intro n acc hn
    cases n with
    | zero => omega
    | succ n =>
      simp at hn
      unfold groupLoop
      rw [if_pos (by simp), if_neg (by simp), if_neg (by simp [not_prefix_iff.2 h0]),
        if_pos (by simp [prefix_iff.2 (List.prefix_append cl s)]), if_neg (by simp)]
      simp only [List.take_left, List.drop_left, Nat.add_sub_cancel]
      rw [ih (by omega)]; simp
  | @comment d line s g r h1 h2 h3 hs ih =>
    intro n acc hn
    cases n with
    | zero => omega
    | succ n =>
      have hb := hs.blen_le
      simp at hn
      unfold groupLoop
      rw [if_pos (by simp [not_prefix_iff.2 h2]), if_neg (by simp; omega),
        if_neg (by simp [not_prefix_iff.2 h1]), if_neg (by simp [not_prefix_iff.2 h2])]
      have : splitOnce ['\n'] ('%' :: (line ++ '\n' :: s)) = some ('%' :: line, s) := by
        have := splitOnce_char_eq (c := '\n') (a := '%' :: line) (b := s) (by simp [h3])
        simpa using this
      simp [this]
      rw [ih (by omega)]; simp
  | @escaped d c s g r h1 h2 hs ih =>
    intro n acc hn
    have hb := hs.blen_le
    simp at hn
    obtain ⟨n, rfl⟩ : ∃ m, n = m + 2 := ⟨n - 2, by omega⟩
    unfold groupLoop
    rw [if_pos (by simp [not_prefix_iff.2 h2]), if_neg (by simp; omega),
      if_neg (by simp [not_prefix_iff.2 h1]), if_neg (by simp [not_prefix_iff.2 h2])]
    simp only [if_true, Bool.not_false]
    rw [groupLoop_escaped, if_neg (by simp; omega), ih (by omega)]
    simp
  | @char d c s g r h1 h2 h3 h4 hs ih =>
    intro n acc hn
    cases n with
    | zero => omega
    | succ n =>
      have hb := hs.blen_le
      simp at hn
      unfold groupLoop
      rw [if_pos (by simp [not_prefix_iff.2 h2]), if_neg (by simp; omega),
        if_neg (by simp [not_prefix_iff.2 h1]), if_neg (by simp [not_prefix_iff.2 h2])]
      simp [h3, h4]
      rw [ih (by omega)]; simp

/-- The loop never panics, given enough fuel. -/
theorem groupLoop_no_panic {op cl : Str} (hop : op ≠ []) (hcl : cl ≠ []) :
    ∀ {n : Nat} {e : Bool} {d : Nat} {acc s : Str} {p : Panic}, s.length < n →
      groupLoop op cl n e d acc s ≠ .panic p := by
  have hopl : 0 < op.length := List.length_pos_iff.2 hop
  have hcll : 0 < cl.length := List.length_pos_iff.2 hcl
  have hclb : 0 < blen cl := by have := length_le_blen cl; omega
  intro n
  induction n with
  | zero => intros; omega
  | succ n ih =>
    intro e d acc s p hn
    unfold groupLoop
    split
    · split
      · simp
      · rename_i hb
        split
        · rename_i hs
          simp at hs
          obtain ⟨r', rfl⟩ := prefix_iff.1 hs.2
          simp at hn ⊢
          exact ih (by omega)
        · split
          · rename_i he
            simp at he
            obtain ⟨r', rfl⟩ := prefix_iff.1 he.2
            split
            · simp
            · simp at hn ⊢
              exact ih (by omega)
          · split
            · simp at hb; omega
            · simp at hn
              split
              · exact ih (by omega)
              · split
                · split
                  · simp
                  · rename_i before after hsp
                    have := splitOnce_some hsp
                    have h2 := congrArg List.length this
                    simp at h2
                    exact ih (by omega)
                · exact ih (by omega)
    · simp

theorem openingStr_ne (k : GroupingKind) : k.openingStr ≠ [] := by
  unfold GroupingKind.openingStr; split <;> simp

theorem closingStr_ne (k : GroupingKind) : k.closingStr ≠ [] := by
  unfold GroupingKind.closingStr; split <;> simp

/-- `group_content` finds exactly the specified split. -/
theorem groupContent_ok {k : GroupingKind} {s g r : Str} :
    groupContent k s = .ok g r ↔ Split k.openingStr k.closingStr 0 s g r := by
  have hop := openingStr_ne k
  have hcl := closingStr_ne k
  constructor
  · intro h
    unfold groupContent at h
    split at h <;> cases h
    rename_i h
    obtain ⟨g', e, hs⟩ := groupLoop_found hop hcl (by omega) h
    simpa using e ▸ hs
  · intro h
    unfold groupContent
    rw [groupLoop_of_split hop hcl h (by omega)]
    rfl

/-- Exactly the original text. -/
theorem _root_.PL.Spec.Split.eq {op cl : Str} {d : Nat} {s g r : Str} (h : Split op cl d s g r) :
    s = g ++ cl ++ r := by
  induction h <;> simp_all

theorem groupContent_eq {k : GroupingKind} {s g r : Str} (h : groupContent k s = .ok g r) :
    s = g ++ k.closingStr ++ r := (groupContent_ok.1 h).eq

theorem groupContent_no_panic {k : GroupingKind} {s : Str} {p : Panic} : groupContent k s ≠ .panic p := by
  unfold groupContent
  split <;> simp
  rename_i h
  exact absurd h (groupLoop_no_panic (openingStr_ne k) (closingStr_ne k) (by omega))

theorem groupContent_err {k : GroupingKind} {s r : Str} {e : ErrorKind} (h : groupContent k s = .err e r) :
    e = .unbalancedGroup (some k) ∧ (r = [] ∨ r = s) := by
  unfold groupContent at h
  split at h <;> cases h <;> simp

/-! ### control sequences -/

theorem ascii_size {c : Char} (h : c.toNat ≤ 127) : c.utf8Size = 1 := by
  unfold Char.utf8Size
  have h2 : c.val ≤ 127 := by
    rw [UInt32.le_iff_toNat_le]
    exact h
  simp [h2]

theorem isLetter_size {c : Char} (h : isLetter c = true) : c.utf8Size = 1 := by
  unfold isLetter at h
  refine ascii_size ?_
  simp at h; omega

theorem isLetter_not_ws {c : Char} (h : isLetter c = true) : isWs c = false := by
  unfold isLetter at h
  unfold isWs
  simp at h ⊢
  omega

theorem blen_letters {s : Str} (h : ∀ c ∈ s, isLetter c = true) : blen s = s.length := by
  induction s with
  | nil => rfl
  | cons c s ih =>
    have h1 := isLetter_size (h c (by simp))
    have h2 := ih (fun d hd => h d (by simp [hd]))
    rw [blen_cons, h1, h2, List.length_cons, Nat.add_comm]

theorem takeWhile_letter {s : Str} : ∀ c ∈ s.takeWhile isLetter, isLetter c = true := by
  intro c hc
  exact List.all_eq_true.1 (List.all_takeWhile (p := isLetter) (l := s)) c hc

theorem dropWhile_head {p : Char → Bool} {s r : Str} {c : Char} (h : s.dropWhile p = c :: r) : p c = false := by
  induction s with
  | nil => simp at h
  | cons d s ih =>
    rw [List.dropWhile_cons] at h
    split at h
    · exact ih h
    · rename_i hd
      cases h
      simpa using hd

theorem rhs_spec {c : Char} {s : Str} :
    ∃ name rest, CsName (c :: s) name rest ∧ rhsControlSequence (c :: s) = .ok name (trimStart rest) := by
  by_cases hc : isLetter c = true
  · refine ⟨(c :: s).takeWhile isLetter, (c :: s).dropWhile isLetter, ?_, ?_⟩
    · have := CsName.word (name := (c :: s).takeWhile isLetter) (r := (c :: s).dropWhile isLetter)
        (by simp [hc]) takeWhile_letter (fun _ _ h => dropWhile_head h)
      simpa only [List.takeWhile_append_dropWhile] using this
    · unfold rhsControlSequence
      have hmax : max ((c :: s).takeWhile isLetter).length c.utf8Size = blen ((c :: s).takeWhile isLetter) := by
        rw [blen_letters takeWhile_letter, isLetter_size hc]
        have : 0 < ((c :: s).takeWhile isLetter).length := by simp [hc]
        omega
      simp only [hmax]
      have : splitBytes (c :: s) (blen ((c :: s).takeWhile isLetter)) =
          some ((c :: s).takeWhile isLetter, (c :: s).dropWhile isLetter) := by
        rw [splitBytes_eq_some]
        simp only [List.takeWhile_append_dropWhile, and_self]
      rw [this]
  · refine ⟨[c], s, CsName.symbol (by simpa using hc), ?_⟩
    unfold rhsControlSequence
    have : splitBytes (c :: s) c.utf8Size = some ([c], s) := by
      rw [splitBytes_eq_some]; simp
    simp only [List.takeWhile_cons, hc, if_false, Bool.false_eq_true, List.length_nil, Nat.zero_max, this]

theorem CsName_det {s n1 r1 n2 r2 : Str} (h1 : CsName s n1 r1) (h2 : CsName s n2 r2) : n1 = n2 ∧ r1 = r2 := by
  have key : ∀ {s n r}, CsName s n r → (∃ c s', s = c :: s' ∧
      n = (if isLetter c then s.takeWhile isLetter else [c]) ∧ r = (if isLetter c then s.dropWhile isLetter else s')) := by
    intro s n r h
    cases h with
    | @word _ _ hne hl hr =>
      cases n with
      | nil => exact absurd rfl hne
      | cons c n =>
        refine ⟨c, n ++ r, rfl, ?_, ?_⟩
        · rw [if_pos (hl c (by simp)), List.takeWhile_append_of_pos hl]
          cases r with
          | nil => simp
          | cons d r => simp [hr d r rfl]
        · rw [if_pos (hl c (by simp)), List.dropWhile_append_of_pos hl]
          cases r with
          | nil => simp
          | cons d r => simp [hr d r rfl]
    | @symbol c r hc => exact ⟨c, r, rfl, by simp [hc], by simp [hc]⟩
  obtain ⟨c, s', e, a1, b1⟩ := key h1
  obtain ⟨c', s'', e', a2, b2⟩ := key h2
  rw [e] at e'
  cases e'
  exact ⟨a1.trans a2.symm, b1.trans b2.symm⟩

theorem _root_.PL.Spec.CsName.eq {s n r : Str} (h : CsName s n r) : s = n ++ r ∧ n ≠ [] := by
  cases h with
  | word h => exact ⟨rfl, h⟩
  | symbol => simp

theorem rhs_ok {s name rest : Str} :
    rhsControlSequence s = .ok name rest ↔ ∃ r, CsName s name r ∧ rest = trimStart r := by
  cases s with
  | nil =>
    constructor
    · intro h; simp [rhsControlSequence] at h
    · rintro ⟨r, h, -⟩
      have := h.eq
      simp at this
      exact absurd this.1.1 this.2
  | cons c s =>
    obtain ⟨n, r, h1, h2⟩ := rhs_spec (c := c) (s := s)
    rw [h2]
    constructor
    · intro h
      cases h
      exact ⟨r, h1, rfl⟩
    · rintro ⟨r', h, rfl⟩
      obtain ⟨rfl, rfl⟩ := CsName_det h1 h
      rfl

theorem rhs_no_panic {s : Str} {p : Panic} : rhsControlSequence s ≠ .panic p := by
  cases s with
  | nil => simp [rhsControlSequence]
  | cons c s =>
    obtain ⟨n, r, h1, h2⟩ := rhs_spec (c := c) (s := s)
    rw [h2]; simp

theorem rhs_err {s rest : Str} {e : ErrorKind} :
    rhsControlSequence s = .err e rest ↔ s = [] ∧ e = .emptyControlSequence ∧ rest = [] := by
  cases s with
  | nil =>
    rw [show rhsControlSequence [] = .err .emptyControlSequence [] from rfl]
    constructor
    · intro h; cases h; simp
    · rintro ⟨-, rfl, rfl⟩; rfl
  | cons c s =>
    obtain ⟨n, r, h1, h2⟩ := rhs_spec (c := c) (s := s)
    rw [h2]; simp

/-! ### tokens -/

theorem Blank_ws {w s : Str} (hw : AllWs w) (hs : Blank s) : Blank (w ++ s) := by
  induction w with
  | nil => exact hs
  | cons c w ih => exact Blank.ws (hw c (by simp)) (ih fun d hd => hw d (by simp [hd]))

/-- What reading a token means. -/
inductive TokSpec (s : Str) : Res Str Tok → Prop
  | chr {k c r} : Blank k → s = k ++ c :: r → c ≠ '\\' → c ≠ '%' → isWs c = false → TokSpec s (.ok (.chr c r) r)
  | cs {k t name r} : Blank k → s = k ++ '\\' :: t → CsName t name r → TokSpec s (.ok (.cs name) (trimStart r))
  | none : BlankEnd s → TokSpec s (.err .token [])
  | empty {k} : Blank k → s = k ++ ['\\'] → TokSpec s (.err .emptyControlSequence [])

theorem TokSpec.skip {k s : Str} (hk : Blank k) {o : Res Str Tok} (h : TokSpec s o) : TokSpec (k ++ s) o := by
  have app : ∀ {a b}, Blank a → Blank b → Blank (a ++ b) := by
    intro a b ha hb
    induction ha with
    | nil => exact hb
    | ws hc _ ih => exact Blank.ws hc ih
    | @comment line s hl _ ih =>
      have := Blank.comment hl ih
      simpa using this
  cases h with
  | chr h1 h2 h3 h4 h5 => exact .chr (app hk h1) (by rw [h2]; simp) h3 h4 h5
  | cs h1 h2 h3 => exact .cs (app hk h1) (by rw [h2]; simp) h3
  | none h =>
    refine .none ?_
    cases h with
    | blank h => exact .blank (app hk h)
    | comment h hl =>
      have := BlankEnd.comment (app hk h) hl
      simpa using this
  | empty h1 h2 => exact .empty (app hk h1) (by rw [h2]; simp)

theorem tokenLoop_spec : ∀ {n : Nat} {s : Str}, s.length + 1 < n → TokSpec s (tokenLoop n s)
  | 0, s, h => by omega
  | n + 1, s, h => by
    obtain ⟨w, hw, e⟩ := trimStart_spec s
    unfold tokenLoop
    have hlen := trimStart_length_le s
    cases ht : trimStart s with
    | nil =>
      refine .none (.blank ?_)
      rw [e, ht]
      exact Blank_ws hw .nil
    | cons c r =>
      have hcw := trimStart_head ht
      rw [ht] at hlen
      simp at hlen
      simp only []
      by_cases hc : c = '\\'
      · rw [if_pos hc]
        subst hc
        cases r with
        | nil =>
          rw [show rhsControlSequence [] = .err .emptyControlSequence [] from rfl]
          exact .empty (Blank_ws hw .nil) (by rw [ht] at e; simpa using e)
        | cons d r =>
          obtain ⟨name, rest, h1, h2⟩ := rhs_spec (c := d) (s := r)
          rw [h2]
          exact .cs (Blank_ws hw .nil) (by rw [ht] at e; simpa using e) h1
      · rw [if_neg hc]
        by_cases hp : c = '%'
        · rw [if_pos hp]
          subst hp
          cases hsp : splitOnce ['\n'] ('%' :: r) with
          | none =>
            simp only []
            rw [splitOnce_none (by simp)] at hsp
            have h0 : tokenLoop n [] = .err .token [] := by
              cases n with
              | zero => omega
              | succ n => rfl
            rw [h0]
            refine .none ?_
            rw [e, ht]
            refine BlankEnd.comment (s := w) (by simpa using Blank_ws hw .nil) ?_
            intro hm
            obtain ⟨u, v, huv⟩ := List.append_of_mem hm
            exact hsp ⟨'%' :: u, v, by rw [huv]; simp⟩
          | some ab =>
            obtain ⟨before, after⟩ := ab
            simp only []
            obtain ⟨e1, e2⟩ := splitOnce_char hsp
            cases before with
            | nil => simp at e1
            | cons b line =>
              simp only [List.cons_append, List.cons.injEq] at e1
              obtain ⟨e0, e1⟩ := e1
              subst e0
              have hl := congrArg List.length e1
              simp at hl
              have ih := tokenLoop_spec (n := n) (s := after) (by omega)
              have hb : Blank (w ++ '%' :: (line ++ ['\n'])) := by
                refine Blank_ws hw (Blank.comment ?_ .nil)
                intro hm; exact e2 (by simp [hm])
              have := TokSpec.skip hb ih
              rw [e, ht, e1]
              simpa using this
        · rw [if_neg hp]
          exact .chr (k := w) (by simpa using Blank_ws hw .nil) (by rw [ht] at e; exact e) hc hp hcw

theorem token_spec (s : Str) : TokSpec s (token s) := tokenLoop_spec (by omega)

end PL.Lex
