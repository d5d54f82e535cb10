import Verif.Lemmas.Render.Wp
import Verif.Lemmas.Render.Peek
import Verif.Spec.Size
set_option autoImplicit false
set_option linter.unusedVariables false
/-! # How much the renderer writes -/
namespace PL.Mathml
open W (boom get modify out)
open Spec

variable {α β : Type} (C : Nat)

/-- What an item may cost. -/
def charge (i : RItem) : Nat := 1024 * C + 1024 * itemSize i
def charges (its : List RItem) : Nat := (its.map (charge C)).sum

def OkState (s : RState) : Prop := (∀ c, s.text = some c → ByteColour c) ∧ (∀ c, s.border = some c → ByteColour c) ∧ ∀ c, s.background = some c → ByteColour c

def OkEnv : EnvR → Prop
  | .group (.array cols _) => cols.length ≤ C
  | _ => True

structure Okay (s : RSt) : Prop where
  env : ∀ e ∈ s.env, OkEnv C e
  sts : ∀ t ∈ s.sts, OkState t
  items : ∀ i ∈ s.peeked ++ s.rest, Within C i

/-- The characters written and those to come. -/
def pot (s : RSt) : Nat := s.out.length + 64 * s.env.length + charges C (s.peeked ++ s.rest)

/-- `m` writes at most `k` characters that are not accounted for. -/
def Cost (m : W α) (k : Nat) : Prop := ∀ s a s', Okay C s → m s = .ok a s' → Okay C s' ∧ pot C s' ≤ pot C s + k

variable {C}

theorem Cost.mono {m : W α} {j k : Nat} (h : Cost C m j) (hjk : j ≤ k) : Cost C m k := fun s a s' ho e =>
  ⟨(h s a s' ho e).1, by have := (h s a s' ho e).2; omega⟩

theorem Cost.pure (a : α) (k : Nat) : Cost C (Pure.pure a : W α) k := fun s b s' ho e => by cases e; exact ⟨ho, by omega⟩

theorem Cost.boom (p : Panic) (k : Nat) : Cost C (boom p : W α) k := fun s b s' ho e => by cases e

theorem Cost.bind {m : W α} {f : α → W β} {j k : Nat} (hm : Cost C m j) (hjk : j ≤ k) (hf : ∀ a, Cost C (f a) (k - j)) : Cost C (m >>= f) k := by
  intro s b s' ho e
  rw [run_bind] at e
  cases h : m s with
  | ok a s1 =>
    rw [h] at e
    obtain ⟨h1, h2⟩ := hm s a s1 ho h
    obtain ⟨h3, h4⟩ := hf a s1 b s' h1 e
    exact ⟨h3, by omega⟩
  | io w => rw [h] at e; cases e
  | panic p => rw [h] at e; cases e

theorem Cost.get_bind {f : RSt → W α} {k : Nat} (h : ∀ s, Okay C s → ∀ a s', f s s = .ok a s' → Okay C s' ∧ pot C s' ≤ pot C s + k) : Cost C (get >>= f) k :=
  fun s a s' ho e => h s ho a s' e

/-- The state is only looked at. -/
theorem Cost.get {f : RSt → W α} {k : Nat} (h : ∀ s, Okay C s → Cost C (f s) k) : Cost C (get >>= f) k :=
  fun s a s' ho e => h s ho s a s' ho e

theorem Cost.out {t : Str} {k : Nat} (h : t.length ≤ k) : Cost C (out t) k := by
  intro s a s' ho e
  unfold W.out at e
  split at e
  · cases e
    exact ⟨⟨ho.env, ho.sts, ho.items⟩, by simp only [pot, List.length_append]; omega⟩
  · split at e
    · cases e
      exact ⟨⟨ho.env, ho.sts, ho.items⟩, by simp only [pot, List.length_append]; omega⟩
    · cases e

theorem Cost.out_bind {t : Str} {f : PUnit → W α} {k : Nat} (h : t.length ≤ k) (hf : Cost C (f ⟨⟩) (k - t.length)) : Cost C (W.out t >>= f) k :=
  (Cost.out (Nat.le_refl _)).bind h fun _ => hf

theorem Cost.modify {f : RSt → RSt} {k : Nat} (h : ∀ s, Okay C s → Okay C (f s) ∧ pot C (f s) ≤ pot C s + k) : Cost C (modify f) k :=
  fun s a s' ho e => by cases e; exact h s ho

theorem Cost.ite {p : Prop} [Decidable p] {m m' : W α} {k : Nat} (h : Cost C m k) (h' : Cost C m' k) : Cost C (if p then m else m') k := by
  split
  · exact h
  · exact h'

theorem charges_cons (i : RItem) (a : List RItem) : charges C (i :: a) = charge C i + charges C a := by simp [charges]
theorem charges_eq (its : List RItem) : charges C its = 1024 * (C * its.length + totalSize its) := by
  induction its with
  | nil => simp [charges, totalSize]
  | cons i its ih =>
    rw [charges_cons, ih]
    simp only [charge, totalSize, List.map_cons, List.sum_cons, List.length_cons, Nat.mul_add, Nat.mul_one]
    omega

theorem Okay.of {s s' : RSt} (h : Okay C s) (h1 : s'.env = s.env) (h2 : s'.sts = s.sts) (h3 : s'.peeked ++ s'.rest = s.peeked ++ s.rest) : Okay C s' :=
  ⟨by rw [h1]; exact h.env, by rw [h2]; exact h.sts, by rw [h3]; exact h.items⟩

theorem pot_of {s s' : RSt} (h0 : s'.out = s.out) (h1 : s'.env = s.env) (h3 : s'.peeked ++ s'.rest = s.peeked ++ s.rest) : pot C s' = pot C s := by
  simp only [pot, h0, h1, h3]

theorem cost_peekNext (k : Nat) : Cost C peekNext k := by
  intro s a s' ho e
  unfold peekNext at e
  split at e
  · cases e; exact ⟨ho, by omega⟩
  · rename_i i r hr
    cases e
    have : (s.peeked ++ [i]) ++ r = s.peeked ++ s.rest := by simp [hr]
    exact ⟨ho.of rfl rfl this, Nat.le_trans (Nat.le_of_eq (pot_of (s := s) rfl rfl this)) (Nat.le_add_right _ _)⟩

theorem cost_peekFirst (k : Nat) : Cost C peekFirst k := by
  unfold peekFirst
  refine .get fun s _ => ?_
  split
  · exact cost_peekNext k
  · exact .pure _ _

/-- The item read is accounted for. -/
theorem next_spec {s s' : RSt} {o : Option RItem} (ho : Okay C s) (e : next s = .ok o s') : Okay C s' ∧ match o with
    | none => pot C s' = pot C s
    | some i => Within C i ∧ pot C s' + charge C i = pot C s ∧ (s.peeked ++ s.rest).head? = some i := by
  unfold next at e
  split at e
  · rename_i i p hp
    cases e
    refine ⟨⟨ho.env, ho.sts, fun j hj => ho.items j (by rw [hp]; simp only [List.cons_append, List.mem_cons]; exact .inr hj)⟩, ho.items i (by simp [hp]), ?_, by simp [hp]⟩
    simp only [pot, hp, List.cons_append, charges_cons]
    omega
  · rename_i hp
    split at e
    · rename_i i r hr
      cases e
      refine ⟨⟨ho.env, ho.sts, fun j hj => ho.items j (by rw [hp, hr]; simp only [hp] at hj; simp only [List.nil_append, List.mem_cons] at hj ⊢; exact .inr hj)⟩,
        ho.items i (by simp [hp, hr]), ?_, by simp [hp, hr]⟩
      simp only [pot, hp, hr, List.nil_append, charges_cons]
      omega
    · cases e; exact ⟨ho, rfl⟩

theorem cost_next (k : Nat) : Cost C next k := by
  intro s a s' ho e
  obtain ⟨h1, h2⟩ := next_spec ho e
  refine ⟨h1, ?_⟩
  cases a with
  | none => simp only at h2; omega
  | some i => obtain ⟨-, h2, -⟩ := h2; omega

theorem digits_len (b n : Nat) (h : n < 256) (hb : b = 10 ∨ b = 16) : (Nat.toDigits b n).length ≤ 3 := by
  rcases hb with rfl | rfl
  · have : ∀ n : Fin 256, (Nat.toDigits 10 n.1).length ≤ 3 := by decide +kernel
    exact this ⟨n, h⟩
  · have : ∀ n : Fin 256, (Nat.toDigits 16 n.1).length ≤ 3 := by decide +kernel
    exact this ⟨n, h⟩

theorem rgb_len {c : Nat × Nat × Nat} (h : ByteColour c) : (rgbStr c).length ≤ 16 := by
  obtain ⟨h1, h2, h3⟩ := h
  have a := digits_len 10 _ h1 (.inl rfl)
  have b := digits_len 10 _ h2 (.inl rfl)
  have d := digits_len 10 _ h3 (.inl rfl)
  simp only [rgbStr, decStr, List.length_append, List.length_cons, List.length_nil]
  omega

theorem color_len {s : RState} (h : OkState s) : (colorAttr s).length ≤ 120 := by
  obtain ⟨font, tx, bo, ba, style⟩ := s
  obtain ⟨h1, h2, h3⟩ := h
  have f1 : ∀ c, tx = some c → (rgbStr c).length ≤ 16 := fun c e => rgb_len (h1 c e)
  have f2 : ∀ c, bo = some c → (rgbStr c).length ≤ 16 := fun c e => rgb_len (h2 c e)
  have f3 : ∀ c, ba = some c → (rgbStr c).length ≤ 16 := fun c e => rgb_len (h3 c e)
  cases tx <;> cases bo <;> cases ba <;>
    simp only [Option.some.injEq, forall_eq', reduceCtorEq, false_implies, implies_true] at f1 f2 f3 <;>
    simp [colorAttr] <;> omega

theorem style_len (s : Style) : (styleAttr s).length ≤ 44 := by cases s <;> decide

theorem tag_len {s : RState} (h : OkState s) (env : List EnvR) (tag : Str) (c : Option Str) :
    (openTagStr s env tag c).length ≤ 175 + tag.length + (c.getD []).length := by
  have a := color_len h
  obtain ⟨font, tx, bo, ba, style⟩ := s
  unfold openTagStr
  cases style with
  | none => cases c <;> simp <;> omega
  | some y =>
    have := style_len y
    simp only
    split <;> cases c <;> simp <;> omega

theorem cost_state_bind {f : RState → W α} {k : Nat} (h : ∀ t, OkState t → Cost C (f t) k) : Cost C (state >>= f) k := by
  intro s a s' ho e
  rw [run_bind] at e
  cases hs : s.sts with
  | nil =>
    have : state s = .panic .explicit := by
      unfold state; rw [run_bind]; simp only [W.get, hs]; rfl
    rw [this] at e; cases e
  | cons t r =>
    have : state s = .ok t s := by
      unfold state; rw [run_bind]; simp only [W.get, hs]; rfl
    rw [this] at e
    exact h t (ho.sts t (by simp [hs])) s a s' ho e

theorem cost_updState {f : RState → RState} (h : ∀ t, OkState t → OkState (f t)) (k : Nat) : Cost C (updState f) k := by
  unfold updState
  refine Cost.get_bind fun s ho a s' e => ?_
  cases hs : s.sts with
  | nil => simp only [hs] at e; cases e
  | cons t r =>
    simp only [hs] at e
    cases e
    refine ⟨⟨ho.env, ?_, ho.items⟩, by simp [pot]⟩
    intro x hx
    rcases List.mem_cons.1 hx with rfl | hx
    · exact h t (ho.sts t (by simp [hs]))
    · exact ho.sts x (by simp [hs, hx])

theorem cost_openTag {tag : Str} {c : Option Str} {k : Nat} (h : 175 + tag.length + (c.getD []).length ≤ k) : Cost C (openTag tag c) k := by
  unfold openTag
  refine cost_state_bind fun t ht => ?_
  refine Cost.get fun s _ => ?_
  exact .out (Nat.le_trans (tag_len ht _ _ _) h)

theorem cost_setPrev (a : Atom) (k : Nat) : Cost C (setPrev a) k := by
  intro s x s' ho e
  rw [setPrev_eq] at e
  cases e
  exact ⟨ho.of rfl rfl rfl, by simp [pot]⟩

theorem cost_forcePrev (a : Option Atom) (k : Nat) : Cost C (forcePrev a) k :=
  .modify fun s ho => ⟨ho.of rfl rfl rfl, by simp [pot]⟩

theorem cost_recover (k : Nat) : Cost C recover k := .modify fun s ho => ⟨ho.of rfl rfl rfl, by simp [pot]⟩

theorem cost_nextAtomLoop (k : Nat) : ∀ n i, Cost C (nextAtomLoop n i) k
  | 0, _ => .boom _ _
  | n + 1, i => by
    unfold nextAtomLoop
    refine .get fun s _ => ?_
    split
    · split
      · exact cost_nextAtomLoop k n _
      · exact .pure _ _
    · refine (cost_peekNext 0).bind (Nat.zero_le k) fun a => ?_
      split
      · exact .pure _ _
      · split
        · exact cost_nextAtomLoop k n _
        · exact .pure _ _

theorem cost_nextAtom (k : Nat) : Cost C nextAtom k := by
  unfold nextAtom
  exact .get fun s _ => cost_nextAtomLoop k _ _

theorem cost_mapChar (f : Font) (c : Char) (k : Nat) : Cost C (mapChar f c) k := by
  unfold mapChar
  split
  · exact .pure _ _
  · exact .boom _ _

theorem cost_forChars {f : Char → W PUnit} {k : Nat} (h : ∀ c, Cost C (f c) k) : ∀ s : Str, Cost C (forChars f s) (k * s.length)
  | [] => .pure _ _
  | c :: s => by
    unfold forChars
    refine (h c).bind (by simp [Nat.mul_succ]) fun _ => (cost_forChars h s).mono ?_
    simp [Nat.mul_succ]

theorem cost_applyFunction {k : Nat} (h : 40 ≤ k) : Cost C applyFunction k := by
  unfold applyFunction
  refine (cost_nextAtom 0).bind (Nat.zero_le _) fun a => ?_
  split
  · exact .pure _ _
  · refine .out_bind (by simp; omega) ?_
    split
    · exact .pure _ _
    · exact .out (by simp; omega)

/-! ## Contents -/

theorem escapeChar_len (c : Char) : (escapeChar c).length ≤ 5 := by
  unfold escapeChar
  split
  · decide
  · split
    · decide
    · split
      · decide
      · simp

theorem escape_len (s : Str) : (escape s).length ≤ 5 * s.length := by
  induction s with
  | nil => simp [escape]
  | cons c s ih =>
    have := escapeChar_len c
    simp only [escape, List.flatMap_cons, List.length_append, List.length_cons] at ih ⊢
    omega

theorem trim_len (s : Str) : (trim s).length ≤ s.length := by
  unfold trim trimEnd trimStart
  have h1 := (List.dropWhile_sublist (p := isWs) (l := s)).length_le
  have h2 := (List.dropWhile_sublist (p := isWs) (l := (s.dropWhile isWs).reverse)).length_le
  simp only [List.length_reverse] at *
  omega

theorem stroke_len (b : Bool) : (stroke b).length ≤ 1 := by cases b <;> decide
theorem em_len (z : DelimSize) : (emStr z).length ≤ 3 := by cases z <;> decide

/-- Lengths of literals, sums of lengths. -/
macro "lens" : tactic => `(tactic| first
  | omega
  | (simp only [List.length_append, List.length_cons, List.length_nil, Option.getD_none, Option.getD_some] at *; omega)
  | (split <;> simp only [List.length_append, List.length_cons, List.length_nil, Option.getD_none, Option.getD_some] at * <;> omega)
  | (split <;> split <;> simp only [List.length_append, List.length_cons, List.length_nil, Option.getD_none, Option.getD_some] at * <;> omega))

/-- One step in bounding what is written. -/
macro "cost1" : tactic => `(tactic| with_reducible first
  | exact Cost.pure _ _
  | exact Cost.boom _ _
  | (refine Cost.out_bind (by lens) ?_)
  | exact Cost.out (by lens)
  | exact cost_openTag (by lens)
  | exact cost_setPrev _ _
  | exact cost_forcePrev _ _
  | exact cost_recover _
  | exact cost_applyFunction (by lens)
  | (refine Cost.bind (cost_openTag (Nat.le_refl _)) (by lens) fun _ => ?_)
  | (refine Cost.bind (cost_setPrev _ 0) (Nat.zero_le _) fun _ => ?_)
  | (refine Cost.bind (cost_forcePrev _ 0) (Nat.zero_le _) fun _ => ?_)
  | (refine Cost.bind (cost_mapChar _ _ 0) (Nat.zero_le _) fun _ => ?_)
  | (refine Cost.bind (cost_nextAtom 0) (Nat.zero_le _) fun _ => ?_)
  | (refine cost_state_bind fun _ _ => ?_)
  | (refine Cost.get fun _ _ => ?_)
  | split
  | (dsimp only; split))

theorem cost_function_end {k : Nat} (h : 40 ≤ k) : Cost C (get >>= fun s => match s.env with
    | .script ty a n _ :: es => modify fun s => { s with env := .script ty a n true :: es }
    | _ => applyFunction) k := by
  refine Cost.get_bind fun s ho a s' e => ?_
  have ha := cost_applyFunction h s a s' ho
  cases he : s.env with
  | nil => simp only [he] at e; exact ha e
  | cons x es =>
    cases x with
    | group g => simp only [he] at e; exact ha e
    | visual v n => simp only [he] at e; exact ha e
    | script ty a n f =>
      simp only [he] at e
      cases e
      refine ⟨⟨fun x hx => ?_, ho.sts, ho.items⟩, by simp [pot, he]⟩
      rcases List.mem_cons.1 hx with rfl | hx
      · exact trivial
      · exact ho.env x (by rw [he]; exact List.mem_cons_of_mem _ hx)

theorem cost_writeContent (cfg : RCfg) (neg : Bool) (c : Content) : Cost C (writeContent cfg neg c) (384 * itemSize (.ok (.content c))) := by
  have hs := stroke_len neg
  cases c with
  | text t =>
    have h1 := trim_len t
    have h2 := escape_len (trim t)
    have h3 : ∀ f, Cost C (forChars (fun c => do out (escapeChar (← mapChar f c))) (trim t)) (5 * (trim t).length) := fun f =>
      cost_forChars (fun c => Cost.bind (cost_mapChar _ _ 0) (Nat.zero_le _) fun _ => .out (escapeChar_len _)) (trim t)
    unfold writeContent
    simp only [itemSize]
    repeat' first
      | cost1
      | (refine Cost.bind (h3 _) (by lens) fun _ => ?_)
  | number t =>
    have h3 : Cost C (forChars (fun c => do
      match (← state).font with
      | some .boldSymbol => out [← mapChar .bold c]
      | some f => out [← mapChar f c]
      | none => out [c]) t) (1 * t.length) := by
      refine cost_forChars (fun c => ?_) t
      repeat' cost1
    unfold writeContent
    simp only [itemSize]
    repeat' first
      | cost1
      | (refine Cost.bind h3 (by lens) fun _ => ?_)
  | function t =>
    unfold writeContent
    simp only [itemSize]
    repeat' first
      | exact cost_function_end (by lens)
      | cost1
  | delimiter c size ty =>
    have h1 : ∀ z, (emStr z).length ≤ 3 := em_len
    unfold writeContent
    simp only [itemSize]
    cases size with
    | none => repeat' cost1
    | some z =>
      have := h1 z
      repeat' cost1
  | binaryOp c small =>
    unfold writeContent
    simp only [itemSize]
    refine Cost.get fun s _ => ?_
    refine Cost.bind (j := 0) ?_ (Nat.zero_le _) fun b => ?_
    · repeat' cost1
    · repeat' cost1
  | relation c d small =>
    have : d.toList.length ≤ 1 := by cases d <;> simp
    unfold writeContent
    simp only [itemSize]
    repeat' cost1
  | _ =>
    unfold writeContent
    simp only [itemSize]
    repeat' cost1

/-! ## Arrays -/

theorem leadSeps_fits : ∀ cols : List ArrayCol, (leadSeps cols).length ≤ cols.length := by
  intro cols
  fun_induction leadSeps cols with
  | case1 l m r ih => simp at ih ⊢; omega
  | case2 => simp

theorem seps_fits : ∀ cols : List ArrayCol, (seps cols).length ≤ cols.length := by
  intro cols
  fun_induction seps cols with
  | case1 l r ih => simp at ih ⊢; omega
  | case2 => simp

theorem flat_len {γ : Type} (f : γ → Str) (k : Nat) (h : ∀ x, (f x).length ≤ k) (l : List γ) : (l.flatMap f).length ≤ k * l.length := by
  induction l with
  | nil => simp
  | cons x l ih =>
    have := h x
    simp only [List.flatMap_cons, List.length_append, List.length_cons, Nat.mul_succ]
    omega

theorem closeSeps_len (ls : List Line) : (closeSeps ls).length ≤ 64 * ls.length :=
  flat_len _ 64 (fun l => by cases l <;> decide) ls

theorem hlines_len : ∀ ls : List Line, (hlinesStr ls).length ≤ 96 * ls.length
  | [] => by simp [hlinesStr]
  | [l] => by cases l <;> decide
  | l :: m :: ls => by
    have := hlines_len (m :: ls)
    have h : (solidDashed l c!" class=\"menv-hline\"><mtd class=\"menv-nonumber\"></mtd></mtr><mtr"
      c!" class=\"menv-hdashline\"><mtd class=\"menv-nonumber\"></mtd></mtr><mtr").length ≤ 96 := by cases l <;> decide
    unfold hlinesStr
    simp only [List.length_append, List.length_cons] at this h ⊢
    omega

theorem colSep_len (a : ColAlign) (l : Line) : (colSepStr a l).length ≤ 64 := by cases a <;> cases l <;> decide
theorem col_len (a : ColAlign) : (colStr a).length ≤ 64 := by cases a <;> decide
theorem sepCol_len (l : Line) (a : ColAlign) : (sepColStr l a).length ≤ 64 := by cases a <;> cases l <;> decide

theorem cost_arrayNewline (cols : List ArrayCol) {k : Nat} (h : 64 * cols.length + 128 ≤ k) : Cost C (arrayNewline cols) k := by
  have h1 := leadSeps_fits cols
  have h2 := flat_len (fun l => solidDashed l c!" class=\"menv-left-solid menv-border-only\"></mtd><mtd"
    c!" class=\"menv-left-dashed menv-border-only\"></mtd><mtd") 64 (fun l => by cases l <;> decide) (leadSeps cols)
  have h3 := colSep_len
  unfold arrayNewline
  refine .out_bind (by lens) ?_
  refine .out_bind (by lens) ?_
  dsimp only
  split
  · rename_i l a _ _
    have := sepCol_len l a
    refine .out_bind (by lens) ?_
    split
    · refine .out_bind (t := solidDashed _ _ _) ?_ (.pure _ _)
      rename_i l' _
      have : (solidDashed l' c!" menv-right-solid\">" c!" menv-right-dashed\">").length ≤ 24 := by cases l' <;> decide
      lens
    · repeat' cost1
  · rename_i a l _ _
    have := colSep_len a l
    repeat' cost1
  · rename_i a _ _
    have := col_len a
    repeat' cost1
  · repeat' cost1
  · repeat' cost1

theorem cost_arrayAlign (cols : List ArrayCol) (i : Nat) {k : Nat} (h : 64 * cols.length + 128 ≤ k) : Cost C (arrayAlign cols i) k := by
  have h1 := seps_fits (cols.drop i)
  have h2 := flat_len (fun l => solidDashed l c!" class=\"menv-right-solid menv-border-only\"></mtd><mtd"
      c!" class=\"menv-right-dashed menv-border-only\"></mtd><mtd") 64 (fun l => by cases l <;> decide) (seps (cols.drop i))
  have h4 : (cols.drop i).length ≤ cols.length := by simp
  unfold arrayAlign
  refine .out_bind (by lens) ?_
  split
  · exact .boom _ _
  · refine .out_bind (by lens) ?_
    dsimp only
    split
    · exact .boom _ _
    · rename_i a l _ _
      have := colSep_len a l
      repeat' cost1
    · rename_i a _ _
      have := col_len a
      repeat' cost1
    · exact .boom _ _

theorem wbind_assoc {γ : Type} (m : W α) (f : α → W β) (g : β → W γ) : (m >>= f) >>= g = m >>= fun x => f x >>= g := by
  funext s
  simp only [run_bind]
  cases m s <;> rfl

theorem wpure_bind (a : α) (f : α → W β) : (Pure.pure a : W α) >>= f = f a := rfl

/-- Moving on in the columns is paid for by the columns passed. -/
theorem cost_arrayAlign_bind (cols : List ArrayCol) (i : Nat) {f : Nat → W α} {k : Nat} (hk : 192 * (cols.length - i) ≤ k)
    (h : ∀ j, i < j → j ≤ cols.length → Cost C (f j) (k - 192 * (j - i))) : Cost C (arrayAlign cols i >>= f) k := by
  have h1 := seps_fits (cols.drop i)
  have h2 := flat_len (fun l => solidDashed l c!" class=\"menv-right-solid menv-border-only\"></mtd><mtd"
      c!" class=\"menv-right-dashed menv-border-only\"></mtd><mtd") 64 (fun l => by cases l <;> decide) (seps (cols.drop i))
  have h4 : (cols.drop i).length = cols.length - i := by simp
  unfold arrayAlign
  rw [wbind_assoc]
  by_cases hi : i > cols.length
  · simp only [if_pos hi]
    intro s a s' ho e
    rw [run_bind] at e
    cases h : out c!"</mtd><mtd" s with
    | ok a s1 => rw [h] at e; cases e
    | io w => rw [h] at e; cases e
    | panic p => rw [h] at e; cases e
  simp only [if_neg hi]
  generalize hL : (seps (cols.drop i)).length = L at *
  have key : ∀ {t : Str} {j : Nat}, i + L < j → j ≤ cols.length → t.length ≤ 64 →
      Cost C (out c!"</mtd><mtd" >>= fun _ => (out ((seps (cols.drop i)).flatMap fun l => solidDashed l c!" class=\"menv-right-solid menv-border-only\"></mtd><mtd"
      c!" class=\"menv-right-dashed menv-border-only\"></mtd><mtd") >>= fun _ => (out t >>= fun _ => Pure.pure j)) >>= f) k := by
    intro t j h5 h6 h7
    simp only [wbind_assoc, wpure_bind]
    refine .out_bind (by lens) ?_
    refine .out_bind (by lens) ?_
    refine .out_bind (by lens) ?_
    exact (h j (by omega) h6).mono (by lens)
  have bad : ∀ p : Panic, Cost C (out c!"</mtd><mtd" >>= fun _ => (out ((seps (cols.drop i)).flatMap fun l =>
      solidDashed l c!" class=\"menv-right-solid menv-border-only\"></mtd><mtd" c!" class=\"menv-right-dashed menv-border-only\"></mtd><mtd") >>= fun _ =>
      (boom p : W Nat)) >>= f) k := by
    intro p s a s' ho e
    simp only [wbind_assoc] at e
    rw [run_bind] at e
    split at e
    · rw [run_bind] at e
      split at e
      · cases e
      · cases e
      · cases e
    · cases e
    · cases e
  cases hc : cols[i + L]? with
  | none => exact bad _
  | some x =>
    have hl := (List.getElem?_eq_some_iff.1 hc).1
    cases x with
    | separator l => exact bad _
    | column a =>
      cases hd : cols[i + L + 1]? with
      | none => exact key (by omega) (by omega) (col_len a)
      | some y =>
        have hl' := (List.getElem?_eq_some_iff.1 hd).1
        cases y with
        | separator l => exact key (by omega) (by omega) (colSep_len a l)
        | column b => exact key (by omega) (by omega) (col_len a)

theorem cost_arrayCloseLine (cols : List ArrayCol) (i : Nat) {k : Nat} (h : 64 * cols.length + 128 ≤ k) : Cost C (arrayCloseLine cols i) k := by
  have h1 := seps_fits (cols.drop i)
  have h2 := closeSeps_len (seps (cols.drop i))
  have h4 : (cols.drop i).length ≤ cols.length := by simp
  unfold arrayCloseLine
  repeat' cost1

/-! ## Events -/

theorem cost_alignUpTo (cols : List ArrayCol) (t : Nat) : ∀ n i, Cost C (alignUpTo cols t n i) (192 * (cols.length - i))
  | 0, _ => .boom _ _
  | n + 1, i => by
    unfold alignUpTo
    split
    · exact cost_arrayAlign_bind cols i (Nat.le_refl _) fun j h1 h2 => (cost_alignUpTo cols t n j).mono (by omega)
    · exact .pure _ _

theorem cost_setTop {g : EnvG} (h : OkEnv C (.group g)) {k : Nat} (hk : 64 ≤ k) : Cost C (setTop g) k :=
  .modify fun s ho => by
    refine ⟨⟨fun x hx => ?_, ho.sts, ho.items⟩, ?_⟩
    · rcases List.mem_cons.1 hx with rfl | hx
      · exact h
      · exact ho.env x (List.mem_of_mem_tail hx)
    · simp only [pot, List.length_cons, List.length_tail]
      omega

theorem Same.okay {s t : RSt} (h : Same s t) (ho : Okay C s) : Okay C t ∧ pot C t = pot C s := by
  obtain ⟨p, r, rfl, hp⟩ := h
  exact ⟨ho.of rfl rfl hp, pot_of rfl rfl hp⟩

theorem cost_peekFirst_bind {f : Option RItem → W α} {k : Nat} (h : ∀ o, (∀ i, o = some i → Within C i) → Cost C (f o) k) : Cost C (peekFirst >>= f) k := by
  intro s a s' ho e
  obtain ⟨t, h1, h2⟩ := peekFirst_eq s
  rw [run_bind, h1] at e
  obtain ⟨h3, h4⟩ := h2.okay ho
  obtain ⟨h5, h6⟩ := h _ (fun i hi => ho.items i (by
    have : i ∈ s.items := List.mem_of_mem_head? hi
    exact this)) t a s' h3 e
  exact ⟨h5, by omega⟩

theorem applyChange_ok {sc : StateChange} (h : Within C (.ok (.stateChange sc))) (t : RState) (ht : OkState t) : OkState (applyChange sc t) := by
  obtain ⟨h1, h2, h3⟩ := ht
  unfold applyChange
  split
  · exact ⟨h1, h2, h3⟩
  · exact ⟨fun c e => (by cases e; exact h), h2, h3⟩
  · exact ⟨h1, fun c e => (by cases e; exact h), h3⟩
  · exact ⟨h1, h2, fun c e => by cases e; exact h⟩
  · exact ⟨h1, h2, h3⟩

theorem cost_groupChanges : ∀ n, Cost C (groupChanges n) 0
  | 0 => .boom _ _
  | n + 1 => by
    unfold groupChanges
    refine cost_peekFirst_bind fun o ho => ?_
    split
    · refine (cost_updState (applyChange_ok (ho _ rfl)) 0).bind (Nat.zero_le _) fun _ => ?_
      exact (cost_next 0).bind (Nat.zero_le _) fun _ => cost_groupChanges n
    · exact .pure _ _

theorem out_eq {t : Str} {s s' : RSt} {a : PUnit} (e : out t s = .ok a s') : ∃ b, s' = { s with out := s.out ++ t, budget := b } := by
  unfold W.out at e
  split at e
  · cases e; exact ⟨_, rfl⟩
  · split at e
    · cases e; exact ⟨_, rfl⟩
    · cases e

theorem cost_envLines (k : Nat) : Cost C envLines k := by
  intro s a s' ho e
  unfold envLines at e
  obtain ⟨t, h1, h2⟩ := peekFirst_eq s
  rw [run_bind, h1] at e
  obtain ⟨h3, h4⟩ := h2.okay ho
  dsimp only at e
  generalize ho' : s.items.head? = o at e
  split at e
  rotate_left
  · cases e; exact ⟨h3, by omega⟩
  rename_i ls
  rw [run_bind] at e
  cases h5 : out (hlinesStr ls) t with
  | io w => rw [h5] at e; cases e
  | panic p => rw [h5] at e; cases e
  | ok x u =>
    rw [h5] at e
    obtain ⟨b, rfl⟩ := out_eq h5
    dsimp only at e
    rw [run_bind] at e
    have h6 : Okay C { t with out := t.out ++ hlinesStr ls, budget := b } := h3.of rfl rfl rfl
    cases h7 : next { t with out := t.out ++ hlinesStr ls, budget := b } with
    | io w => rw [h7] at e; cases e
    | panic p => rw [h7] at e; cases e
    | ok y v =>
      rw [h7] at e
      obtain ⟨h8, h9⟩ := next_spec h6 h7
      cases e
      refine ⟨h8, ?_⟩
      have hp : pot C { t with out := t.out ++ hlinesStr ls, budget := b } = pot C t + (hlinesStr ls).length := by simp only [pot, List.length_append]; omega
      cases y with
      | none =>
        exfalso
        have : t.items = s.items := h2.items
        unfold next at h7
        split at h7
        · cases h7
        · rename_i hpk
          split at h7
          · cases h7
          · rename_i hrt
            have h0 : t.items = [] := by simp only [RSt.items] ; simp only at hpk hrt; rw [hpk, hrt]; rfl
            rw [← this, h0] at ho'
            cases ho'
      | some i =>
        obtain ⟨-, h9, h10⟩ := h9
        have : i = .ok (.flow (.startLines ls)) := by
          have h11 : t.items = s.items := h2.items
          rw [← h11] at ho'
          simp only [RSt.items] at ho'
          simp only at h10
          rw [ho'] at h10
          cases h10
          rfl
        subst this
        have hl := hlines_len ls
        simp only [charge, itemSize] at h9
        omega

theorem cost_tableOpen {t : Str} {g : EnvG} {k : Nat} (h : t.length + 16 ≤ k) : Cost C (tableOpen t g) k := by
  unfold tableOpen
  refine .out_bind (by lens) ?_
  refine (cost_envLines 0).bind (Nat.zero_le _) fun _ => ?_
  exact .out_bind (by lens) (.pure _ _)

theorem cost_writeDelim (c : Option Char) {k : Nat} (h : 220 ≤ k) : Cost C (writeDelim c) k := by
  cases c <;> unfold writeDelim <;> repeat' cost1

theorem cost_tableOpen_bind {t : Str} {g : EnvG} {f : EnvG → W α} {k : Nat} (h : t.length + 16 ≤ k) (hf : Cost C (f g) (k - (t.length + 16))) :
    Cost C (tableOpen t g >>= f) k := by
  unfold tableOpen
  simp only [wbind_assoc, wpure_bind]
  refine .out_bind (by omega) ?_
  refine (cost_envLines 0).bind (Nat.zero_le _) fun _ => ?_
  refine .out_bind (by lens) (hf.mono ?_)
  simp only [List.length_cons, List.length_nil]
  omega

theorem cost_openGroup_bind {g : Grouping} (hg : Within C (.ok (.begin_ g))) {f : EnvG → W α} {k : Nat} (hk : 64 * C + 384 ≤ k)
    (hf : ∀ e, OkEnv C (.group e) → Cost C (f e) (k - (64 * C + 384))) : Cost C (openGroup g >>= f) k := by
  have tab : ∀ {t : Str} {e : EnvG}, t.length ≤ 128 → OkEnv C (.group e) → Cost C (tableOpen t e >>= f) k := fun ht he =>
    cost_tableOpen_bind (by omega) ((hf _ he).mono (by omega))
  cases g with
  | normal =>
    unfold openGroup
    exact (hf .normal trivial).mono (by omega)
  | leftRight l r =>
    unfold openGroup
    simp only [wbind_assoc, wpure_bind]
    refine (cost_writeDelim l (Nat.le_refl _)).bind (by omega) fun _ => ?_
    refine (cost_forcePrev _ 0).bind (Nat.zero_le _) fun _ => ?_
    exact (hf (.leftRight r) trivial).mono (by omega)
  | array cols =>
    have hc : cols.length ≤ C := hg
    unfold openGroup
    simp only [wbind_assoc, wpure_bind]
    refine .out_bind (by lens) ?_
    refine (cost_envLines 0).bind (Nat.zero_le _) fun _ => ?_
    refine .out_bind (by lens) ?_
    refine (cost_arrayNewline cols (Nat.le_refl _)).bind (by lens) fun i => ?_
    exact (hf (.array cols i) hc).mono (by lens)
  | equation eq =>
    unfold openGroup
    simp only [wbind_assoc, wpure_bind]
    cases eq
    · exact .out_bind (by simp; omega) ((hf .equation trivial).mono (by simp; omega))
    · exact .out_bind (by simp; omega) ((hf .equation trivial).mono (by simp; omega))
  | align eq => unfold openGroup; exact tab (by cases eq <;> decide) trivial
  | matrix a => unfold openGroup; exact tab (by cases a <;> decide) trivial
  | cases l => unfold openGroup; exact tab (by cases l <;> decide) trivial
  | aligned => unfold openGroup; exact tab (by decide) trivial
  | subArray a => unfold openGroup; exact tab (by cases a <;> decide) trivial
  | alignat n eq => unfold openGroup; exact tab (by cases eq <;> decide) trivial
  | alignedat n => unfold openGroup; exact tab (by decide) trivial
  | gather eq => unfold openGroup; exact tab (by cases eq <;> decide) trivial
  | gathered => unfold openGroup; exact tab (by decide) trivial
  | multline => unfold openGroup; exact tab (by decide) trivial
  | split => unfold openGroup; exact tab (by decide) trivial

theorem okState_font (f : Option Font) : OkState { font := f } := ⟨fun _ e => (by cases e), fun _ e => (by cases e), fun _ e => (by cases e)⟩
theorem okState_empty : OkState {} := okState_font none

theorem cost_push {e : EnvR} (h : OkEnv C e) {k : Nat} (hk : 64 ≤ k) : Cost C (modify fun s => { s with env := e :: s.env }) k :=
  .modify fun s ho => by
    refine ⟨⟨fun x hx => ?_, ho.sts, ho.items⟩, ?_⟩
    · rcases List.mem_cons.1 hx with rfl | hx
      · exact h
      · exact ho.env x hx
    · simp only [pot, List.length_cons]
      omega

theorem cost_pushState {t : RState} (h : OkState t) (k : Nat) : Cost C (modify fun s => { s with sts := t :: s.sts }) k :=
  .modify fun s ho => by
    refine ⟨⟨ho.env, fun x hx => ?_, ho.items⟩, by simp [pot]⟩
    rcases List.mem_cons.1 hx with rfl | hx
    · exact h
    · exact ho.sts x hx

theorem cost_writeBegin {g : Grouping} (hg : Within C (.ok (.begin_ g))) {k : Nat} (hk : 64 * C + 640 ≤ k) : Cost C (writeBegin g) k := by
  unfold writeBegin
  refine (cost_forcePrev _ 0).bind (Nat.zero_le _) fun _ => ?_
  have last : ∀ j, 64 * C + 448 ≤ j → Cost C (do
      let e ← openGroup g
      modify fun s => { s with env := .group e :: s.env }) j := fun j hj =>
    cost_openGroup_bind hg (by omega) fun e he => cost_push he (by omega)
  split
  · refine (cost_pushState okState_empty 0).bind (Nat.zero_le _) fun _ => ?_
    exact last _ (by omega)
  · refine cost_state_bind fun t ht => ?_
    refine (cost_pushState ht 0).bind (Nat.zero_le _) fun _ => ?_
    refine .get fun s _ => ?_
    refine (cost_groupChanges _).bind (Nat.zero_le _) fun _ => ?_
    refine (cost_openTag (Nat.le_refl _)).bind (by lens) fun _ => ?_
    refine .out_bind (by lens) ?_
    refine (cost_updState (fun t _ => ?_) 0).bind (Nat.zero_le _) fun _ => ?_
    · exact okState_font _
    · exact last _ (by lens)

theorem cost_closeGroup {e : EnvG} (h : OkEnv C (.group e)) {k : Nat} (hk : 64 * C + 256 ≤ k) : Cost C (closeGroup e) k := by
  cases e with
  | array cols i =>
    have hc : cols.length ≤ C := h
    have h1 := seps_fits (cols.drop i)
    have h2 := closeSeps_len (seps (cols.drop i))
    have h4 : (cols.drop i).length ≤ cols.length := by simp
    unfold closeGroup
    repeat' cost1
  | leftRight c =>
    unfold closeGroup
    refine (cost_writeDelim c (Nat.le_refl _)).bind (by omega) fun _ => ?_
    repeat' cost1
  | _ =>
    unfold closeGroup
    repeat' cost1

theorem cost_writeEnd {k : Nat} (hk : 64 * C + 256 ≤ k) : Cost C writeEnd k := by
  unfold writeEnd
  refine Cost.get_bind fun s ho a s' e => ?_
  cases he : s.env with
  | nil =>
    simp only [he] at e
    exact cost_recover k s a s' ho e
  | cons x es =>
    cases x with
    | visual v n => simp only [he] at e; exact cost_recover k s a s' ho e
    | script t a n f => simp only [he] at e; exact cost_recover k s _ s' ho e
    | group g =>
      simp only [he] at e
      cases hs : s.sts with
      | nil =>
        rw [run_bind] at e
        simp only [W.modify] at e
        rw [run_bind] at e
        simp only [W.get, hs] at e
        cases e
      | cons t r =>
        rw [run_bind] at e
        simp only [W.modify] at e
        rw [run_bind] at e
        simp only [W.get, hs] at e
        have h1 : Okay C { s with env := es, sts := r } := ⟨fun x hx => ho.env x (by rw [he]; exact List.mem_cons_of_mem _ hx),
          fun x hx => ho.sts x (by rw [hs]; exact List.mem_cons_of_mem _ hx), ho.items⟩
        have h2 : OkEnv C (.group g) := ho.env _ (by rw [he]; exact List.mem_cons_self)
        obtain ⟨h3, h4⟩ := (show Cost C (do forcePrev (some .inner); closeGroup g) k from
          (cost_forcePrev _ 0).bind (Nat.zero_le _) fun _ => cost_closeGroup h2 (by omega)) _ _ _ h1 e
        refine ⟨h3, ?_⟩
        have : pot C { s with env := es, sts := r } ≤ pot C s := by simp only [pot, he, List.length_cons]; omega
        omega

theorem dim_len {cfg : RCfg} (hf : ShortNumbers cfg) (d : Dim) : (dimStr cfg d).length ≤ 66 := by
  have h1 := hf (dimShown d).1
  have h2 : (dimShown d).2.length ≤ 2 := by
    obtain ⟨v, u⟩ := d
    cases u <;> simp [dimShown]
  simp only [dimStr, List.length_append]
  omega

theorem negatable_size {c : Content} (h : negatable c = true) : itemSize (.ok (.content c)) = 1 := by
  cases c <;> simp_all [negatable, itemSize]

theorem cost_writeVisual {cfg : RCfg} (hf : ShortNumbers cfg) (v : Visual) {k : Nat} (hk : 512 ≤ k) : Cost C (writeVisual cfg v) k := by
  have neg : ∀ j, 512 ≤ j → Cost C (do
      openTag c!"mrow" (some c!"mop-negated")
      out c!">"
      modify fun s => { s with env := .visual v (Visual.arity v) :: s.env }) j := fun j hj => by
    refine (cost_openTag (Nat.le_refl _)).bind (by lens) fun _ => ?_
    exact .out_bind (by lens) (cost_push (by exact trivial) (by lens))
  unfold writeVisual
  split
  · refine cost_peekFirst_bind fun o ho => ?_
    split
    · rename_i c
      split
      · rename_i hn
        have h1 := @cost_writeContent C cfg true c
        rw [negatable_size hn] at h1
        exact h1.bind (by omega) fun _ => (cost_next 0).bind (Nat.zero_le _) fun _ => .pure _ _
      · exact neg k hk
    · exact neg k hk
  · refine (cost_push (by exact trivial) (Nat.le_refl _)).bind (by omega) fun _ => ?_
    have ht : (visualTag v).length ≤ 5 := by cases v <;> simp [visualTag]
    refine (cost_openTag (Nat.le_refl _)).bind (by lens) fun _ => ?_
    split
    · rename_i d _
      have := dim_len hf d
      dsimp only
      repeat' cost1
    · repeat' cost1

theorem cost_writeScript (cfg : RCfg) (ty : ScriptType) (p : ScriptPos) {k : Nat} (hk : 512 ≤ k) : Cost C (writeScript cfg ty p) k := by
  unfold writeScript
  refine cost_state_bind fun st _ => ?_
  dsimp only
  refine (cost_push (by exact trivial) (Nat.le_refl _)).bind (by omega) fun _ => ?_
  have ht : ∀ b, (scriptTag ty b).length ≤ 10 := by intro b; cases ty <;> cases b <;> decide
  have ht := ht (match p with
    | .right => false
    | .aboveBelow => true
    | .movable => st.style = some .display || (st.style.isNone && cfg.block))
  refine (cost_openTag (Nat.le_refl _)).bind (by lens) fun _ => ?_
  exact .out (by lens)

theorem cost_writeSpace {cfg : RCfg} (hf : ShortNumbers cfg) (w h d : Option Dim) {k : Nat} (hk : 512 ≤ k) : Cost C (writeSpace cfg w h d) k := by
  have hd : ∀ o : Option Dim, (match o with
      | some d => dimStr cfg d
      | none => [] : Str).length ≤ 66 := fun o => by
    cases o with
    | none => simp
    | some d => exact dim_len hf d
  have h1 := hd w
  have h2 := hd h
  have h3 := hd d
  unfold writeSpace
  cases w <;> cases h <;> cases d <;> dsimp only at h1 h2 h3 ⊢ <;> repeat' cost1

theorem cost_newLineRest {cfg : RCfg} (hf : ShortNumbers cfg) (sp : Option Dim) (ls : List Line) {k : Nat} (hk : 512 * C + 640 + 96 * ls.length ≤ k) :
    Cost C (newLineRest cfg sp ls) k := by
  have hl := hlines_len ls
  have rest : ∀ j, 64 * C + 256 + 96 * ls.length ≤ j → Cost C (do
      out (hlinesStr ls)
      match (← get).env with
      | .group (.cases _ left) :: _ =>
        setTop (.cases false left)
        out c!"><mtd>"
      | .group (.split _) :: _ =>
        setTop (.split false)
        out c!"><mtd>"
      | .group .matrix :: _ => out c!"><mtd>"
      | .group .align :: _ => out c!"><mtd>"
      | .group .gather :: _ => out c!"><mtd>"
      | .group .subArray :: _ => out c!"><mtd>"
      | .group .multline :: _ => out c!"><mtd>"
      | .group (.array cols _) :: _ =>
        out c!">"
        let i ← arrayNewline cols
        setTop (.array cols i)
      | .group (.alignat pairs _) :: _ =>
        setTop (.alignat pairs 0)
        out c!"><mtd>"
      | _ => recover : W PUnit) j := by
    intro j hj
    refine .out_bind (by omega) ?_
    refine .get fun s ho => ?_
    split
    · exact (cost_setTop (by exact trivial) (Nat.le_refl _)).bind (by omega) fun _ => .out (by lens)
    · exact (cost_setTop (by exact trivial) (Nat.le_refl _)).bind (by omega) fun _ => .out (by lens)
    · exact .out (by lens)
    · exact .out (by lens)
    · exact .out (by lens)
    · exact .out (by lens)
    · exact .out (by lens)
    · rename_i cols i es he
      have hc : cols.length ≤ C := ho.env (.group (.array cols i)) (by rw [he]; exact List.mem_cons_self)
      refine .out_bind (by lens) ?_
      refine (cost_arrayNewline cols (Nat.le_refl _)).bind (by lens) fun i => ?_
      exact cost_setTop (by exact hc) (by lens)
    · exact (cost_setTop (by exact trivial) (Nat.le_refl _)).bind (by omega) fun _ => .out (by lens)
    · exact cost_recover _
  unfold newLineRest
  cases sp with
  | none => exact rest k (by omega)
  | some d =>
    have := dim_len hf d
    refine .out_bind (by lens) ?_
    refine .get fun s ho => ?_
    split
    · rename_i cols i es he
      have hc : cols.length ≤ C := ho.env (.group (.array cols i)) (by rw [he]; exact List.mem_cons_self)
      refine (cost_arrayNewline cols (Nat.le_refl _)).bind (by lens) fun j => ?_
      refine (cost_alignUpTo cols i (i + 1) j).bind (by lens) fun j' => ?_
      refine (cost_arrayCloseLine cols j' (Nat.le_refl _)).bind (by lens) fun _ => ?_
      exact rest _ (by lens)
    · refine .out_bind (by lens) ?_
      exact rest _ (by lens)

theorem cost_writeNewLine {cfg : RCfg} (hf : ShortNumbers cfg) (sp : Option Dim) (ls : List Line) {k : Nat} (hk : 576 * C + 896 + 96 * ls.length ≤ k) :
    Cost C (writeNewLine cfg sp ls) k := by
  unfold writeNewLine
  refine (cost_updState (fun _ _ => okState_empty) 0).bind (Nat.zero_le _) fun _ => ?_
  refine (cost_forcePrev _ 0).bind (Nat.zero_le _) fun _ => ?_
  refine .get fun s ho => ?_
  split
  · rename_i cols i es he
    have hc : cols.length ≤ C := ho.env (.group (.array cols i)) (by rw [he]; exact List.mem_cons_self)
    refine (cost_arrayCloseLine cols i (Nat.le_refl _)).bind (by omega) fun _ => ?_
    exact cost_newLineRest hf sp ls (by omega)
  · exact .pure _ _
  · refine .out_bind (by lens) ?_
    exact cost_newLineRest hf sp ls (by lens)

theorem cost_writeAlignment (cfg : RCfg) {k : Nat} (hk : 64 * C + 256 ≤ k) : Cost C (writeAlignment cfg) k := by
  unfold writeAlignment
  refine (cost_updState (fun _ _ => okState_empty) 0).bind (Nat.zero_le _) fun _ => ?_
  refine (cost_forcePrev _ 0).bind (Nat.zero_le _) fun _ => ?_
  refine .get fun s ho => ?_
  split
  · exact .out (by lens)
  · exact .out (by lens)
  · exact .out (by lens)
  · exact .out (by lens)
  · split
    · split
      · exact .boom _ _
      · exact (cost_setTop (by exact trivial) (Nat.le_refl _)).bind (by omega) fun _ => .out (by lens)
    · exact cost_recover _
  · rename_i cols i es he
    have hc : cols.length ≤ C := ho.env (.group (.array cols i)) (by rw [he]; exact List.mem_cons_self)
    refine (cost_arrayAlign cols i (Nat.le_refl _)).bind (by omega) fun j => ?_
    exact cost_setTop (by exact hc) (by omega)
  · exact cost_recover _

theorem cost_writeEvent {cfg : RCfg} (hf : ShortNumbers cfg) (hc : ByteColour cfg.errorColor) {i : RItem} (hi : Within C i) :
    Cost C (writeEvent cfg i) (charge C i) := by
  cases i with
  | err m =>
    obtain ⟨c1, c2, c3⟩ := hc
    have d1 := digits_len 16 _ c1 (.inr rfl)
    have d2 := digits_len 16 _ c2 (.inr rfl)
    have d3 := digits_len 16 _ c3 (.inr rfl)
    unfold writeEvent
    simp only [charge, itemSize, hexStr]
    refine (cost_recover 0).bind (Nat.zero_le _) fun _ => ?_
    repeat' cost1
  | ok e =>
    cases e with
    | content c =>
      refine (cost_writeContent cfg false c).mono (by simp only [charge]; omega)
    | begin_ g =>
      have : 1 ≤ itemSize (.ok (.begin_ g)) := by cases g <;> simp [itemSize]
      exact cost_writeBegin hi (by simp only [charge]; omega)
    | end_ => exact cost_writeEnd (by simp only [charge, itemSize]; omega)
    | visual v => exact cost_writeVisual hf v (by simp only [charge, itemSize]; omega)
    | script ty p => exact cost_writeScript cfg ty p (by simp only [charge, itemSize]; omega)
    | space w h d => exact cost_writeSpace hf w h d (by simp only [charge, itemSize]; omega)
    | stateChange sc => exact cost_updState (applyChange_ok hi) _
    | flow f =>
      cases f with
      | alignment => exact cost_writeAlignment cfg (by simp only [charge, itemSize]; omega)
      | startLines ls => exact cost_recover _
      | newLine sp ls =>
        refine cost_writeNewLine hf sp ls ?_
        simp only [charge, itemSize]
        omega

end PL.Mathml

