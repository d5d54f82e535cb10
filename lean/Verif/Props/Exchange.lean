import Verif.Lemmas.Exchange
import Verif.Lemmas.March
import Verif.Props.Preamble
import Verif.Spec.Exchange
set_option autoImplicit false
/-!
# C72: definitions count only through what they mean
-/
namespace PL.Props
open PL PL.Lex PL.Macros Spec PL.Formula

variable {cf : Cfg}

theorem serves_of {Δ Δ' : Known} {D D' : Ctx} (ho : cf.overflowChecks = true) (hS : Stores cf D Δ) (hS' : Stores cf D' Δ') (h : Covers Δ Δ') : Serves cf D D' := by
  intro n
  have h0 : D.get n = none ↔ D'.get n = none := (hS n).1.symm.trans ((h n).1.trans (hS' n).1)
  refine ⟨h0, fun s new k e => ?_⟩
  cases hd : Δ n with
  | none => unfold tryExpand at e; rw [(hS n).1.1 hd] at e; cases e
  | some d =>
    cases hd' : Δ' n with
    | none => rw [(h n).1.2 hd'] at hd; cases hd
    | some d' =>
      obtain ⟨df, g1, k1⟩ := (hS n).2.2 d hd
      obtain ⟨df', g2, k2⟩ := (hS' n).2.2 d' hd'
      unfold tryExpand at e ⊢
      rw [g1] at e
      rw [g2]
      have e : expandDefinition cf df s = .ok new k := by simpa using e
      rcases (expand_exact (cf := cf) k1).2.2 ho (fun p hp => by rw [e] at hp; cases hp) with ⟨u, hu⟩ | ⟨x, hx⟩
      · obtain ⟨k', e'⟩ := (expand_exact (cf := cf) k1).1 u hu
        rw [e] at e'
        cases e'
        obtain ⟨k2', e2⟩ := (expand_exact (cf := cf) k2).1 new ((h n).2 d d' hd hd' s new hu)
        exact ⟨k2', by simp [e2]⟩
      · have := (expand_exact (cf := cf) k1).2.1 x hx
        rw [e] at this
        cases this

theorem run_rest {s s1 : State} {its l : List Item} (h : Exec cf s l s1) {n : Nat} (hr : run cf n s = (its, .done)) :
    ∃ n' r, run cf n' s1 = (r, .done) ∧ its = l ++ r := by
  induction h with
  | init => exact ⟨n, its, hr, rfl⟩
  | @item l s i s' _ hst ih =>
    obtain ⟨k, r, h1, h2⟩ := ih
    cases k with
    | zero => rw [run] at h1; cases h1
    | succ k =>
      rw [run, hst] at h1
      simp only [Prod.mk.injEq] at h1
      exact ⟨k, (run cf k s').1, Prod.ext rfl h1.2, by rw [h2, ← h1.1]; simp⟩
  | again _ hst ih =>
    obtain ⟨k, r, h1, h2⟩ := ih
    cases k with
    | zero => rw [run] at h1; cases h1
    | succ k =>
      rw [run, hst] at h1
      exact ⟨k, r, h1, h2⟩

/-- Two texts that begin with definitions and go on in the same way. If the definitions of the second one allow what those of the first one allow, with the same
replacements, and the first text is parsed without errors, then the second one yields the same events. Missing: that the limit for expansions is not reached earlier in the second text. -/
theorem C72_same_partial (cf : Cfg) (ho : cf.overflowChecks = true) (inp inp' t : Str) (Δ Δ' : Known) (its : List Item)
    (hp : Preamble Known.none inp Δ t) (hp' : Preamble Known.none inp' Δ' t) (hc : Covers Δ Δ') (hy : Yields cf inp its) (hn : NoErr its) :
    Yields cf inp' its ∨ ∃ fs ctx s, fs <+: its ∧ Reached cf inp' (fs ++ [.err .macroRecursionLimit ctx]) s := by
  obtain ⟨n, hy⟩ := hy
  obtain ⟨D, c, hS, hc1, hx⟩ := exec_preamble (cf := cf) (c := whole inp) stores_none hp none [] (Spans.init inp) rfl
  obtain ⟨D', c', hS', hc2, hx'⟩ := exec_preamble (cf := cf) (c := whole inp') stores_none hp' none [] (Spans.init inp') rfl
  have hx : Exec cf (State.init inp) [] ⟨[.sub c none], [], D, Spans.init inp⟩ := hx
  have hx' : Exec cf (State.init inp') [] ⟨[.sub c' none], [], D', Spans.init inp'⟩ := hx'
  obtain ⟨k, r, hk, hl⟩ := run_rest hx hy
  have hl : its = r := hl
  subst hl
  obtain ⟨s', he, hs'⟩ := yields_exec hk
  let s0 : State := ⟨[.sub ⟨c.src, c.stop, c'.cs⟩ none], [], D, Spans.init inp⟩
  have h0 : step cf s0 = step cf ⟨[.sub c none], [], D, Spans.init inp⟩ := by
    have e1 := step_trim (cf := cf) (s := s0) (c := ⟨c.src, c.stop, c'.cs⟩) (A := none) (B := [])
    have e2 := step_trim (cf := cf) (s := s0) (c := c) (A := none) (B := [])
    dsimp only at e1 e2
    rw [hc2, ← hc1] at e1
    exact e1.symm.trans e2
  rcases exec_same h0 he with ⟨-, rfl⟩ | he0
  · cases hs'
  have hw : Exchanged cf s0 ⟨[.sub c' none], [], D', Spans.init inp'⟩ := ⟨rfl, rfl, serves_of ho hS hS' hc⟩
  rcases exec_exchanged hx' (fun _ h => by cases h) hw he0 hn with ⟨t', h1, h2⟩ | ⟨fs, ctx, t', h2, h3⟩
  · refine .inl (exec_yields (hx'.trans h1) ?_)
    have := h2.stack
    rw [hs'] at this
    exact List.map_eq_nil_iff.1 this
  · exact .inr ⟨fs, ctx, t', h2, reached_iff.2 (hx'.trans h3)⟩

/-- If both texts are parsed without errors, they yield the same events. -/
theorem C72_same (cf : Cfg) (ho : cf.overflowChecks = true) (inp inp' t : Str) (Δ Δ' : Known) (its its' : List Item)
    (hp : Preamble Known.none inp Δ t) (hp' : Preamble Known.none inp' Δ' t) (hc : Covers Δ Δ') (hy : Yields cf inp its) (hn : NoErr its)
    (hy' : Yields cf inp' its') (hn' : NoErr its') : its = its' := by
  obtain ⟨m, hm⟩ := hy'
  rcases C72_same_partial cf ho inp inp' t Δ Δ' its hp hp' hc hy hn with ⟨n, h⟩ | ⟨fs, ctx, s, -, h⟩
  · exact run_unique h hm
  · obtain ⟨-, r, -, h1⟩ := run_rest (reached_iff.1 h) hm
    obtain ⟨e, he⟩ := hn' (.err .macroRecursionLimit ctx) (by rw [h1]; simp)
    cases he

/-- If moreover the texts lie in memory as in the arena, the limit for expansions is not reached either. -/
theorem C72_meaning (cf : Cfg) (ho : cf.overflowChecks = true) (inp inp' t : Str) (Δ Δ' : Known) (its : List Item) (hl : Stacked cf inp) (hl' : Stacked cf inp')
    (hp : Preamble Known.none inp Δ t) (hp' : Preamble Known.none inp' Δ' t) (hc : Covers Δ Δ') (hy : Yields cf inp its) (hn : NoErr its) : Yields cf inp' its := by
  obtain ⟨n, hy⟩ := hy
  obtain ⟨D, c, hS, hc1, hx⟩ := exec_preamble (cf := cf) (c := whole inp) stores_none hp none [] (Spans.init inp) rfl
  obtain ⟨D', c', hS', hc2, hx'⟩ := exec_preamble (cf := cf) (c := whole inp') stores_none hp' none [] (Spans.init inp') rfl
  have hx : Exec cf (State.init inp) [] ⟨[.sub c none], [], D, Spans.init inp⟩ := hx
  have hx' : Exec cf (State.init inp') [] ⟨[.sub c' none], [], D', Spans.init inp'⟩ := hx'
  have nil : NoErr [] := fun _ h => by cases h
  obtain ⟨k, r, hk, hr⟩ := run_rest hx hy
  have hr : its = r := hr
  subst hr
  cases k with
  | zero => cases hk
  | succ k =>
    have e1 := step_trim (cf := cf) (s := ⟨[], [], D, Spans.init inp⟩) (c := c) (A := none) (B := [])
    have e2 := step_trim (cf := cf) (s := ⟨[], [], D', Spans.init inp'⟩) (c := c') (A := none) (B := [])
    dsimp only at e1 e2
    obtain ⟨s', hst⟩ := first_step hk hn (by simp)
    rw [← e1] at hst
    have z := src_zero hx nil
    have z' := src_zero hx' nil
    have hM : Marching cf ⟨[.sub { c with cs := trimStart c.cs } none], [], D, Spans.init inp⟩ ⟨[.sub { c' with cs := trimStart c'.cs } none], [], D', Spans.init inp'⟩ :=
      ⟨by simp [Instr.pin, Sl.pin, z, z', hc1, hc2], rfl, serves_of ho hS hS' hc, ⟨rfl, rfl, rfl⟩⟩
    have hO := step_marching hM hst (by
      intro d A rest d' rest' g1 g2 g3 g4
      injection g1 with g1 _
      injection g2 with g2 _
      injection g1 with g1 g5
      injection g2 with g2 _
      subst g1 g2 g5
      have n1 : trimStart c.cs ≠ [] := by intro h; rw [h] at g4; exact g4 rfl
      have n2 : trimStart c'.cs ≠ [] := by rw [hc2, ← hc1]; exact n1
      have h0 := abreast_start hl hl' hx nil hx' nil ⟨rfl, rfl, rfl⟩ rfl rfl (z'.trans z.symm) n1 n2
      exact ⟨h0.level, fun a b ha hb => h0.found a b (Sub.trans ha ((Sub.refl c).suffix (trimStart_suffix _))) (Sub.trans hb ((Sub.refl c').suffix (trimStart_suffix _)))⟩)
    rw [e1, e2] at hO
    have h2 := run_onStep hO hk hn hx nil hx' nil (run_marching hl hl' k)
    obtain ⟨s2, h3, h4⟩ := yields_exec h2
    exact exec_yields (hx'.trans h3) h4

/-! ### What means the same -/

theorem covers_refl (Δ : Known) : Covers Δ Δ := fun n => ⟨Iff.rfl, fun d d' h h' s u hc => by rw [h] at h'; cases h'; exact hc⟩

theorem covers_set {Δ Δ' : Known} (h : Covers Δ Δ') (name : Str) {d d' : Spec.MacroDef} (hd : ∀ s u, Calls d s u → Calls d' s u) : Covers (Δ.set name d) (Δ'.set name d') := by
  intro n
  unfold Known.set
  by_cases e : n = name
  · simp only [if_pos e]
    exact ⟨by simp, fun _ _ h1 h2 => by cases h1; cases h2; exact hd⟩
  · simp only [if_neg e]
    exact h n

/-- A macro with undelimited parameters, defined by either command. -/
theorem calls_command {n : Nat} {rt s u : Str} : Calls (.command n none rt) s u ↔ Calls (.plain [] (List.replicate n []) false rt) s u := by
  constructor
  · intro h
    cases h with
    | command h1 h2 => exact .plain (pre := []) h1 h2
  · intro h
    generalize he : Spec.MacroDef.plain [] (List.replicate n []) false rt = d at h
    cases h with
    | plain h1 h2 => cases he; exact .command h1 h2
    | _ => cases he

/-- The order of definitions of different names does not matter, nor does an earlier definition of the same name. -/
theorem known_order (Δ : Known) (a b : Str) (x y z : Spec.MacroDef) (h : a ≠ b) :
    (Δ.set a x).set b y = (Δ.set b y).set a x ∧ (Δ.set a z).set a x = Δ.set a x := by
  constructor
  · funext n
    unfold Known.set
    by_cases h1 : n = b
    · subst h1
      simp [Ne.symm h]
    · simp [h1]
  · funext n
    unfold Known.set
    by_cases h1 : n = a <;> simp [h1]

/-! ### Definitions as texts -/

theorem split_more {d : Nat} {s g r : Str} (h : Split ['{'] ['}'] d s g r) (x : Str) : Split ['{'] ['}'] d (s ++ x) g (r ++ x) := by
  have pre : ∀ {a c : Char} {s : Str}, ¬ [a] <+: c :: s → ∀ s', ¬ [a] <+: c :: s' := by
    intro a c s h s' h'
    refine h ?_
    obtain ⟨y, hy⟩ := h'
    cases hy
    exact ⟨s, rfl⟩
  induction h with
  | done => rw [List.append_assoc]; exact .done
  | opener h1 _ ih =>
    rw [List.append_assoc]
    exact .opener (fun hd => pre (h1 hd) _) ih
  | closer h1 _ ih => rw [List.append_assoc]; exact .closer (pre h1 _) ih
  | comment h1 h2 h3 _ ih => simpa using Split.comment (pre h1 _) (pre h2 _) h3 ih
  | escaped h1 h2 _ ih => exact .escaped (pre h1 _) (pre h2 _) ih
  | char h1 h2 h3 h4 _ ih => exact .char (pre h1 _) (pre h2 _) h3 h4 ih

theorem body_split {n : Nat} {rt : Str} (h : Body n rt) (t : Str) : Split ['{'] ['}'] 0 (rt ++ '}' :: t) rt t := by
  have := split_more h.balanced t
  simpa using this

theorem name_plain {c : Char} (h : isLetter c = true) : c ≠ '{' ∧ c ≠ '}' ∧ c ≠ '\\' ∧ c ≠ '%' := by
  refine ⟨?_, ?_, ?_, ?_⟩ <;> (rintro rfl; revert h; decide)

theorem defining_def {Δ : Known} {name pt pre rt : Str} {ds : List Str} {b : Bool} (hd : Δ c!"def" = none) (hn : FreshName name) (hh : Heading pt pre ds b)
    (hb : Body ds.length rt) (t : Str) : Defining Δ (byDef name pt rt ++ t) (Δ.set name (.plain pre ds b rt)) t := by
  have e : byDef name pt rt ++ t = '\\' :: (c!"def" ++ ('\\' :: (name ++ (pt ++ '{' :: (rt ++ '}' :: t))))) := by
    simp [byDef]
  rw [e]
  refine .def_ (t := '\\' :: (name ++ (pt ++ '{' :: (rt ++ '}' :: t)))) ?_ hd (pt := pt) ?_ hh.text hb.parameters
  · refine .cs (k := []) (w := []) .nil (.word (by simp) (by decide) ?_) (by intro c hc; cases hc) ?_
    · intro c r h; cases h; decide
    · intro c r h; cases h; decide
  · refine ⟨_, [], rt ++ '}' :: t, rfl, .word hn.nonempty hn.letters ?_, (by intro c hc; cases hc), fun c u h => (hh.start c u h).2, hh.plain.1, hh.plain.2.1, hh.plain.2.2, body_split hb t⟩
    intro c r h
    cases pt with
    | nil => cases h; decide
    | cons a pt => cases h; exact (hh.start _ _ rfl).1

theorem paramText_holes : ∀ (k i : Nat), i + k ≤ 10 → ParamText i (holes i k) (List.replicate k [])
  | 0, _, _ => .nil
  | k + 1, i, h => .cons (d := []) (by omega) (by simp) (paramText_holes k (i + 1) (by omega))

theorem paramDigit_facts : ∀ i ≤ 9, paramDigit i ≠ '{' ∧ paramDigit i ≠ '}' ∧ paramDigit i ≠ '%' ∧ paramDigit i ≠ '[' ∧ paramDigit i ≠ ']' ∧ paramDigit i ≠ '\\' ∧
    isDigit (paramDigit i) = true ∧ (paramDigit i).toNat - 48 = i := by decide

theorem holes_mem : ∀ (k i : Nat), i + k ≤ 10 → ∀ c ∈ holes i k, c = '#' ∨ ∃ j ≤ 9, c = paramDigit j
  | 0, _, _, c, h => by cases h
  | k + 1, i, hk, c, h => by
    rw [holes] at h
    rcases List.mem_cons.1 h with rfl | h
    · exact .inl rfl
    · rcases List.mem_cons.1 h with rfl | h
      · exact .inr ⟨i, by omega, rfl⟩
      · exact holes_mem k (i + 1) (by omega) c h

theorem heading_holes {k : Nat} (h : k ≤ 9) : Heading (holes 1 k) [] (List.replicate k []) false where
  text := .plain (pre := []) (by simp) (paramText_holes k 1 (by omega))
  start := by
    intro c u e
    cases k with
    | zero => cases e
    | succ k => cases e; decide
  plain := by
    have : ∀ x : Char, x ≠ '#' → (∀ j ≤ 9, paramDigit j ≠ x) → x ∉ holes 1 k := by
      intro x h1 h2 hx
      rcases holes_mem k 1 (by omega) x hx with h3 | ⟨j, h3, h4⟩
      · exact h1 h3
      · exact h2 j h3 h4.symm
    exact ⟨this _ (by decide) (by decide), this _ (by decide) (by decide), this _ (by decide) (by decide)⟩

theorem split_name {name : Str} (hn : ∀ c ∈ name, isLetter c = true) (t : Str) : Split ['{'] ['}'] 0 (name ++ '}' :: t) name t := by
  induction name with
  | nil => exact .done
  | cons c name ih =>
    obtain ⟨h1, h2, h3, h4⟩ := name_plain (hn c (by simp))
    refine .char ?_ ?_ h3 h4 (ih fun c hc => hn c (by simp [hc]))
    · rintro ⟨y, hy⟩; cases hy; exact h1 rfl
    · rintro ⟨y, hy⟩; cases hy; exact h2 rfl

theorem defining_new {Δ : Known} {name rt : Str} {k : Nat} (hd : Δ c!"newcommand" = none) (hf : Δ name = none) (hn : FreshName name) (hk : k ≤ 9)
    (hb : Body k rt) {t : Str} (ht : Spec.NoScript t) : Defining Δ (byNew name k rt ++ t) (Δ.set name (.command k none rt)) t := by
  have e : byNew name k rt ++ t = '\\' :: (c!"newcommand" ++ ('{' :: ('\\' :: (name ++ '}' :: ('[' :: paramDigit k :: ']' :: ('{' :: (rt ++ '}' :: t))))))) := by
    simp [byNew]
  rw [e]
  obtain ⟨-, -, q1, q2, q3, q4, q5, q6⟩ := paramDigit_facts k hk
  refine .new (t := '{' :: ('\\' :: (name ++ '}' :: ('[' :: paramDigit k :: ']' :: ('{' :: (rt ++ '}' :: t)))))) ?_ hd ?_ hb.parameters ht hf
  · refine .cs (k := []) (w := []) .nil (.word (by simp) (by decide) ?_) (by intro c hc; cases hc) ?_
    · intro c r h; cases h; decide
    · intro c r h; cases h; decide
  · have nil : Spaces ([] : Str) := by intro c hc; cases hc
    refine .plain (r1 := '[' :: paramDigit k :: ']' :: ('{' :: (rt ++ '}' :: t))) (g := [paramDigit k]) (r2 := '{' :: (rt ++ '}' :: t)) ?_ ?_ ?_ ?_ ?_
    · refine ⟨name, [], ⟨[], _, nil, rfl, ?_⟩, by simpa using CsName.word (r := []) hn.nonempty hn.letters (by simp)⟩
      obtain ⟨c, n', rfl⟩ := List.exists_cons_of_ne_nil hn.nonempty
      refine .escaped ?_ ?_ (split_name (fun c hc => hn.letters c (by simp [hc])) _)
      · rintro ⟨y, hy⟩; cases hy
      · rintro ⟨y, hy⟩; cases hy
    · refine ⟨[], _, nil, rfl, .char ?_ ?_ q4 q1 .done⟩
      · rintro ⟨y, hy⟩; injection hy with h1 h2; exact q2 h1.symm
      · rintro ⟨y, hy⟩; injection hy with h1 h2; exact q3 h1.symm
    · exact ⟨[paramDigit k], .inl rfl, by simp, by simpa using q5, by simp [q6], hk⟩
    · intro w u hw h
      cases w with
      | nil => cases h
      | cons c w =>
        injection h with h1 h2
        have := hw c (by simp)
        rw [← h1] at this
        revert this; decide
    · exact ⟨[], _, nil, rfl, body_split hb t⟩

/-- `\newcommand{\name}[k]{rt}` and `\def\name#1…#k{rt}` can be exchanged: a text that is parsed without errors after one of them yields the same events after the
other. Missing: that the limit for expansions is not reached earlier. -/
theorem C72_newcommand_partial (cf : Cfg) (ho : cf.overflowChecks = true) (name rt t : Str) (k : Nat) (hn : FreshName name) (hk : k ≤ 9) (hb : Body k rt)
    (ht : Spec.NoScript t) (its : List Item) (he : NoErr its) :
    (Yields cf (byNew name k rt ++ t) its → Yields cf (byDef name (holes 1 k) rt ++ t) its ∨
      ∃ fs ctx s, fs <+: its ∧ Reached cf (byDef name (holes 1 k) rt ++ t) (fs ++ [.err .macroRecursionLimit ctx]) s) ∧
    (Yields cf (byDef name (holes 1 k) rt ++ t) its → Yields cf (byNew name k rt ++ t) its ∨
      ∃ fs ctx s, fs <+: its ∧ Reached cf (byNew name k rt ++ t) (fs ++ [.err .macroRecursionLimit ctx]) s) := by
  have p1 : Preamble Known.none (byNew name k rt ++ t) (Known.none.set name (.command k none rt)) t := .cons (defining_new rfl rfl hn hk hb ht) .nil
  have p2 : Preamble Known.none (byDef name (holes 1 k) rt ++ t) (Known.none.set name (.plain [] (List.replicate k []) false rt)) t :=
    .cons (defining_def rfl hn (heading_holes hk) (by simpa using hb) t) .nil
  exact ⟨fun h => C72_same_partial cf ho _ _ t _ _ its p1 p2 (covers_set (covers_refl _) name fun s u => calls_command.1) h he,
    fun h => C72_same_partial cf ho _ _ t _ _ its p2 p1 (covers_set (covers_refl _) name fun s u => calls_command.2) h he⟩

/-- Definitions of two different names can stand in either order. Missing: as above. -/
theorem C72_order_partial (cf : Cfg) (ho : cf.overflowChecks = true) (a p pre x b q qre y t : Str) (ds es : List Str) (f g : Bool) (ha : FreshName a) (hb : FreshName b) (hab : a ≠ b)
    (hp : Heading p pre ds f) (hq : Heading q qre es g) (hx : Body ds.length x) (hy : Body es.length y) (its : List Item) (he : NoErr its)
    (h : Yields cf (byDef a p x ++ (byDef b q y ++ t)) its) : Yields cf (byDef b q y ++ (byDef a p x ++ t)) its ∨
      ∃ fs ctx s, fs <+: its ∧ Reached cf (byDef b q y ++ (byDef a p x ++ t)) (fs ++ [.err .macroRecursionLimit ctx]) s := by
  have hd : ∀ n d, FreshName n → Known.none.set n d c!"def" = none := by
    intro n d hn
    unfold Known.set
    rw [if_neg (Ne.symm hn.other)]
    rfl
  have p1 := Preamble.cons (defining_def (Δ := Known.none) rfl ha hp hx (byDef b q y ++ t)) (.cons (defining_def (hd a _ ha) hb hq hy t) .nil)
  have p2 := Preamble.cons (defining_def (Δ := Known.none) rfl hb hq hy (byDef a p x ++ t)) (.cons (defining_def (hd b _ hb) ha hp hx t) .nil)
  rw [(known_order _ a b _ _ (.alias (.chr 'x')) hab).1] at p1
  exact C72_same_partial cf ho _ _ t _ _ its p1 p2 (covers_refl _) h he

/-- An earlier definition of the same name can be left out. Missing: as above. -/
theorem C72_last_partial (cf : Cfg) (ho : cf.overflowChecks = true) (a p pre x q qre y t : Str) (ds es : List Str) (f g : Bool) (ha : FreshName a)
    (hp : Heading p pre ds f) (hq : Heading q qre es g) (hx : Body ds.length x) (hy : Body es.length y) (its : List Item) (he : NoErr its)
    (h : Yields cf (byDef a p x ++ (byDef a q y ++ t)) its) : Yields cf (byDef a q y ++ t) its ∨
      ∃ fs ctx s, fs <+: its ∧ Reached cf (byDef a q y ++ t) (fs ++ [.err .macroRecursionLimit ctx]) s := by
  have hd : Known.none.set a (.plain pre ds f x) c!"def" = none := by
    unfold Known.set
    rw [if_neg (Ne.symm ha.other)]
    rfl
  have p1 := Preamble.cons (defining_def (Δ := Known.none) rfl ha hp hx (byDef a q y ++ t)) (.cons (defining_def hd ha hq hy t) .nil)
  have p2 := Preamble.cons (defining_def (Δ := Known.none) rfl ha hq hy t) .nil
  rw [(known_order _ a (a ++ a) _ (.alias (.chr 'x')) _ (by intro h; have := congrArg List.length h; simp at this; exact ha.nonempty this)).2] at p1
  exact C72_same_partial cf ho _ _ t _ _ its p1 p2 (covers_refl _) h he

/-! ### If the texts lie in memory as in the arena -/

/-- `\newcommand{\name}[k]{rt}` and `\def\name#1…#k{rt}` can be exchanged in a text that is parsed without errors. -/
theorem C72_newcommand (cf : Cfg) (ho : cf.overflowChecks = true) (name rt t : Str) (k : Nat) (hn : FreshName name) (hk : k ≤ 9) (hb : Body k rt)
    (ht : Spec.NoScript t) (hl : Stacked cf (byNew name k rt ++ t)) (hl' : Stacked cf (byDef name (holes 1 k) rt ++ t)) (its : List Item) (he : NoErr its) :
    Yields cf (byNew name k rt ++ t) its ↔ Yields cf (byDef name (holes 1 k) rt ++ t) its := by
  have p1 : Preamble Known.none (byNew name k rt ++ t) (Known.none.set name (.command k none rt)) t := .cons (defining_new rfl rfl hn hk hb ht) .nil
  have p2 : Preamble Known.none (byDef name (holes 1 k) rt ++ t) (Known.none.set name (.plain [] (List.replicate k []) false rt)) t :=
    .cons (defining_def rfl hn (heading_holes hk) (by simpa using hb) t) .nil
  exact ⟨fun h => C72_meaning cf ho _ _ t _ _ its hl hl' p1 p2 (covers_set (covers_refl _) name fun s u => calls_command.1) h he,
    fun h => C72_meaning cf ho _ _ t _ _ its hl' hl p2 p1 (covers_set (covers_refl _) name fun s u => calls_command.2) h he⟩

/-- Definitions of two different names can stand in either order. -/
theorem C72_order (cf : Cfg) (ho : cf.overflowChecks = true) (a p pre x b q qre y t : Str) (ds es : List Str) (f g : Bool) (ha : FreshName a) (hb : FreshName b) (hab : a ≠ b)
    (hp : Heading p pre ds f) (hq : Heading q qre es g) (hx : Body ds.length x) (hy : Body es.length y) (hl : Stacked cf (byDef a p x ++ (byDef b q y ++ t)))
    (hl' : Stacked cf (byDef b q y ++ (byDef a p x ++ t))) (its : List Item) (he : NoErr its) (h : Yields cf (byDef a p x ++ (byDef b q y ++ t)) its) :
    Yields cf (byDef b q y ++ (byDef a p x ++ t)) its := by
  have hd : ∀ n d, FreshName n → Known.none.set n d c!"def" = none := by
    intro n d hn
    unfold Known.set
    rw [if_neg (Ne.symm hn.other)]
    rfl
  have p1 := Preamble.cons (defining_def (Δ := Known.none) rfl ha hp hx (byDef b q y ++ t)) (.cons (defining_def (hd a _ ha) hb hq hy t) .nil)
  have p2 := Preamble.cons (defining_def (Δ := Known.none) rfl hb hq hy (byDef a p x ++ t)) (.cons (defining_def (hd b _ hb) ha hp hx t) .nil)
  rw [(known_order _ a b _ _ (.alias (.chr 'x')) hab).1] at p1
  exact C72_meaning cf ho _ _ t _ _ its hl hl' p1 p2 (covers_refl _) h he

/-- An earlier definition of the same name can be left out, or added. -/
theorem C72_last (cf : Cfg) (ho : cf.overflowChecks = true) (a p pre x q qre y t : Str) (ds es : List Str) (f g : Bool) (ha : FreshName a)
    (hp : Heading p pre ds f) (hq : Heading q qre es g) (hx : Body ds.length x) (hy : Body es.length y) (hl : Stacked cf (byDef a p x ++ (byDef a q y ++ t)))
    (hl' : Stacked cf (byDef a q y ++ t)) (its : List Item) (he : NoErr its) :
    Yields cf (byDef a p x ++ (byDef a q y ++ t)) its ↔ Yields cf (byDef a q y ++ t) its := by
  have hd : Known.none.set a (.plain pre ds f x) c!"def" = none := by
    unfold Known.set
    rw [if_neg (Ne.symm ha.other)]
    rfl
  have p1 := Preamble.cons (defining_def (Δ := Known.none) rfl ha hp hx (byDef a q y ++ t)) (.cons (defining_def hd ha hq hy t) .nil)
  have p2 := Preamble.cons (defining_def (Δ := Known.none) rfl ha hq hy t) .nil
  rw [(known_order _ a (a ++ a) _ (.alias (.chr 'x')) _ (by intro h; have := congrArg List.length h; simp at this; exact ha.nonempty this)).2] at p1
  exact ⟨fun h => C72_meaning cf ho _ _ t _ _ its hl hl' p1 p2 (covers_refl _) h he, fun h => C72_meaning cf ho _ _ t _ _ its hl' hl p2 p1 (covers_refl _) h he⟩

/-! ### Concrete cases -/

theorem sq_name : FreshName c!"sq" := ⟨by decide, by decide, by decide⟩

theorem sq_body : Body 1 c!"#1^2" where
  balanced := by
    refine .char ?_ ?_ (by decide) (by decide) (.char ?_ ?_ (by decide) (by decide) (.char ?_ ?_ (by decide) (by decide) (.char ?_ ?_ (by decide) (by decide) .done))) <;>
      exact by decide
  parameters := .param (i := 1) (by decide) (by decide) (by decide) (.char (by decide) (.char (by decide) .nil))

/-- The hypotheses of `C72_newcommand` hold for a macro with one parameter. -/
example : byNew c!"sq" 1 c!"#1^2" ++ c!"\\sq x" = c!"\\newcommand{\\sq}[1]{#1^2}\\sq x" ∧ byDef c!"sq" (holes 1 1) c!"#1^2" ++ c!"\\sq x" = c!"\\def\\sq#1{#1^2}\\sq x" ∧
    FreshName c!"sq" ∧ Body 1 c!"#1^2" ∧ Stacked cf0 c!"\\newcommand{\\sq}[1]{#1^2}\\sq x" ∧ Stacked cf0 c!"\\def\\sq#1{#1^2}\\sq x" ∧
    (run cf0 80 (State.init c!"\\newcommand{\\sq}[1]{#1^2}\\sq x")).1 = (run cf0 80 (State.init c!"\\def\\sq#1{#1^2}\\sq x")).1 ∧
    (run cf0 80 (State.init c!"\\def\\sq#1{#1^2}\\sq x")) = ([.ok (.script .sup .right), .ok (.content (.ordinary 'x' false)), .ok (.content (.number c!"2"))], .done) :=
  ⟨rfl, rfl, sq_name, sq_body, stacked_of 80 (by decide +kernel) (by decide +kernel), stacked_of 80 (by decide +kernel) (by decide +kernel), by decide +kernel, by decide +kernel⟩

/-- The hypotheses of `C72_order` and `C72_last` hold for a delimited parameter. -/
example : Heading c!"(#1)" c!"(" [c!")"] false ∧ byDef c!"sq" c!"(#1)" c!"#1^2" = c!"\\def\\sq(#1){#1^2}" :=
  ⟨⟨.plain (pre := c!"(") (s := c!"#1)") (by decide) (.cons (i := 1) (d := c!")") (by decide) (by decide) .nil), fun c u h => by cases h; decide, by decide⟩, rfl⟩

/-- Before a script the two commands differ: after `\def` the script has an empty base, after `\newcommand` it has none at all. -/
theorem C72_script_false : (run cf0 80 (State.init (byNew c!"a" 0 c!"x" ++ c!"^2"))).1.map Item.bare ≠ (run cf0 80 (State.init (byDef c!"a" (holes 1 0) c!"x" ++ c!"^2"))).1.map Item.bare := by
  decide +kernel

end PL.Props
