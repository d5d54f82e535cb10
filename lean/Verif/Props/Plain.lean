import Verif.Props.Stream
import Verif.Props.Lexing
import Verif.Props.Defs
set_option autoImplicit false
/-!
# Blank text, plain characters and groups (C25, C26, C27)
-/
namespace PL.Props
open PL PL.Lex Spec

variable {cf : Cfg}

/-- An execution up to a state with nothing left gives the items of the input. -/
theorem exec_run {s s' : State} {its : List Item} (h : Exec cf s its s') : ∀ {n' : Nat} {its' : List Item} {f : Fin_},
    run cf n' s' = (its', f) → ∃ n, run cf n s = (its ++ its', f) := by
  induction h with
  | init => intro n' its' f h; exact ⟨n', by simpa using h⟩
  | @item its s i s' _ hs ih =>
    intro n' its' f h
    obtain ⟨n, hn⟩ := ih (n' := n' + 1) (its' := i :: its') (f := f) (by rw [run]; simp only [hs, h])
    exact ⟨n, by simpa using hn⟩
  | @again its s s' _ hs ih =>
    intro n' its' f h
    exact ih (n' := n' + 1) (its' := its') (f := f) (by rw [run]; simp only [hs, h])

theorem exec_yields {inp : Str} {its : List Item} {s : State} (h : Exec cf (State.init inp) its s) (hs : s.stack = []) :
    Yields cf inp its := by
  obtain ⟨n, hn⟩ := exec_run h (n' := 1) (its' := []) (f := .done) (by rw [run]; simp only [step, hs])
  exact ⟨n, by simpa using hn⟩

theorem token_blankEnd {t : Str} (h : BlankEnd t) : token t = .err .token [] := by
  cases h with
  | blank h =>
    have := token_blank h []
    rw [List.append_nil] at this
    rw [this]; rfl
  | @comment s line h hl =>
    rw [token_blank h]
    have e : splitOnce ['\n'] ('%' :: line) = none := by
      rw [splitOnce_none (by simp)]
      rintro ⟨a, b, e⟩
      have hm : '\n' ∈ '%' :: line := by rw [← e]; simp
      simp at hm
      exact hl hm
    unfold token
    rw [tokenLoop]
    have : trimStart ('%' :: line) = '%' :: line := trimStart_eq_self (by intro c r hc; cases hc; decide)
    rw [this]
    simp only [e]
    rw [if_neg (by decide), if_pos trivial]
    rfl

/-- The parser state with a text on top of the stack. -/
def State.at (s : State) (c : Sl) (A : Option AlignCount) (B : List Instr) : State := ⟨.sub c A :: B, [], s.macros, s.sp⟩

/-- Blank text is dropped. -/
theorem exec_blank {s : State} {c : Sl} {A : Option AlignCount} {B : List Instr} (h : BlankEnd c.cs) :
    Exec cf (State.at s c A B) [] ⟨B, [], s.macros, s.sp⟩ := by
  have last : ∀ (c : Sl), trimStart c.cs = [] → Exec cf (State.at s c A B) [] ⟨B, [], s.macros, s.sp⟩ := by
    intro c hc
    refine Exec.init.again ?_
    unfold step State.at
    simp only [hc]
    rfl
  by_cases hc : trimStart c.cs = []
  · exact last c hc
  · have ht := token_blankEnd h
    refine (Exec.init.again (s' := State.at s { c with cs := [] } A B) ?_).trans (last { c with cs := [] } rfl)
    unfold step State.at
    simp only
    rw [if_neg (by simpa using hc)]
    have : parse cf (startSt ⟨.sub c A :: B, [], s.macros, s.sp⟩ c A) =
        .ok none (startSt ⟨.sub c A :: B, [], s.macros, s.sp⟩ { c with cs := [] } A) := by
      unfold parse
      rw [parseLoop]
      unfold startSt
      simp only [ht]
      rfl
    rw [this]
    rfl

/-! ## C25: blank input -/

/-- An input of white space and comments yields no items. -/
theorem C25_blank (cf : Cfg) (inp : Str) (h : BlankEnd inp) : Yields cf inp [] := by
  have := exec_blank (cf := cf) (s := State.init inp) (c := ⟨0, blen inp, inp⟩) (A := none) (B := []) h
  exact exec_yields this rfl

example : BlankEnd c!" %a\n\t%b\\c" :=
  .comment (s := c!" %a\n\t") (line := c!"b\\c") (.ws (by decide) (.comment (line := c!"a") (by decide) (.ws (by decide) .nil))) (by decide)

/-! ## C26: plain characters -/

/-- No subscript or superscript follows. -/
def NoScriptAfter (t : Str) : Prop := (trimStart t).head? ≠ some '^' ∧ (trimStart t).head? ≠ some '_'

theorem scripts_none {rec : HTok → H PUnit} {s : HSt} (h1 : s.skip = false) (h2 : s.allowMods = false) (h3 : NoScriptAfter s.content.cs) :
    scripts rec s = .ok none { s with content := { s.content with cs := trimStart s.content.cs } } := by
  unfold scripts
  rw [M.get_bind, if_neg (by simp [h1]), M.run_bind]
  have : limits s = .ok ⟨⟩ s := by
    unfold limits
    rw [M.get_bind, if_neg (by simp [h2])]
    rfl
  rw [this]
  dsimp only
  rw [M.modify_bind, M.get_bind]
  dsimp only
  unfold NoScriptAfter at h3
  cases hc : trimStart s.content.cs with
  | nil => rfl
  | cons c r =>
    rw [hc] at h3
    dsimp only
    rw [if_neg (by simpa using h3)]
    rfl

theorem special_false {x : Char} (hx : special x = false) : x ≠ '\\' ∧ x ≠ '%' ∧ x ≠ '_' ∧ x ≠ '^' ∧ x ≠ '$' ∧ x ≠ '#' ∧ x ≠ '&' ∧
    x ≠ '{' ∧ x ≠ '}' ∧ x ≠ '~' ∧ isDigit x = false ∧ isWs x = false := by
  simpa [special, and_assoc] using hx

theorem atom_char {x : Char} (hx : special x = false) {h : HSt} {ctx : Sl} (h1 : h.skip = false) (h2 : h.allowMods = false)
    (hr : NoScriptAfter h.content.cs) : atom cf (.chr x ctx) h =
      .ok none { h with content := { h.content with cs := trimStart h.content.cs }, buf := h.buf ++ [.ev (plainCharEvent x)] } := by
  obtain ⟨s1, s2, s3, s4, s5, s6, s7, s8, s9, s10, s11, s12⟩ := special_false hx
  have e : handleToken cf (tokenFuel h.content) (.chr x ctx) h = .ok ⟨⟩ { h with buf := h.buf ++ [.ev (plainCharEvent x)] } := by
    show handleChar x ctx h = _
    unfold handleChar
    rw [M.get_bind, if_neg (by simp [s1, s2]), if_neg (by simp [s3, s4]), if_neg s5, if_neg s6, if_neg s7, if_neg s8, if_neg s9,
      if_neg s10, if_neg (by simp [s11])]
    rfl
  unfold atom
  rw [M.get_bind, M.run_bind]
  rw [e]
  dsimp only
  rw [M.get_bind]
  exact scripts_none h1 h2 hr

/-- A character without special meaning gives one event. -/
theorem exec_char {s : State} {c : Sl} {A : Option AlignCount} {B : List Instr} {k r : Str} {x : Char} (hk : Blank k)
    (hc : c.cs = k ++ x :: r) (hx : special x = false) (hr : NoScriptAfter r) :
    Exec cf (State.at s c A B) [.ok (plainCharEvent x)] (State.at s { c with cs := trimStart r } A B) := by
  obtain ⟨s1, s2, -, -, -, -, -, -, -, -, -, s12⟩ := special_false hx
  have ht : token c.cs = .ok (.chr x r) r := by rw [hc]; exact token_chr_eq hk s1 s2 s12
  have hne : trimStart c.cs ≠ [] := by
    intro h0
    rw [← token_trim, h0] at ht
    cases ht
  have h1 : Exec cf (State.at s c A B) [] ⟨.ev (plainCharEvent x) :: .sub { c with cs := trimStart r } A :: B, [], s.macros, s.sp⟩ := by
    refine Exec.init.again ?_
    unfold step State.at
    simp only
    rw [if_neg (by simpa using hne)]
    have : parse cf (startSt ⟨.sub c A :: B, [], s.macros, s.sp⟩ c A) =
        .ok none ⟨⟨{ c with cs := trimStart r }, [.ev (plainCharEvent x)], false, .right, false, false, A, s.macros⟩, s.sp⟩ := by
      unfold parse
      rw [parseLoop]
      unfold startSt
      simp only [ht]
      unfold liftH
      dsimp only [HTok.ofTok]
      rw [atom_char (by exact hx) rfl rfl hr]
      rfl
    rw [this]
    rfl
  exact h1.item rfl

/-- Text of plain characters with blank text between them. -/
inductive PlainText : Str → List Char → Prop
  | stop {k} : BlankEnd k → PlainText k []
  | char {k x t xs} : Blank k → special x = false → PlainText t xs → PlainText (k ++ x :: t) (x :: xs)

theorem noScript_blank {k t : Str} (hk : Blank k) (ht : NoScriptAfter t) : NoScriptAfter (k ++ t) := by
  induction hk with
  | nil => exact ht
  | @ws c k hc _ ih =>
    unfold NoScriptAfter at ih ⊢
    have : trimStart (c :: k ++ t) = trimStart (k ++ t) := trimStart_ws_append (w := [c]) (by intro d hd; simp at hd; rw [hd]; exact hc) (k ++ t)
    rw [this]; exact ih
  | comment hl _ ih =>
    unfold NoScriptAfter
    rw [List.cons_append, trimStart_eq_self (by intro c r e; cases e; decide)]
    simp

theorem PlainText.noScript {t : Str} {xs : List Char} (h : PlainText t xs) : NoScriptAfter t := by
  cases h with
  | stop h =>
    cases h with
    | blank h => simpa using noScript_blank h (t := []) ⟨by simp [trimStart], by simp [trimStart]⟩
    | comment h hl =>
      refine noScript_blank h ?_
      unfold NoScriptAfter
      rw [trimStart_eq_self (by intro c r e; cases e; decide)]
      simp
  | char h1 h2 h3 =>
    refine noScript_blank h1 ?_
    obtain ⟨s1, s2, s3, s4, -, -, -, -, -, -, -, s12⟩ := special_false h2
    unfold NoScriptAfter
    rw [trimStart_eq_self (by intro c r e; cases e; exact s12)]
    simp [s3, s4]

theorem blank_tail {c : Char} {t : Str} (hc : isWs c = true) (h : Blank (c :: t)) : Blank t := by
  cases h with
  | ws _ h => exact h
  | comment => exact absurd hc (by decide)

theorem plainText_ws {c : Char} {t : Str} {xs : List Char} (hc : isWs c = true) (h : PlainText (c :: t) xs) : PlainText t xs := by
  generalize hu : c :: t = u at h
  cases h with
  | stop h =>
    cases h with
    | blank h => subst hu; exact .stop (.blank (blank_tail hc h))
    | @comment k line h hl =>
      cases k with
      | nil => cases hu; exact absurd hc (by decide)
      | cons d k => cases hu; exact .stop (.comment (blank_tail hc h) hl)
  | @char k x t' xs h1 h2 h3 =>
    cases k with
    | nil =>
      cases hu
      obtain ⟨-, -, -, -, -, -, -, -, -, -, -, s12⟩ := special_false h2
      rw [hc] at s12
      cases s12
    | cons d k => cases hu; exact .char (blank_tail hc h1) h2 h3

theorem plainText_trim {t : Str} {xs : List Char} (h : PlainText t xs) : PlainText (trimStart t) xs := by
  obtain ⟨w, hw, e⟩ := trimStart_spec t
  rw [e] at h
  revert h
  generalize trimStart t = u
  clear e
  induction w with
  | nil => exact id
  | cons c w ih =>
    intro h
    exact ih (fun d hd => hw d (by simp [hd])) (plainText_ws (hw c (by simp)) h)

theorem exec_plain {s : State} {xs : List Char} : ∀ {c : Sl} {A : Option AlignCount} {B : List Instr}, PlainText c.cs xs →
    Exec cf (State.at s c A B) (xs.map fun x => .ok (plainCharEvent x)) ⟨B, [], s.macros, s.sp⟩ := by
  induction xs with
  | nil =>
    intro c A B h
    generalize hc : c.cs = t at h
    cases h with
    | stop h => exact exec_blank (hc ▸ h)
  | cons x xs ih =>
    intro c A B h
    generalize hc : c.cs = t at h
    cases h with
    | char h1 h2 h3 => exact (exec_char h1 hc h2 h3.noScript).trans (ih (plainText_trim h3))

/-- Every character without special meaning yields exactly one event, in order; blank text in between changes nothing. -/
theorem C26_plain (cf : Cfg) (inp : Str) (xs : List Char) (h : PlainText inp xs) :
    Yields cf inp (xs.map fun x => .ok (plainCharEvent x)) :=
  exec_yields (exec_plain (s := State.init inp) (c := ⟨0, blen inp, inp⟩) (A := none) (B := []) h) rfl

theorem letter_plain {x : Char} (h : isLetter x = true) : special x = false ∧ plainCharEvent x = .content (.ordinary x false) := by
  have hall : ∀ n : Fin 128, isLetter (Char.ofNat n) = true → special (Char.ofNat n) = false ∧
      plainCharEvent (Char.ofNat n) = .content (.ordinary (Char.ofNat n) false) := by decide +kernel
  have hx : x.toNat < 128 := by
    simp [isLetter] at h
    omega
  have := hall ⟨x.toNat, hx⟩
  simp only [Char.ofNat_toNat] at this
  exact this h

theorem letters_plain {t : Str} (h : ∀ c ∈ t, isLetter c = true ∨ isWs c = true) : PlainText t (t.filter isLetter) := by
  suffices H : ∀ k, Blank k → PlainText (k ++ t) (t.filter isLetter) from H [] .nil
  induction t with
  | nil => intro k hk; rw [List.append_nil]; exact .stop (.blank hk)
  | cons c t ih =>
    intro k hk
    have ih := ih (fun d hd => h d (by simp [hd]))
    by_cases hl : isLetter c = true
    · rw [List.filter_cons_of_pos hl]
      exact .char hk (letter_plain hl).1 (ih [] .nil)
    · rw [List.filter_cons_of_neg hl]
      have hw : isWs c = true := (h c (by simp)).resolve_left hl
      have hk' : Blank (k ++ [c]) := by
        clear ih
        induction hk with
        | nil => exact .ws hw .nil
        | ws h _ ih => exact .ws h ih
        | comment h _ ih => simpa using Blank.comment h ih
      simpa using ih _ hk'

/-- An input of letters and white space yields one ordinary event per letter, in order, and nothing else. -/
theorem C26_letters (cf : Cfg) (inp : Str) (h : ∀ c ∈ inp, isLetter c = true ∨ isWs c = true) :
    Yields cf inp ((inp.filter isLetter).map fun c => .ok (.content (.ordinary c false))) := by
  have := C26_plain cf inp _ (letters_plain h)
  have e : (inp.filter isLetter).map (fun x => Item.ok (plainCharEvent x)) =
      (inp.filter isLetter).map fun c => .ok (.content (.ordinary c false)) := by
    apply List.map_congr_left
    intro c hc
    rw [(letter_plain (List.mem_filter.1 hc).2).2]
  rw [e] at this
  exact this

example : PlainText c!" aé%c\n+b " ['a', 'é', '+', 'b'] :=
  .char (k := c!" ") (.ws (by decide) .nil) (by decide) (.char (k := []) .nil (by decide)
    (.char (k := c!"%c\n") (.comment (line := c!"c") (by decide) .nil) (by decide)
      (.char (k := []) .nil (by decide) (.stop (.blank (.ws (by decide) .nil))))))
example : (run cf0 60 (State.init c!" a\tB c ")).1 = [.ok (.content (.ordinary 'a' false)), .ok (.content (.ordinary 'B' false)),
    .ok (.content (.ordinary 'c' false))] := by decide +kernel

end PL.Props
