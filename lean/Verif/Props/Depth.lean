import Verif.Spec.Depth
import Verif.Props.Linear
set_option autoImplicit false
/-!
# C77: how deep calls nest

The call stack is not part of the model. What is shown is how deep the recursive functions call themselves: `next`, the handler of tokens for the arguments of commands, and `token` after
a comment. (The recursion of `parse` at an expansion is bounded by C08, and there is no other recursion in the parser.) The depth is at most linear in the length of the text and of the
expansions. It is not bounded by a constant.
-/
namespace PL.Props
open PL PL.Lex Spec

variable {cf : Cfg}

theorem _root_.PL.Spec.CallTo.call {d : Nat} {s s' : State} {o : Option Item} (h : CallTo cf d s o s') : Call cf s o s' := by
  induction h with
  | item h => exact .item h
  | none h => exact .none h
  | again h _ ih => exact .again h ih

theorem _root_.PL.Spec.Reached.steps {inp : Str} {its : List Item} {s : State} (h : Reached cf inp its s) : ∃ n, Steps cf inp n its s := by
  induction h with
  | new => exact ⟨0, .new⟩
  | item _ h ih => obtain ⟨n, ih⟩ := ih; exact ⟨_, .item ih h⟩
  | again _ h ih => obtain ⟨n, ih⟩ := ih; exact ⟨_, .again ih h⟩

theorem _root_.PL.Spec.CallTo.steps {inp : Str} {its : List Item} {d : Nat} {s s' : State} {o : Option Item} (h : CallTo cf d s o s') :
    ∀ {n}, Steps cf inp n its s → ∃ m its', Steps cf inp m its' s' ∧ n + d ≤ m + 1 := by
  induction h with
  | item h => intro n hs; exact ⟨_, _, .item hs h, by omega⟩
  | none h => intro n hs; exact ⟨_, _, hs, by omega⟩
  | again h _ ih =>
    intro n hs
    obtain ⟨m, its', h1, h2⟩ := ih (.again hs h)
    exact ⟨m, its', h1, by omega⟩

/-! ## Calls of `next` -/

/-- The calls of `next` are nested to a depth at most linear in the length of the text and of the expansions performed so far. -/
theorem C77_calls (cf : Cfg) (inp : Str) (its : List Item) (s s' : State) (d : Nat) (o : Option Item) (h : Reached cf inp its s) (hc : CallTo cf d s o s') :
    d ≤ 16 * (inp.length + s'.sp.total) + 2 := by
  obtain ⟨n, hn⟩ := h.steps
  obtain ⟨m, its', h1, h2⟩ := hc.steps hn
  have := (C63_steps cf inp m its' s' h1).2
  omega

theorem token_word {w t : Str} (hw : w ≠ []) (hl : ∀ c ∈ w, isLetter c = true) (h : ∃ c r, t = c :: r ∧ isLetter c = false ∧ isWs c = false) :
    token ('\\' :: (w ++ t)) = .ok (.cs w) t := by
  obtain ⟨c', r, rfl, h1, h2⟩ := h
  have hn : CsName (w ++ c' :: r) w (c' :: r) := .word hw hl fun c r' e => by cases e; exact h1
  have e : trimStart (c' :: r) = c' :: r := trimStart_eq_self fun c r e => by cases e; exact h2
  have := token_cs_eq (k := []) .nil hn
  rw [e] at this
  exact this

/-- One `\relax` leads to a further call. -/
theorem step_relax {t : Str} {c : Char} {r : Str} (ht : t = c :: r) (h1 : isLetter c = false) (h2 : isWs c = false) (h3 : c ≠ '^') (h4 : c ≠ '_') (k e : Nat) (sp : Spans) :
    step cf ⟨[.sub ⟨k, e, c!"\\relax" ++ t⟩ none], [], [], sp⟩ = .again ⟨[.sub ⟨k, e, t⟩ none], [], [], sp⟩ := by
  have htok : token (c!"\\relax" ++ t) = .ok (.cs c!"relax") t := token_word (w := c!"relax") (by decide) (by decide) ⟨c, r, ht, h1, h2⟩
  have hp : primOf c!"relax" = .relax := by decide +kernel
  have hparse : parse cf (startSt ⟨[.sub ⟨k, e, c!"\\relax" ++ t⟩ none], [], [], sp⟩ ⟨k, e, c!"\\relax" ++ t⟩ none) =
      .ok none ⟨⟨⟨k, e, t⟩, [], false, .right, false, false, none, []⟩, sp⟩ := by
    unfold parse parseLoop startSt
    rw [htok]
    have hx : Macros.tryExpand cf [] c!"relax" t = none := rfl
    dsimp only
    rw [hx]
    have hrec : ∀ n, handleToken cf (n + 1) (.cs c!"relax") ⟨⟨k, e, t⟩, [], false, .right, false, false, none, []⟩ = .ok ⟨⟩ ⟨⟨k, e, t⟩, [], false, .right, false, false, none, []⟩ := by
      intro n
      unfold handleToken
      rw [hp]
      rfl
    have hsc : ∀ rec, scripts rec ⟨⟨k, e, t⟩, [], false, .right, false, false, none, []⟩ = .ok none ⟨⟨k, e, t⟩, [], false, .right, false, false, none, []⟩ := by
      intro rec
      have e1 : trimStart t = t := trimStart_eq_self fun c' r' e => by rw [ht] at e; cases e; exact h2
      subst ht
      have hl : limits ⟨⟨k, e, c :: r⟩, [], false, .right, false, false, none, []⟩ = .ok ⟨⟩ ⟨⟨k, e, c :: r⟩, [], false, .right, false, false, none, []⟩ := rfl
      unfold scripts
      rw [M.get_bind, if_neg (by simp), M.bind_ok hl, M.modify_bind, M.get_bind]
      simp [e1, h3, h4]
    show liftH (atom cf (HTok.ofTok _ (.cs c!"relax"))) ⟨⟨⟨k, e, t⟩, [], false, .right, false, false, none, []⟩, sp⟩ = _
    have ha : atom cf (.cs c!"relax") ⟨⟨k, e, t⟩, [], false, .right, false, false, none, []⟩ = .ok none ⟨⟨k, e, t⟩, [], false, .right, false, false, none, []⟩ := by
      unfold atom
      rw [M.get_bind]
      unfold tokenFuel
      rw [M.bind_ok (hrec _), M.get_bind]
      exact hsc _
    simp only [HTok.ofTok, liftH, ha]
  unfold step
  have hne : (trimStart (c!"\\relax" ++ t)).isEmpty = false := rfl
  dsimp only
  rw [if_neg (by rw [hne]; decide), hparse]
  rfl

/-- Any number of commands that yield nothing are as many calls of `next` inside of one. -/
theorem C77_calls_unbounded (cf : Cfg) (n : Nat) : ∃ s', CallTo cf (n + 2) (State.init (times c!"\\relax" n c!"+")) (some (.ok (.content (.binaryOp '+' false)))) s' := by
  suffices h : ∀ n k e sp, ∃ s', CallTo cf (n + 2) ⟨[.sub ⟨k, e, times c!"\\relax" n c!"+"⟩ none], [], [], sp⟩ (some (.ok (.content (.binaryOp '+' false)))) s' from
    h n _ _ _
  intro n
  induction n with
  | zero =>
    intro k e sp
    exact ⟨_, .again rfl (.item rfl)⟩
  | succ n ih =>
    intro k e sp
    obtain ⟨s', h⟩ := ih k e sp
    refine ⟨s', .again ?_ h⟩
    cases n with
    | zero => exact step_relax (t := c!"+") rfl (by decide) (by decide) (by decide) (by decide) k e sp
    | succ n => exact step_relax (t := times c!"\\relax" (n + 1) c!"+") rfl (by decide) (by decide) (by decide) (by decide) k e sp

/-! ## Arguments of commands -/

/-- The handler of a token that has been read calls itself at most as often as there are characters left, and once more. -/
theorem C77_arguments (cf : Cfg) (o : Sl) (t : Tok) (r : Str) (h : HSt) (hw : o.wf) (ht : token o.cs = .ok t r) (hc : h.content = { o with cs := r }) (n : Nat)
    (hn : r.length + 2 ≤ n) : handleToken cf n (HTok.ofTok o t) h ≠ .panic .fuel := by
  intro hp
  have hsub : Sub h.content o := by
    rw [hc]
    exact (Sub.refl o).suffix (by have := good_token (cf := cf) o.cs; rw [ht] at this; exact this)
  have htok : TokOK false o h (.ofTok o t) := tok_ok ht (Sub.refl _) (fun h => by cases h)
  have := handleToken_ok cf false o n (.ofTok o t) h ⟨hw, hsub, fun h => by cases h⟩ htok (by unfold HSt.len; rw [hc]; exact hn)
  rw [hp] at this
  rcases this with ⟨h, -⟩ | ⟨h, -⟩ <;> cases h

theorem handle_not {h : HSt} {t : Tok} {u : Str} (n : Nat) (hb : stripPrefix c!"{" (trimStart h.content.cs) = none) (ht : token h.content.cs = .ok t u) :
    handleToken cf (n + 1) (.cs c!"not") h =
      handleToken cf n (.ofTok h.content t) { h with content := { h.content with cs := u }, buf := h.buf ++ [.ev (.visual .negation)], harg := true } := by
  have hp : primOf c!"not" = .not_ := by decide +kernel
  have ha : Lex.argument h.content.cs = .ok (.token t) u := by
    unfold Lex.argument
    rw [hb]
    dsimp only
    rw [M.bind_ok ht]
    rfl
  have e0 : handleToken cf (n + 1) (.cs c!"not") = execPrim cf (handleToken cf n) (primOf c!"not") := rfl
  rw [e0, hp]
  show (H.ev (.visual .negation) >>= fun _ => H.argument >>= fun arg => handleArgument (handleToken cf n) arg) h = _
  have e1 : H.ev (.visual .negation) h = .ok ⟨⟩ { h with buf := h.buf ++ [.ev (.visual .negation)] } := rfl
  rw [M.bind_ok e1]
  have e2 : H.argument { h with buf := h.buf ++ [.ev (.visual .negation)] } =
      .ok (.token (.ofTok h.content t)) { h with content := { h.content with cs := u }, buf := h.buf ++ [.ev (.visual .negation)] } := by
    unfold H.argument
    rw [ha]
    rfl
  rw [M.bind_ok e2]
  rfl

/-- It does so any number of times. -/
theorem C77_arguments_unbounded (cf : Cfg) (n : Nat) (h : HSt) (hc : h.content.cs = times c!"\\not" n c!"+") :
    handleToken cf n (.cs c!"not") h = .panic .fuel ∧ ∃ h', handleToken cf (n + 2) (.cs c!"not") h = .ok ⟨⟩ h' := by
  induction n generalizing h with
  | zero =>
    refine ⟨rfl, ?_⟩
    have ht : token h.content.cs = .ok (.chr '+' []) [] := by rw [hc]; rfl
    rw [handle_not 1 (by rw [hc]; rfl) ht]
    exact ⟨_, rfl⟩
  | succ n ih =>
    have hs : ∃ c r, times c!"\\not" n c!"+" = c :: r ∧ isLetter c = false ∧ isWs c = false := by
      cases n with
      | zero => exact ⟨_, _, rfl, by decide, by decide⟩
      | succ n => exact ⟨_, _, rfl, by decide, by decide⟩
    have ht : token h.content.cs = .ok (.cs c!"not") (times c!"\\not" n c!"+") := by
      rw [hc]
      exact token_word (w := c!"not") (by decide) (by decide) hs
    have hb : stripPrefix c!"{" (trimStart h.content.cs) = none := by rw [hc]; rfl
    obtain ⟨h1, h', h2⟩ := ih { h with content := { h.content with cs := times c!"\\not" n c!"+" }, buf := h.buf ++ [.ev (.visual .negation)], harg := true } rfl
    exact ⟨(handle_not n hb ht).trans h1, h', (handle_not (n + 2) hb ht).trans h2⟩

/-! ## Comments -/

/-- `token` calls itself at most once for every line, and once more. -/
theorem C77_comments (n : Nat) (s : Str) (h : s.count '\n' + 2 ≤ n) : tokenLoop n s ≠ .panic .fuel := by
  induction n generalizing s with
  | zero => omega
  | succ n ih =>
    intro hp
    have hle : (trimStart s).count '\n' ≤ s.count '\n' := (trimStart_suffix s).sublist.count_le _
    unfold tokenLoop at hp
    split at hp
    · cases hp
    · rename_i c r e
      split at hp
      · cases hr : rhsControlSequence r with
        | ok name rest => rw [hr] at hp; cases hp
        | err k rest => rw [hr] at hp; cases hp
        | panic p =>
          rw [hr] at hp
          injection hp with hp
          subst hp
          unfold rhsControlSequence at hr
          split at hr
          · cases hr
          · dsimp only at hr
            split at hr <;> cases hr
      · split at hp
        · split at hp
          · rename_i x rest hsp
            refine ih rest ?_ hp
            have := splitOnce_some hsp
            rw [e, this] at hle
            simp at hle
            omega
          · cases n with
            | zero => omega
            | succ n => cases hp
        · cases hp

/-- `token` calls itself once for every comment. -/
theorem C77_comments_unbounded (n : Nat) (r : Str) : tokenLoop n (times c!"%\n" n r) = .panic .fuel ∧ ∀ k, tokenLoop (n + k) (times c!"%\n" n r) = tokenLoop k r := by
  induction n with
  | zero => exact ⟨rfl, fun k => by rw [Nat.zero_add]; rfl⟩
  | succ n ih =>
    have key : ∀ m, tokenLoop (m + 1) (times c!"%\n" (n + 1) r) = tokenLoop m (times c!"%\n" n r) := by
      intro m
      rfl
    exact ⟨(key n).trans ih.1, fun k => by rw [Nat.add_right_comm, key]; exact ih.2 k⟩

end PL.Props
