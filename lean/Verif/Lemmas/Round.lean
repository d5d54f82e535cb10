import Verif.Lemmas.Atom
import Verif.Lemmas.Report
import Verif.Lemmas.Automaton
set_option autoImplicit false
/-! # Rounds of `parse`: expansions, then one token -/
namespace PL
open Lex Spec Macros

variable {cf : Cfg} {s s' s1 : PSt}

/-- The expansion of a macro puts a new text in place of the content. -/
structure Expand (cf : Cfg) (s s' : PSt) : Prop where
  ex : ∃ name rest new consumed start es len,
    token s.h.content.cs = .ok (.cs name) rest ∧
    tryExpand cf s.h.macros name rest = some (.ok new consumed) ∧
    s.sp.exps.length < maxExpansionDepth ∧ s.sp.total < maxExpansionBytes ∧
    reachLoop cf s.sp.input (Sl.ptr cf { s.h.content with cs := trimStart s.h.content.cs }) s.sp.exps = some (start, es) ∧
    s' = ⟨{ s.h with content := ⟨s.sp.nalloc + 1, blen new, new⟩ },
      ⟨s.sp.input, ⟨s.sp.nalloc + 1, new, len, start, start + (blen name + consumed + 1)⟩ :: es,
        s.sp.total + blen new, s.sp.nalloc + 1, s.sp.allocBytes + blen new⟩⟩

inductive Expands (cf : Cfg) : PSt → PSt → Prop
  | refl (s : PSt) : Expands cf s s
  | step {s s' s''} : Expand cf s s' → Expands cf s' s'' → Expands cf s s''

/-- What `parse` does with text that is not expanded. -/
inductive Final (cf : Cfg) (s : PSt) : Res PSt (Option Desc) → Prop
  | nothing {rest} : token s.h.content.cs = .err .token rest →
      Final cf s (.ok none { s with h := { s.h with content := { s.h.content with cs := rest } } })
  | error {e rest} : token s.h.content.cs = .err e rest → e ≠ .token →
      Final cf s (.err e { s with h := { s.h with content := { s.h.content with cs := rest } } })
  | atom {t rest} : token s.h.content.cs = .ok t rest →
      (∀ name, t = .cs name → tryExpand cf s.h.macros name rest = none) →
      Final cf s (liftH (atom cf (.ofTok s.h.content t)) { s with h := { s.h with content := { s.h.content with cs := rest } } })
  | macroPanic {name rest p} : token s.h.content.cs = .ok (.cs name) rest →
      tryExpand cf s.h.macros name rest = some (.panic p) → Final cf s (.panic p)
  | macroError {name rest e sp} : token s.h.content.cs = .ok (.cs name) rest →
      sp.input = s.sp.input → sp.exps = s.sp.exps → sp.total = s.sp.total → s.sp.nalloc ≤ sp.nalloc →
      tryExpand cf s.h.macros name rest = some (.err e) ∨ e = .macroRecursionLimit →
      Final cf s (.err e ⟨{ s.h with content := { s.h.content with cs := rest } }, sp⟩)
  | assertion {name rest new consumed} : token s.h.content.cs = .ok (.cs name) rest →
      tryExpand cf s.h.macros name rest = some (.ok new consumed) →
      reachLoop cf s.sp.input (Sl.ptr cf { s.h.content with cs := trimStart s.h.content.cs }) s.sp.exps = none →
      s.sp.exps.length < maxExpansionDepth → s.sp.total < maxExpansionBytes →
      Final cf s (.panic .assertion)

theorem round_spec (cf : Cfg) (n : Nat) (s : PSt) :
    Final cf s (parseLoop cf (n + 1) s) ∨ ∃ s', Expand cf s s' ∧ parseLoop cf (n + 1) s = parseLoop cf n s' := by
  generalize hq : parseLoop cf n = q
  rw [parseLoop, hq]
  simp only
  cases ht : token s.h.content.cs with
  | panic p => have := token_spec s.h.content.cs; rw [ht] at this; cases this
  | err e rest =>
    simp only
    split
    · rename_i he; subst he; exact .inl (.nothing ht)
    · rename_i he; exact .inl (.error ht he)
  | ok t rest =>
    simp only
    cases t with
    | chr c r => exact .inl (.atom ht fun _ h => by cases h)
    | cs name =>
      simp only
      cases hx : tryExpand cf s.h.macros name rest with
      | none => exact .inl (.atom ht fun _ h => by cases h; exact hx)
      | some x =>
        cases x with
        | panic p => exact .inl (.macroPanic ht hx)
        | err e =>
          simp only
          split
          · exact .inl (.macroError ht rfl rfl rfl (Nat.le_refl _) (.inr rfl))
          · exact .inl (.macroError ht rfl rfl rfl (Nat.le_refl _) (.inl hx))
        | ok new consumed =>
          simp only
          split
          · exact .inl (.macroError ht rfl rfl rfl (Nat.le_succ _) (.inr rfl))
          · rename_i hlim
            simp only [Bool.or_eq_true, decide_eq_true_eq, not_or, Nat.not_le] at hlim
            unfold Spans.add Spans.reach
            simp only
            cases hr : reachLoop cf s.sp.input (Sl.ptr cf { s.h.content with cs := trimStart s.h.content.cs }) s.sp.exps with
            | none => exact .inl (.assertion ht hx hr hlim.1 hlim.2)
            | some y =>
              obtain ⟨start, es⟩ := y
              exact .inr ⟨_, ⟨name, rest, new, consumed, start, es, _, ht, hx, hlim.1, hlim.2, hr, rfl⟩, rfl⟩

/-- The content is in the innermost expansion. -/
def InTop (s : PSt) : Prop := ∃ e es, s.sp.exps = e :: es ∧ s.h.content.src = e.id ∧ s.h.content.stop ≤ blen e.full ∧ s.h.content.wf

theorem trim_start (sl : Sl) : Sl.start { sl with cs := trimStart sl.cs } ≤ sl.stop := by
  unfold Sl.start
  simp only
  omega

theorem Expand.inTop (h : Expand cf s s') : InTop s' := by
  obtain ⟨name, rest, new, consumed, start, es, len, -, -, -, -, -, rfl⟩ := h.ex
  exact ⟨_, _, rfl, rfl, Nat.le_refl _, Nat.le_refl _⟩

theorem Expand.length (h : Expand cf s s') (ht : InTop s) : s'.sp.exps.length = s.sp.exps.length + 1 := by
  obtain ⟨name, rest, new, consumed, start, es, len, -, -, -, -, hr, rfl⟩ := h.ex
  obtain ⟨e, es', he, h1, h2, h3⟩ := ht
  rw [he] at hr ⊢
  unfold reachLoop at hr
  have hs := trim_start s.h.content
  rw [if_pos (by
    simp only [Bool.and_eq_true, decide_eq_true_eq]
    unfold Sl.ptr
    rw [← h1]
    simp only
    omega)] at hr
  cases hr
  rfl

theorem Expand.depth (h : Expand cf s s') : s.sp.exps.length < maxExpansionDepth ∧ 1 ≤ s'.sp.exps.length := by
  obtain ⟨name, rest, new, consumed, start, es, len, -, -, h1, -, -, rfl⟩ := h.ex
  exact ⟨h1, by simp⟩

theorem parseLoop_top (n : Nat) : ∀ s, InTop s → s.sp.exps.length + n ≥ maxExpansionDepth → s.sp.exps.length ≤ maxExpansionDepth →
    ∃ s', Expands cf s s' ∧ Final cf s' (parseLoop cf (n + 1) s) := by
  induction n with
  | zero =>
    intro s ht hn hle
    rcases round_spec cf 0 s with h | ⟨s', h, _⟩
    · exact ⟨s, .refl s, h⟩
    · have := h.depth; omega
  | succ n ih =>
    intro s ht hn hle
    rcases round_spec cf (n + 1) s with h | ⟨s', h, e⟩
    · exact ⟨s, .refl s, h⟩
    · have h1 := h.length ht
      have h2 := h.depth
      obtain ⟨s2, h3, h4⟩ := ih s' h.inTop (by omega) (by omega)
      exact ⟨s2, .step h h3, e ▸ h4⟩

/-- `parse` expands macros and then handles one token: its recursion is never cut short. -/
theorem parse_spec (cf : Cfg) (s : PSt) : ∃ s', Expands cf s s' ∧ Final cf s' (parse cf s) := by
  unfold parse
  rcases round_spec cf (maxExpansionDepth + 1) s with h | ⟨s', h, e⟩
  · exact ⟨s, .refl s, h⟩
  · have h2 := h.depth
    have hl : s'.sp.exps.length ≤ maxExpansionDepth := by
      obtain ⟨name, rest, new, consumed, start, es, len, -, -, h1, -, hr, rfl⟩ := h.ex
      have := (reachLoop_some hr).1.length_le
      simp; omega
    obtain ⟨s2, h3, h4⟩ := parseLoop_top (cf := cf) maxExpansionDepth s' h.inTop (by omega) hl
    exact ⟨s2, .step h h3, e ▸ h4⟩

end PL
