import Verif.Lemmas.Formula.Exactly
set_option autoImplicit false
/-!
# Elements, exactly

The parser does with the next element of a text what `Spec.Meant` says, and whenever it does not panic there is something that `Spec.Meant` says.
-/
namespace PL.Formula
open PL PL.Lex PL.H Spec PL.Props

variable {cf : Cfg} {s r : Str} {k : ErrorKind} {T : Option Nat} {Δ : Known} {n : Nat} {rec : HTok → H PUnit}

/-! ### Scripts -/

/-- What comes of the scripts after something that was right. -/
inductive ScriptTail (T : Option Nat) (Δ : Known) (m : Marks) (r : Str) : Effect → Prop
  | skipping : m.skip = true → ScriptTail T Δ m r (.right {} r Δ)
  | plain {vs w u} : m.skip = false → Limits m.mods r vs (w ++ u) → Spaces w → (∀ c v, u = c :: v → isWs c = false ∧ c ≠ '^' ∧ c ≠ '_') → ScriptTail T Δ m r (.right {} u Δ)
  | badScript {vs r' c v k} : m.skip = false → Limits m.mods r vs r' → ScriptAt r' c v → Gives T Δ (.need .operand v) (.wrong k) → ScriptTail T Δ m r (.wrong k)
  | script {vs r' c v m' v' Δ'} : m.skip = false → Limits m.mods r vs r' → ScriptAt r' c v → Gives T Δ (.need .operand v) (.right m' v' Δ') → NoScriptHere v' →
      ScriptTail T Δ m r (.right {} v' Δ')
  | double {vs r' c v m' v' Δ'} : m.skip = false → Limits m.mods r vs r' → ScriptAt r' c v → Gives T Δ (.need .operand v) (.right m' (c :: v') Δ') →
      ScriptTail T Δ m r (.wrong (doubleScript c))
  | badSecond {vs r' c v m' c' v' Δ' k} : m.skip = false → Limits m.mods r vs r' → ScriptAt r' c v → Gives T Δ (.need .operand v) (.right m' (c' :: v') Δ') →
      c = '^' ∧ c' = '_' ∨ c = '_' ∧ c' = '^' → Gives T Δ' (.need .operand v') (.wrong k) → ScriptTail T Δ m r (.wrong k)
  | scripts {vs r' c v m' c' v' Δ' m'' v'' Δ''} : m.skip = false → Limits m.mods r vs r' → ScriptAt r' c v → Gives T Δ (.need .operand v) (.right m' (c' :: v') Δ') →
      c = '^' ∧ c' = '_' ∨ c = '_' ∧ c' = '^' → Gives T Δ' (.need .operand v') (.right m'' v'' Δ'') → NoScriptHere v'' → ScriptTail T Δ m r (.right {} v'' Δ'')
  | triple {vs r' c v m' c' v' Δ' m'' e v'' Δ''} : m.skip = false → Limits m.mods r vs r' → ScriptAt r' c v → Gives T Δ (.need .operand v) (.right m' (c' :: v') Δ') →
      c = '^' ∧ c' = '_' ∨ c = '_' ∧ c' = '^' → Gives T Δ' (.need .operand v') (.right m'' (e :: v'') Δ'') → e = '^' ∨ e = '_' →
      ScriptTail T Δ m r (.wrong (doubleScript e))

theorem ScriptTail.meant {x : Word} {t : Str} {m : Marks} {Δ' : Known} {e : Effect} (h0 : NextTok s x t) (h1 : Δ.Free x)
    (h2 : Gives T Δ (.token false x t) (.right m r Δ')) (h : ScriptTail T Δ' m r e) : Meant T Δ s e := by
  cases h with
  | skipping a => exact .skipping h0 h1 h2 a
  | plain a b c d => exact .plain h0 h1 h2 a b c d
  | badScript a b c d => exact .badScript h0 h1 h2 a b c d
  | script a b c d e => exact .script h0 h1 h2 a b c d e
  | double a b c d => exact .double h0 h1 h2 a b c d
  | badSecond a b c d e f => exact .badSecond h0 h1 h2 a b c d e f
  | scripts a b c d e f g => exact .scripts h0 h1 h2 a b c d e f g
  | triple a b c d e f g => exact .triple h0 h1 h2 a b c d e f g

/-- What the text does, in two parts. -/
inductive Parts (T : Option Nat) (Δ : Known) (s : Str) (e : Effect) : Prop
  | nothing : BlankEnd s → e = .right {} [] Δ → Parts T Δ s e
  | backslash {b} : Blank b → s = b ++ ['\\'] → e = .wrong .emptyControlSequence → Parts T Δ s e
  | wrong {x t k} : NextTok s x t → Δ.Free x → Gives T Δ (.token false x t) (.wrong k) → e = .wrong k → Parts T Δ s e
  | tail {x t m r Δ'} : NextTok s x t → Δ.Free x → Gives T Δ (.token false x t) (.right m r Δ') → ScriptTail T Δ' m r e → Parts T Δ s e

theorem parts_of {e : Effect} (h : Meant T Δ s e) : Parts T Δ s e := by
  cases h with
  | nothing h => exact .nothing h rfl
  | backslash h => exact .backslash h rfl rfl
  | wrong h0 h1 h2 => exact .wrong h0 h1 h2 rfl
  | skipping h0 h1 h2 a => exact .tail h0 h1 h2 (.skipping a)
  | plain h0 h1 h2 a b c d => exact .tail h0 h1 h2 (.plain a b c d)
  | badScript h0 h1 h2 a b c d => exact .tail h0 h1 h2 (.badScript a b c d)
  | script h0 h1 h2 a b c d e => exact .tail h0 h1 h2 (.script a b c d e)
  | double h0 h1 h2 a b c d => exact .tail h0 h1 h2 (.double a b c d)
  | badSecond h0 h1 h2 a b c d e f => exact .tail h0 h1 h2 (.badSecond a b c d e f)
  | scripts h0 h1 h2 a b c d e f g => exact .tail h0 h1 h2 (.scripts a b c d e f g)
  | triple h0 h1 h2 a b c d e f g => exact .tail h0 h1 h2 (.triple a b c d e f g)

/-- The outcome `o` is the effect, whatever the marks. -/
def Comes {α : Type} (cf : Cfg) (o : Res HSt α) : Effect → Prop
  | .right _ r Δ => ∃ a h', o = .ok a h' ∧ h'.content.cs = r ∧ Stores cf h'.macros Δ
  | .wrong k => ∃ h', o = .err k h'

theorem Meets.comes {α : Type} {h : HSt} {o : Res HSt α} {e : Effect} (H : Meets cf h o e) : Comes cf o e := by
  cases e with
  | wrong k => exact H
  | right m r Δ => obtain ⟨a, h', e, h1, -, -, h2⟩ := H; exact ⟨a, h', e, h1, h2⟩

theorem operand_exact (hr : Right cf T n rec) {h : HSt} (hS : Stores cf h.macros Δ) (hn : h.content.cs.length + 1 ≤ n) :
    Exact cf T Δ (operand rec) h (.need .operand h.content.cs) := by
  exact phase_operand (pre := fun _ => pure ⟨⟩) hr (fun _ => idle_pure _) h Δ hS hn

theorem noScript_next {v : Str} (h : NoScriptHere v) : NoScriptNext v := by
  cases v with
  | nil => exact ⟨by simp, by simp⟩
  | cons c u => obtain ⟨h1, h2⟩ := h c u rfl; exact ⟨by simpa using h1, by simpa using h2⟩

theorem next_cases (v : Str) (c : Char) (hc : c = '^' ∨ c = '_') :
    NoScriptHere v ∨ (∃ v', v = c :: v') ∨ ∃ c' v', v = c' :: v' ∧ (c = '^' ∧ c' = '_' ∨ c = '_' ∧ c' = '^') := by
  cases v with
  | nil => exact .inl (by rintro _ _ ⟨⟩)
  | cons d u =>
    by_cases h1 : d = '^'
    · subst h1
      rcases hc with rfl | rfl
      · exact .inr (.inl ⟨_, rfl⟩)
      · exact .inr (.inr ⟨_, _, rfl, .inr ⟨rfl, rfl⟩⟩)
    · by_cases h2 : d = '_'
      · subst h2
        rcases hc with rfl | rfl
        · exact .inr (.inr ⟨_, _, rfl, .inl ⟨rfl, rfl⟩⟩)
        · exact .inr (.inl ⟨_, rfl⟩)
      · exact .inl (by rintro _ _ ⟨⟩; exact ⟨h1, h2⟩)

theorem scripts_bad {h h1 h' : HSt} {c : Char} {v : Str} (hat : AtScript h h1 c v) (e : operand rec (past h1 v) = .err k h') : ∃ h', scripts rec h = .err k h' := by
  rw [scripts_open hat]
  unfold operand at e
  refine ⟨h', ?_⟩
  rw [M.run_bind] at e ⊢
  cases ha : H.argument (past h1 v) with
  | ok a s0 =>
    rw [ha] at e
    dsimp only at e ⊢
    rw [M.run_bind, e]
  | err k' s0 => rw [ha] at e; cases e; rfl
  | panic p => rw [ha] at e; cases e

theorem scripts_boom {h h1 : HSt} {c : Char} {v : Str} {p : Panic} (hat : AtScript h h1 c v) (e : operand rec (past h1 v) = .panic p) : scripts rec h = .panic p := by
  rw [scripts_open hat]
  unfold operand at e
  rw [M.run_bind] at e ⊢
  cases ha : H.argument (past h1 v) with
  | ok a s0 =>
    rw [ha] at e
    dsimp only at e ⊢
    rw [M.run_bind, e]
  | err k' s0 => rw [ha] at e; cases e
  | panic p => rw [ha] at e; cases e; rfl

/-- The second script does not come out right. -/
theorem scripts_second {h h1 h2 : HSt} {c : Char} {v v' : Str} (hat : AtScript h h1 c v) (e : operand rec (past h1 v) = .ok ⟨⟩ h2) (hc : h2.content.cs = other c :: v')
    {o : Res HSt (Option Desc)} (e' : (∃ k h', operand rec (past h2 v') = .err k h' ∧ o = .err k h') ∨ ∃ p, operand rec (past h2 v') = .panic p ∧ o = .panic p) :
    scripts rec h = o := by
  rw [scripts_open hat]
  obtain ⟨a, s0, e1, e2⟩ := operand_ok e
  rw [M.run_bind, e1]
  dsimp only
  rw [M.run_bind, e2]
  dsimp only
  rw [M.get_bind, hc]
  rw [if_pos (by rcases hat.script with rfl | rfl <;> rfl), M.set_bind, M.run_bind]
  have hp : ({ h2 with content := { h2.content with cs := (other c :: v').tail } } : HSt) = past h2 v' := rfl
  rw [hp]
  unfold operand at e'
  rw [M.run_bind] at e'
  cases ha : H.argument (past h2 v') with
  | ok a s0 =>
    rw [ha] at e'
    dsimp only at e' ⊢
    rw [M.run_bind]
    rcases e' with ⟨k, h', e', rfl⟩ | ⟨p, e', rfl⟩ <;> rw [e']
  | err k' s0 =>
    rw [ha] at e'
    rcases e' with ⟨k, h', e', rfl⟩ | ⟨p, e', rfl⟩
    · cases e'; rfl
    · cases e'
  | panic p =>
    rw [ha] at e'
    rcases e' with ⟨k, h', e', rfl⟩ | ⟨p, e', rfl⟩
    · cases e'
    · cases e'; rfl

variable {h : HSt} {m : Marks}

theorem plain_trim {w u : Str} (hw : Spaces w) (hu : ∀ c v, u = c :: v → isWs c = false ∧ c ≠ '^' ∧ c ≠ '_') : Spec.NoScript (w ++ u) ∧ trimStart (w ++ u) = u := by
  have e : trimStart (w ++ u) = u := by
    rw [trimStart_ws_append hw, trimStart_eq_self (by intro d r e; exact (hu d r e).1)]
  refine ⟨noScript_iff.2 ?_, e⟩
  unfold NoScriptAfter
  rw [e]
  cases u with
  | nil => exact ⟨by simp, by simp⟩
  | cons c v => obtain ⟨-, h1, h2⟩ := hu c v rfl; exact ⟨by simpa using h1, by simpa using h2⟩

theorem scripts_sound (hr : Right cf T n rec) (hn : h.content.cs.length + 1 ≤ n) (hm : h.allowMods = m.mods) (hk : h.skip = m.skip) (hS : Stores cf h.macros Δ) {e : Effect}
    (ht : ScriptTail T Δ m h.content.cs e) : Comes cf (scripts rec h) e := by
  have at_ : ∀ {vs r' c v}, m.skip = false → Limits m.mods h.content.cs vs r' → ScriptAt r' c v → ∃ h1, AtScript h h1 c v ∧ h1.macros = h.macros ∧ v.length + 2 ≤ n := by
    intro vs r' c v h1 h2 h3
    obtain ⟨w, hw, rfl, hc⟩ := h3
    have hl := limits_length h2
    simp at hl
    exact ⟨_, atScript_of (by rw [hk, h1]) (by rw [hm]; exact h2) hw hc, rfl, by omega⟩
  have right : ∀ {h1 : HSt} {v Δ0 m' v' Δ'}, Stores cf h1.macros Δ0 → v.length + 1 ≤ n → Gives T Δ0 (.need .operand v) (.right m' v' Δ') →
      ∃ h2, operand rec (past h1 v) = .ok ⟨⟩ h2 ∧ h2.content.cs = v' ∧ Stores cf h2.macros Δ' := by
    intro h1 v Δ0 m' v' Δ' a b c
    obtain ⟨⟨⟩, h2, e, e1, -, -, e2⟩ := (operand_exact hr (h := past h1 v) a b).sound _ c
    exact ⟨h2, e, e1, e2⟩
  have wrong : ∀ {h1 : HSt} {v Δ0 k}, Stores cf h1.macros Δ0 → v.length + 1 ≤ n → Gives T Δ0 (.need .operand v) (.wrong k) →
      ∃ h2, operand rec (past h1 v) = .err k h2 := by
    intro h1 v Δ0 k a b c
    exact (operand_exact hr (h := past h1 v) a b).sound _ c
  cases ht with
  | skipping a => exact ⟨_, _, scripts_skip (by rw [hk, a]), rfl, hS⟩
  | @plain vs w u a b c d =>
    obtain ⟨h1, h2⟩ := plain_trim c d
    exact ⟨_, _, scripts_no (by rw [hk, a]) (by rw [hm]; exact b) h1, h2, hS⟩
  | badScript a b c d =>
    obtain ⟨h1, hat, e1, hl⟩ := at_ a b c
    obtain ⟨h2, e2⟩ := wrong (h1 := h1) (by rw [e1]; exact hS) (by omega) d
    exact scripts_bad hat e2
  | script a b c d e =>
    obtain ⟨h1, hat, e1, hl⟩ := at_ a b c
    obtain ⟨h2, e2, e3, e4⟩ := right (h1 := h1) (by rw [e1]; exact hS) (by omega) d
    exact ⟨_, _, scripts_one hat e2 (by rw [e3]; exact noScript_next e), e3, e4⟩
  | double a b c d =>
    obtain ⟨h1, hat, e1, hl⟩ := at_ a b c
    obtain ⟨h2, e2, e3, e4⟩ := right (h1 := h1) (by rw [e1]; exact hS) (by omega) d
    exact ⟨_, scripts_same hat e2 e3⟩
  | badSecond a b c d e f =>
    obtain ⟨h1, hat, e1, hl⟩ := at_ a b c
    have hl2 := gives_length d _ _ _ rfl
    simp [Source.size] at hl2
    obtain ⟨h2, e2, e3, e4⟩ := right (h1 := h1) (by rw [e1]; exact hS) (by omega) d
    obtain ⟨h3, e5⟩ := wrong (h1 := h2) e4 (by omega) f
    exact ⟨_, scripts_second hat e2 (by rw [e3, other_of e]) (.inl ⟨_, _, e5, rfl⟩)⟩
  | scripts a b c d e f g =>
    obtain ⟨h1, hat, e1, hl⟩ := at_ a b c
    have hl2 := gives_length d _ _ _ rfl
    simp [Source.size] at hl2
    obtain ⟨h2, e2, e3, e4⟩ := right (h1 := h1) (by rw [e1]; exact hS) (by omega) d
    obtain ⟨h3, e5, e6, e7⟩ := right (h1 := h2) e4 (by omega) f
    exact ⟨_, _, scripts_two hat e2 (by rw [e3, other_of e]) e5 (by rw [e6]; exact noScript_next g), e6, e7⟩
  | triple a b c d e f g =>
    obtain ⟨h1, hat, e1, hl⟩ := at_ a b c
    have hl2 := gives_length d _ _ _ rfl
    simp [Source.size] at hl2
    obtain ⟨h2, e2, e3, e4⟩ := right (h1 := h1) (by rw [e1]; exact hS) (by omega) d
    obtain ⟨h3, e5, e6, e7⟩ := right (h1 := h2) e4 (by omega) f
    exact ⟨_, scripts_third hat e2 (by rw [e3, other_of e]) e5 e6 g⟩

theorem scripts_total (hr : Right cf T n rec) (hn : h.content.cs.length + 1 ≤ n) (hm : h.allowMods = m.mods) (hk : h.skip = m.skip) (hS : Stores cf h.macros Δ)
    (ho : cf.overflowChecks = true) (hp : ∀ q, scripts rec h ≠ .panic q) : ∃ e, ScriptTail T Δ m h.content.cs e := by
  cases hsk : m.skip with
  | true => exact ⟨_, .skipping hsk⟩
  | false =>
    obtain ⟨vs, r', hl⟩ : ∃ vs r', Limits m.mods h.content.cs vs r' := by
      cases m.mods with
      | false => exact ⟨_, _, .no⟩
      | true =>
        obtain ⟨vs, r, h1, -⟩ := C43_exists h.content.cs
        exact ⟨vs, r, .yes h1⟩
    obtain ⟨w, hw, e⟩ := trimStart_spec r'
    cases hu : trimStart r' with
    | nil => exact ⟨_, .plain (u := []) hsk (by rw [hu] at e; rw [← e]; exact hl) hw (by rintro _ _ ⟨⟩)⟩
    | cons c v =>
      rw [hu] at e
      have hws : isWs c = false := trimStart_head hu
      by_cases hc : c = '^' ∨ c = '_'
      · have hat0 : ScriptAt r' c v := ⟨w, hw, e, hc⟩
        have hlen := limits_length hl
        rw [e] at hlen
        simp at hlen
        have hat := atScript_of (h := h) (vs := vs) (w := w) (by rw [hk, hsk]) (by rw [hm, ← e]; exact hl) hw hc
        have x1 := operand_exact hr (h := past { past h (c :: v) with pos := placed vs h.pos } v) hS (by show v.length + 1 ≤ n; omega)
        obtain ⟨e1, g1⟩ := x1.total ho (by
          intro q hq
          exact hp q (scripts_boom hat hq))
        cases e1 with
        | wrong k => exact ⟨_, .badScript hsk hl hat0 g1⟩
        | right m1 v1 Δ1 =>
          have hl1 := gives_length g1 _ _ _ rfl
          have hl1 : v1.length ≤ v.length := hl1
          obtain ⟨⟨⟩, h2, e2, e3, -, -, e4⟩ := x1.sound _ g1
          rcases next_cases v1 c hc with h3 | ⟨v', rfl⟩ | ⟨c', v', rfl, h3⟩
          · exact ⟨_, .script hsk hl hat0 g1 h3⟩
          · exact ⟨_, .double hsk hl hat0 g1⟩
          · simp at hl1
            have x2 := operand_exact hr (h := past h2 v') e4 (by show v'.length + 1 ≤ n; omega)
            obtain ⟨e5, g2⟩ := x2.total ho (by
              intro q hq
              exact hp q (scripts_second hat e2 (by rw [e3, other_of h3]) (.inr ⟨_, hq, rfl⟩)))
            cases e5 with
            | wrong k => exact ⟨_, .badSecond hsk hl hat0 g1 h3 g2⟩
            | right m2 v2 Δ2 =>
              rcases next_cases v2 '^' (.inl rfl) with h4 | ⟨v', rfl⟩ | ⟨c', v', rfl, h4⟩
              · exact ⟨_, .scripts hsk hl hat0 g1 h3 g2 h4⟩
              · exact ⟨_, .triple hsk hl hat0 g1 h3 g2 (.inl rfl)⟩
              · exact ⟨_, .triple hsk hl hat0 g1 h3 g2 (.inr (by rcases h4 with h4 | h4; exact h4.2; exact absurd h4.1 (by decide)))⟩
      · exact ⟨_, .plain (u := c :: v) hsk (by rw [← e]; exact hl) hw (by
          rintro _ _ ⟨⟩
          exact ⟨hws, fun h => hc (.inl h), fun h => hc (.inr h)⟩)⟩

/-! ### Elements -/

theorem atom_exact {x : Word} {t : Str} {ht : HTok} (hx : NextTok s x t) (hi : ht.is x t) (hc : h.content.cs = t) (hm : h.allowMods = false) (hk : h.skip = false)
    (ha : h.harg = false) (hT : room h.align = T) (hS : Stores cf h.macros Δ) :
    (∀ k, Gives T Δ (.token false x t) (.wrong k) → Comes cf (atom cf ht h) (.wrong k)) ∧
    (∀ m r Δ' e, Gives T Δ (.token false x t) (.right m r Δ') → ScriptTail T Δ' m r e → Comes cf (atom cf ht h) e) ∧
    (cf.overflowChecks = true → (∀ q, atom cf ht h ≠ .panic q) →
      (∃ k, Gives T Δ (.token false x t) (.wrong k)) ∨ ∃ m r Δ' e, Gives T Δ (.token false x t) (.right m r Δ') ∧ ScriptTail T Δ' m r e) := by
  have X : Exact cf T Δ (handleToken cf (tokenFuel h.content) ht) h (.token false x t) :=
    right_all (tokenFuel h.content) ht x t false h Δ (by show t.length + 2 ≤ h.content.cs.length + 3; rw [hc]; omega) (says_of hx hi) hc ha (fun _ => hT) hS
  have next : ∀ {m r Δ'}, Gives T Δ (.token false x t) (.right m r Δ') → ∃ h1, handleToken cf (tokenFuel h.content) ht h = .ok ⟨⟩ h1 ∧ h1.content.cs = r ∧
      h1.allowMods = m.mods ∧ h1.skip = m.skip ∧ Stores cf h1.macros Δ' ∧ atom cf ht h = scripts (handleToken cf (tokenFuel h1.content)) h1 := by
    intro m r Δ' g
    obtain ⟨⟨⟩, h1, e1, e2, e3, e4, e5⟩ := X.sound _ g
    refine ⟨h1, e1, e2, by rw [e3, hm]; rfl, by rw [e4, hk]; rfl, e5, ?_⟩
    unfold atom
    rw [M.get_bind, M.bind_ok e1, M.get_bind]
  refine ⟨fun k g => ?_, fun m r Δ' e g ht => ?_, fun ho hp => ?_⟩
  · obtain ⟨h1, e1⟩ := X.sound _ g
    refine ⟨h1, ?_⟩
    unfold atom
    rw [M.get_bind, M.run_bind, e1]
  · obtain ⟨h1, -, rfl, e3, e4, e5, e6⟩ := next g
    rw [e6]
    exact scripts_sound (T := T) (n := tokenFuel h1.content) (right_all _) (by unfold tokenFuel; omega) e3 e4 e5 ht
  · have hp1 : ∀ q, handleToken cf (tokenFuel h.content) ht h ≠ .panic q := by
      intro q e
      refine hp q ?_
      unfold atom
      rw [M.get_bind, M.run_bind, e]
    obtain ⟨e, g⟩ := X.total ho hp1
    cases e with
    | wrong k => exact .inl ⟨k, g⟩
    | right m r Δ' =>
      obtain ⟨h1, -, rfl, e3, e4, e5, e6⟩ := next g
      obtain ⟨e, h2⟩ := scripts_total (T := T) (m := m) (n := tokenFuel h1.content) (right_all _) (by unfold tokenFuel; omega) e3 e4 e5 ho (by rw [← e6]; exact hp)
      exact .inr ⟨m, _, Δ', e, g, h2⟩

/-- The outcome `o` of the parser is the effect. -/
def Done {α : Type} (cf : Cfg) (sp : Spans) (o : Res PSt α) : Effect → Prop
  | .right _ r Δ => ∃ a h', o = .ok a ⟨h', sp⟩ ∧ h'.content.cs = r ∧ Stores cf h'.macros Δ
  | .wrong k => ∃ h', o = .err k ⟨h', sp⟩

theorem Comes.lift {α : Type} {m : H α} {sp : Spans} {e : Effect} (H : Comes cf (m h) e) : Done cf sp (liftH m ⟨h, sp⟩) e := by
  cases e with
  | wrong k =>
    obtain ⟨h', e⟩ := H
    exact ⟨h', by simp only [liftH, e]⟩
  | right _ r Δ =>
    obtain ⟨a, h', e, h1⟩ := H
    exact ⟨a, h', by simp only [liftH, e], h1⟩

/-- A parser at the start of an element. -/
structure Fresh (T : Option Nat) (h : HSt) : Prop where
  mods : h.allowMods = false
  skip : h.skip = false
  harg : h.harg = false
  room : room h.align = T

theorem parseLoop_tok {tk : Tok} {t : Str} {x : Word} {sp : Spans} (ht : token h.content.cs = .ok tk t) (hsay : Tok.says tk x) (hf : Unbound h.macros x) :
    parseLoop cf (n + 1) ⟨h, sp⟩ = liftH (atom cf (HTok.ofTok h.content tk)) ⟨past h t, sp⟩ := by
  rw [parseLoop]
  simp only [ht]
  cases tk with
  | chr d ctx => rfl
  | cs name =>
    have hn : Macros.tryExpand cf h.macros name t = none := by
      unfold Macros.tryExpand
      rw [hf name (by cases x with
        | cs m => cases hsay; rfl
        | chr => cases hsay)]
      rfl
    simp only [hn]
    rfl

theorem element_sound (hF : Fresh T h) (hS : Stores cf h.macros Δ) {e : Effect} {sp : Spans} (he : Meant T Δ h.content.cs e) :
    Done cf sp (parseLoop cf (n + 1) ⟨h, sp⟩) e := by
  rcases parts_of he with ⟨hb, rfl⟩ | ⟨hb, e1, rfl⟩ | ⟨hx, hf, hg, rfl⟩ | ⟨hx, hf, hg, ht⟩
  · rw [parseLoop]
    simp only [token_blankEnd hb]
    exact ⟨_, _, rfl, rfl, hS⟩
  · rw [parseLoop]
    simp only [e1, backslash_token hb]
    exact ⟨_, rfl⟩
  · obtain ⟨tk, ht, hsay⟩ := nextTok_iff.1 hx
    rw [parseLoop_tok ht hsay (hS.unbound hf)]
    exact Comes.lift ((atom_exact hx (ofTok_is ht hsay) (h := past h _) rfl hF.mods hF.skip hF.harg hF.room hS).1 _ hg)
  · obtain ⟨tk, ht', hsay⟩ := nextTok_iff.1 hx
    rw [parseLoop_tok ht' hsay (hS.unbound hf)]
    exact Comes.lift ((atom_exact hx (ofTok_is ht' hsay) (h := past h _) rfl hF.mods hF.skip hF.harg hF.room hS).2.1 _ _ _ _ hg ht)

theorem element_total (hF : Fresh T h) (hS : Stores cf h.macros Δ) {sp : Spans} (hx : ∀ x t, NextTok h.content.cs x t → Δ.Free x) (ho : cf.overflowChecks = true)
    (hp : ∀ q, parseLoop cf (n + 1) ⟨h, sp⟩ ≠ .panic q) : ∃ e, Meant T Δ h.content.cs e := by
  rcases tok_total h.content.cs with ⟨x, t, hxt⟩ | ⟨k, hk⟩
  · have hf := hx x t hxt
    obtain ⟨tk, ht, hsay⟩ := nextTok_iff.1 hxt
    rw [parseLoop_tok ht hsay (hS.unbound hf)] at hp
    have hp' : ∀ q, atom cf (HTok.ofTok h.content tk) (past h t) ≠ .panic q := by
      intro q e
      exact hp q (by simp only [liftH, e])
    rcases (atom_exact hxt (ofTok_is ht hsay) (h := past h _) rfl hF.mods hF.skip hF.harg hF.room hS).2.2 ho hp' with ⟨k, g⟩ | ⟨m, r, Δ', e, g, h1⟩
    · exact ⟨_, .wrong hxt hf g⟩
    · exact ⟨e, h1.meant hxt hf g⟩
  · generalize h.content.cs = s at *
    cases hk with
    | nothing hb => exact ⟨_, .nothing hb⟩
    | backslash hb => exact ⟨_, .backslash hb⟩

end PL.Formula
