import Verif.Spec.Define
import Verif.Lemmas.Dangling
import Verif.Props.Lexing
import Verif.Props.Stream
set_option autoImplicit false
/-!
# Commands that define macros (C19, C20)
-/
namespace PL.Props
open PL PL.Lex Spec PL.Macros

theorem braceArgument_iff {s g r : Str} : braceArgument s = .ok g r ↔ Braced s g r := by
  unfold braceArgument Braced
  obtain ⟨w, hw, e⟩ := trimStart_spec s
  constructor
  · intro h
    split at h
    · rename_i t ht
      rw [stripPrefix_some] at ht
      exact ⟨w, t, hw, by rw [e, ht]; rfl, groupContent_ok.1 h⟩
    · cases h
  · rintro ⟨w', t, hw', rfl, hs⟩
    rw [trimStart_ws_append hw', trimStart_eq_self (by intro c r e; cases e; decide)]
    exact groupContent_ok.2 hs

theorem bracketed_iff {s g r : Str} : optionalArgument s = .ok (some g) r ↔ Bracketed s g r := by
  unfold optionalArgument Bracketed
  obtain ⟨w, hw, e⟩ := trimStart_spec s
  constructor
  · intro h
    split at h
    · rename_i t ht
      rw [stripPrefix_some] at ht
      refine ⟨w, t, hw, by rw [e, ht]; rfl, ?_⟩
      split at h
      · rename_i hg; cases h; exact groupContent_ok.1 hg
      · cases h
      · cases h
    · cases h
  · rintro ⟨w', t, hw', rfl, hs⟩
    rw [trimStart_ws_append hw', trimStart_eq_self (by intro c r e; cases e; decide)]
    have : groupContent .optionalArgument t = .ok g r := groupContent_ok.2 hs
    have e : stripPrefix c!"[" ('[' :: t) = some t := stripPrefix_some.2 rfl
    rw [e]
    dsimp only
    rw [this]

theorem noBracket_opt {s : Str} (h : NoBracket s) : optionalArgument s = .ok none s := by
  unfold optionalArgument
  obtain ⟨w, hw, e⟩ := trimStart_spec s
  split
  · rename_i t ht
    rw [stripPrefix_some] at ht
    exact absurd (by rw [e, ht]; rfl) (h w t hw)
  · rfl

theorem braceArgument_no_panic {s : Str} {p : Panic} : braceArgument s ≠ .panic p := by
  intro h
  unfold braceArgument at h
  split at h
  · exact groupContent_no_panic h
  · cases h

theorem optionalArgument_no_panic {s : Str} {p : Panic} : optionalArgument s ≠ .panic p := by
  intro h
  unfold optionalArgument at h
  split at h
  · split at h
    · cases h
    · cases h
    · rename_i hg; exact groupContent_no_panic hg
  · cases h

theorem names_iff {s name r : Str} : Names s name r ↔ ∃ g u, braceArgument s = .ok g r ∧ controlSequence g = .ok name u := by
  constructor
  · rintro ⟨g, u, h1, h2⟩
    exact ⟨_, _, braceArgument_iff.2 h1, (C14_name _ _ _).2 ⟨u, h2, rfl⟩⟩
  · rintro ⟨g, u, h1, h2⟩
    cases g with
    | nil => cases h2
    | cons c g =>
      by_cases hc : c = '\\'
      · subst hc
        obtain ⟨r', h3, -⟩ := (C14_name _ _ _).1 h2
        exact ⟨g, r', braceArgument_iff.1 h1, h3⟩
      · have : controlSequence (c :: g) = .err .controlSequence (c :: g) :=
          (C14_fail _ _ _).2 (.inr (.inr ⟨c, g, rfl, hc, rfl, rfl⟩))
        rw [this] at h2
        cases h2

theorem names_det {s n1 r1 n2 r2 : Str} (h1 : Names s n1 r1) (h2 : Names s n2 r2) : n1 = n2 ∧ r1 = r2 := by
  obtain ⟨g, u, a, b⟩ := names_iff.1 h1
  obtain ⟨g', u', a', b'⟩ := names_iff.1 h2
  rw [a] at a'
  cases a'
  rw [b] at b'
  cases b'
  exact ⟨rfl, rfl⟩

theorem paramNumber_iff {g : Str} {n : Nat} : ParamNumber g n ↔ parseU8 g = some n ∧ n ≤ 9 := by
  have main : ∀ ds : Str, (if ds.isEmpty || !ds.all isDigit then none else
      (if digitsVal 10 0 ds < 256 then some (digitsVal 10 0 ds) else none : Option Nat)) = some n ∧ n ≤ 9 ↔
      ds ≠ [] ∧ (∀ c ∈ ds, isDigit c = true) ∧ n = digitsVal 10 0 ds ∧ n ≤ 9 := by
    intro ds
    by_cases h1 : ds = []
    · subst h1; simp
    by_cases h2 : ∀ c ∈ ds, isDigit c = true
    · rw [if_neg (by simpa [h1] using h2)]
      constructor
      · rintro ⟨h, hn⟩
        split at h
        · cases h; exact ⟨h1, h2, rfl, hn⟩
        · cases h
      · rintro ⟨-, -, rfl, hn⟩
        rw [if_pos (by omega)]
        exact ⟨rfl, hn⟩
    · rw [if_pos (by
        simp only [Bool.or_eq_true, Bool.not_eq_true', List.all_eq_false]
        simp only [Classical.not_forall] at h2
        obtain ⟨c, hc, hd⟩ := h2
        exact .inr ⟨c, hc, hd⟩)]
      simp only [h2, false_and, and_false]
      simp
  unfold parseU8 ParamNumber
  constructor
  · rintro ⟨ds, h, h1, h2, h3, h4⟩
    have := (main ds).2 ⟨h1, h2, h3, h4⟩
    rcases h with rfl | rfl
    · cases g with
      | nil => exact absurd rfl h1
      | cons c g =>
        by_cases hc : c = '+'
        · subst hc
          exact absurd (h2 '+' (by simp)) (by decide)
        · split
          · rename_i heq; cases heq; exact absurd rfl hc
          · exact this
    · exact this
  · intro h
    cases g with
    | nil => obtain ⟨h1, h2, h3, h4⟩ := (main []).1 h; exact absurd rfl h1
    | cons c g =>
      by_cases hc : c = '+'
      · subst hc
        obtain ⟨h1, h2, h3, h4⟩ := (main g).1 h
        exact ⟨g, .inr rfl, h1, h2, h3, h4⟩
      · dsimp only at h
        obtain ⟨h1, h2, h3, h4⟩ := (main (c :: g)).1 (by
          revert h
          split
          · rename_i heq; cases heq; exact absurd rfl hc
          · exact id)
        exact ⟨_, .inl rfl, h1, h2, h3, h4⟩

/-- The three commands. -/
inductive Family where
  | new | renew | provide

def Family.word : Family → Str
  | .new => c!"newcommand"
  | .renew => c!"renewcommand"
  | .provide => c!"providecommand"

def Family.should : Family → Option Bool
  | .new => some false
  | .renew => some true
  | .provide => none

theorem primOf_family (f : Family) : primOf f.word = .newcommand f.should := by
  cases f <;> decide +kernel

theorem family_run (cf : Cfg) (k : Nat) (f : Family) (s : HSt) :
    handleToken cf (k + 1) (.cs f.word) s = newCommand f.should s := by
  show execPrim cf (handleToken cf k) (primOf f.word) s = _
  rw [primOf_family]
  rfl

/-- Whether the command may go on, given that the name is (not) defined. -/
def Family.refuses : Family → Bool → Bool
  | .new, known => known
  | .renew, known => !known
  | .provide, _ => false

theorem brace_sat (s : HSt) : Sat (fun (g : Sl) (s' : HSt) => Lex.braceArgument s.content.cs = .ok g.cs s'.content.cs ∧ s'.macros = s.macros)
    (fun _ s' => s'.macros = s.macros) (fun _ => False) (H.braceArgument s) := by
  unfold H.braceArgument
  cases h : Lex.braceArgument s.content.cs with
  | ok g r => exact ⟨rfl, rfl⟩
  | err => rfl
  | panic => exact braceArgument_no_panic h

theorem opt_sat (s : HSt) : Sat (fun (g : Option Sl) (s' : HSt) => Lex.optionalArgument s.content.cs = .ok (g.map (·.cs)) s'.content.cs ∧
      s'.macros = s.macros)
    (fun _ s' => s'.macros = s.macros) (fun _ => False) (H.optionalArgument s) := by
  unfold H.optionalArgument
  cases h : Lex.optionalArgument s.content.cs with
  | ok g r => cases g <;> exact ⟨rfl, rfl⟩
  | err => rfl
  | panic => exact optionalArgument_no_panic h

theorem insertCommand_no_panic {m : Ctx} {name rt : Str} {n : Nat} {d : Option Str} {p : Panic} :
    insertCommand m name n d rt ≠ .error (.inr p) := by
  unfold insertCommand
  have hsp := parseReplacement_spec rt n
  cases hp : parseReplacement rt n with
  | ok => intro h; cases h
  | error e =>
    cases e with
    | inl e => intro h; cases h
    | inr p => rw [hp] at hsp; exact hsp.elim

theorem absent_opt {s r : Str} (h : optionalArgument s = .ok none r) :
    NoBracket s ∧ r = s ∨ ∃ w t, Spaces w ∧ s = w ++ '[' :: t ∧ (¬ ∃ g r, Split ['['] [']'] 0 t g r) ∧ (r = [] ∨ r = t) := by
  unfold optionalArgument at h
  obtain ⟨w, hw, e⟩ := trimStart_spec s
  split at h
  · rename_i t ht
    rw [stripPrefix_some] at ht
    refine .inr ⟨w, t, hw, by rw [e, ht]; rfl, ?_⟩
    split at h
    · cases h
    · rename_i hg
      cases h
      exact ⟨(C12_fail .optionalArgument t).1 ⟨_, by rw [hg, (groupContent_err hg).1]⟩, (groupContent_err hg).2⟩
    · cases h
  · rename_i hs
    rw [stripPrefix_none] at hs
    cases h
    refine .inl ⟨?_, rfl⟩
    rintro w' t' hw' rfl
    rw [trimStart_ws_append hw', trimStart_eq_self (by intro c r e; cases e; decide)] at hs
    exact hs t' rfl

/-- All outcomes of the three commands. -/
theorem newCommand_cases (f : Family) (s : HSt) :
    Sat (fun _ s' => ∃ name n d rt, (NewCommand s.content.cs name n d rt s'.content.cs ∨
            d = none ∧ OpenBracket s.content.cs name n rt s'.content.cs) ∧
          f.refuses (s.macros.contains name) = false ∧
          (if f.should = none ∧ s.macros.contains name = true then s'.macros = s.macros
            else insertCommand s.macros name n d rt = .ok s'.macros))
      (fun _ s' => s'.macros = s.macros) (fun _ => False) (newCommand f.should s) := by
  unfold newCommand
  refine Sat.bind (brace_sat s) ?_
  rintro g s1 ⟨h1, m1⟩
  rw [M.run_bind]
  unfold H.onStr
  cases h2 : controlSequence g.cs with
  | panic p => exact C14_no_panic _ _ h2
  | err e r => exact m1
  | ok name u =>
    have hN : Names s.content.cs name s1.content.cs := names_iff.2 ⟨_, u, h1, h2⟩
    dsimp only
    rw [M.get_bind, m1]
    refine Sat.ite (fun _ => m1) fun hb => ?_
    have hb' : f.refuses (s.macros.contains name) = false := by
      revert hb
      cases f <;> cases s.macros.contains name <;> simp [Family.should, Family.refuses]
    rw [← m1]
    refine Sat.bind (opt_sat s1) ?_
    rintro nb s2 ⟨h3, m2⟩
    rw [← m2]
    cases nb with
    | none => rfl
    | some nb =>
      dsimp only
      have b1 := bracketed_iff.1 h3
      cases h4 : parseU8 nb.cs with
      | none => rfl
      | some n =>
        dsimp only
        refine Sat.bind (opt_sat s2) ?_
        rintro db s3 ⟨h5, m3⟩
        rw [← m3]
        refine Sat.ite (fun _ => rfl) fun hn => ?_
        have hn : ParamNumber nb.cs n := paramNumber_iff.2 ⟨h4, by omega⟩
        refine Sat.bind (brace_sat s3) ?_
        rintro rt s4 ⟨h6, m4⟩
        rw [M.get_bind, ← m4]
        rw [← m1, ← m2, ← m3, ← m4] at hb'
        have b3 := braceArgument_iff.1 h6
        have hT : NewCommand s.content.cs name n (db.map (·.cs)) rt.cs s4.content.cs ∨
            db.map (·.cs) = none ∧ OpenBracket s.content.cs name n rt.cs s4.content.cs := by
          cases db with
          | none =>
            rcases absent_opt h5 with ⟨a1, a2⟩ | ⟨w, t, a1, a2, a3, a4⟩
            · rw [a2] at b3
              exact .inl (.plain hN b1 hn a1 b3)
            · rcases a4 with a4 | a4
              · rw [a4] at b3
                obtain ⟨w', t', -, e, -⟩ := b3
                simp at e
              · rw [a4] at b3
                rw [a2] at b1
                exact .inr ⟨rfl, _, _, w, t, hN, b1, hn, a1, a3, b3⟩
          | some d => exact .inl (.default hN b1 hn (bracketed_iff.1 h5) b3)
        refine Sat.ite (fun hc => ?_) fun hc => ?_
        · refine ⟨name, n, _, rt.cs, hT, hb', ?_⟩
          rw [if_pos (by simp only [Bool.and_eq_true] at hc; exact ⟨by simpa using hc.2, hc.1⟩)]
        · unfold H.macros
          dsimp only
          cases hi : insertCommand s4.macros name n (db.map (·.cs)) rt.cs with
          | error e =>
            cases e with
            | inl e => rfl
            | inr p => exact insertCommand_no_panic hi
          | ok m' =>
            refine ⟨name, n, _, rt.cs, hT, hb', ?_⟩
            rw [if_neg (by simp only [Bool.and_eq_true] at hc; intro h; exact hc ⟨h.2, by simp [h.1]⟩)]
            exact hi

theorem insertCommand_eq {m m' : Ctx} {name rt : Str} {n : Nat} {d : Option Str} (h : insertCommand m name n d rt = .ok m') :
    ∃ df, m' = m.insert name df := by
  unfold insertCommand at h
  split at h
  · cases h
  · cases h; exact ⟨_, rfl⟩

theorem get_other {m : Ctx} {name x : Str} {df : Definition} (h : x ≠ name) : (m.insert name df).get x = m.get x := by
  unfold Ctx.get Ctx.insert
  rw [List.lookup_cons]
  have : (x == name) = false := by simpa using h
  rw [this]

/-! ## C19: `\newcommand`, `\renewcommand`, `\providecommand` -/

/-- An error leaves all macros unchanged, and the commands never panic. -/
theorem C19_errors (cf : Cfg) (k : Nat) (f : Family) (s : HSt) :
    (∀ e s', handleToken cf (k + 1) (.cs f.word) s = .err e s' → s'.macros = s.macros) ∧
    (∀ p, handleToken cf (k + 1) (.cs f.word) s ≠ .panic p) := by
  rw [family_run]
  have := newCommand_cases f s
  constructor
  · intro e s' h; rw [h] at this; exact this
  · intro p h; rw [h] at this; exact this

/-- `\newcommand` of an existing macro is an error. -/
theorem C19_new_existing (cf : Cfg) (k : Nat) (s : HSt) (name r : Str) (h : Names s.content.cs name r)
    (hm : s.macros.get name ≠ none) :
    ∃ s', handleToken cf (k + 1) (.cs c!"newcommand") s = .err .macroAlreadyDefined s' ∧ s'.macros = s.macros := by
  rw [show c!"newcommand" = Family.new.word from rfl, family_run]
  obtain ⟨g, u, h1, h2⟩ := names_iff.1 h
  unfold newCommand
  rw [M.run_bind]
  have e1 : H.braceArgument s = .ok (s.content.part g 1 r) { s with content := { s.content with cs := r } } := by
    unfold H.braceArgument; rw [h1]
  rw [e1]
  dsimp only
  rw [M.run_bind]
  have e2 : H.onStr controlSequence (s.content.part g 1 r).cs { s with content := { s.content with cs := r } } =
      .ok name { s with content := { s.content with cs := r } } := by
    unfold H.onStr
    rw [show (s.content.part g 1 r).cs = g from rfl, h2]
  rw [e2]
  dsimp only
  rw [M.get_bind]
  have e3 : s.macros.contains name = true := by
    unfold Ctx.contains
    cases hx : s.macros.get name with
    | none => exact absurd hx hm
    | some => rfl
  dsimp only
  rw [e3]
  exact ⟨_, rfl, rfl⟩

/-- `\renewcommand` of a missing macro is an error. -/
theorem C19_renew_missing (cf : Cfg) (k : Nat) (s : HSt) (name r : Str) (h : Names s.content.cs name r)
    (hm : s.macros.get name = none) :
    ∃ s', handleToken cf (k + 1) (.cs c!"renewcommand") s = .err .macroNotDefined s' ∧ s'.macros = s.macros := by
  rw [show c!"renewcommand" = Family.renew.word from rfl, family_run]
  obtain ⟨g, u, h1, h2⟩ := names_iff.1 h
  unfold newCommand
  rw [M.run_bind]
  have e1 : H.braceArgument s = .ok (s.content.part g 1 r) { s with content := { s.content with cs := r } } := by
    unfold H.braceArgument; rw [h1]
  rw [e1]
  dsimp only
  rw [M.run_bind]
  have e2 : H.onStr controlSequence (s.content.part g 1 r).cs { s with content := { s.content with cs := r } } =
      .ok name { s with content := { s.content with cs := r } } := by
    unfold H.onStr
    rw [show (s.content.part g 1 r).cs = g from rfl, h2]
  rw [e2]
  dsimp only
  rw [M.get_bind]
  have e3 : s.macros.contains name = false := by
    unfold Ctx.contains
    rw [hm]; rfl
  dsimp only
  rw [e3]
  exact ⟨_, rfl, rfl⟩

/-- What each command does when it succeeds, given whether the name is known, in terms of keeping the table or
inserting the definition. -/
def Family.outcome (f : Family) (known keeps inserts : Prop) : Prop :=
  match f with
  | .new => ¬ known ∧ inserts
  | .renew => known ∧ inserts
  | .provide => known ∧ keeps ∨ ¬ known ∧ inserts

/-- A definition that succeeds names a macro that was not there (`\newcommand`), was there (`\renewcommand`), or
either (`\providecommand`). It defines exactly the named macro and changes no other; `\providecommand` of an existing
macro changes nothing. The text read has the form `{\name}[n]{rt}` or `{\name}[n][d]{rt}`, or is the degenerate form
with an open bracket. -/
theorem C19_success (cf : Cfg) (k : Nat) (f : Family) (s s' : HSt) (h : handleToken cf (k + 1) (.cs f.word) s = .ok ⟨⟩ s') :
    ∃ name n d rt, (NewCommand s.content.cs name n d rt s'.content.cs ∨
        d = none ∧ OpenBracket s.content.cs name n rt s'.content.cs) ∧
      (∀ x, x ≠ name → s'.macros.get x = s.macros.get x) ∧
      f.outcome (s.macros.get name ≠ none) (s'.macros = s.macros) (insertCommand s.macros name n d rt = .ok s'.macros) := by
  rw [family_run] at h
  have := newCommand_cases f s
  rw [h] at this
  obtain ⟨name, n, d, rt, hT, hr, hi⟩ := this
  have hc : s.macros.contains name = true ↔ s.macros.get name ≠ none := by
    unfold Ctx.contains
    cases s.macros.get name <;> simp
  have hc' : s.macros.contains name = false ↔ s.macros.get name = none := by
    unfold Ctx.contains
    cases s.macros.get name <;> simp
  have hx : (∀ x, x ≠ name → s'.macros.get x = s.macros.get x) := by
    intro x hx
    split at hi
    · rw [hi]
    · obtain ⟨df, e⟩ := insertCommand_eq hi
      rw [e, get_other hx]
  refine ⟨name, n, d, rt, hT, hx, ?_⟩
  cases f with
  | new => exact ⟨fun hk => hk (hc'.1 hr), by simpa [Family.should] using hi⟩
  | renew => exact ⟨hc.1 (by simpa [Family.refuses] using hr), by simpa [Family.should] using hi⟩
  | provide =>
    cases hk : s.macros.contains name with
    | true => exact .inl ⟨hc.1 hk, by simpa [Family.should, hk] using hi⟩
    | false => exact .inr ⟨fun h => h (hc'.1 hk), by simpa [Family.should, hk] using hi⟩

/-- Conversely: given a text of the right form whose replacement text is valid, and a name the command does not refuse,
the command succeeds and consumes exactly that text. Nothing but the text and the macros changes, and of these only the named one. -/
theorem C19_accepts (cf : Cfg) (k : Nat) (f : Family) (s : HSt) (name rt r : Str) (n : Nat) (d : Option Str)
    (h : NewCommand s.content.cs name n d rt r) (hr : ReplText n rt) (hk : f.refuses (s.macros.contains name) = false) :
    ∃ m', handleToken cf (k + 1) (.cs f.word) s = .ok ⟨⟩ { s with content := { s.content with cs := r }, macros := m' } ∧
      f.outcome (s.macros.get name ≠ none) (m' = s.macros) (insertCommand s.macros name n d rt = .ok m') := by
  rw [family_run]
  obtain ⟨m', hm⟩ := (C16_command_accepts s.macros name rt n d).2 hr
  have brace : ∀ {t : HSt} {g r : Str}, Braced t.content.cs g r →
      H.braceArgument t = .ok (t.content.part g 1 r) { t with content := { t.content with cs := r } } := by
    intro t g r hb
    unfold H.braceArgument; rw [braceArgument_iff.2 hb]
  have opt : ∀ {t : HSt} {g r : Str}, Bracketed t.content.cs g r →
      H.optionalArgument t = .ok (some (t.content.part g 1 r)) { t with content := { t.content with cs := r } } := by
    intro t g r hb
    unfold H.optionalArgument; rw [bracketed_iff.2 hb]; rfl
  have noopt : ∀ {t : HSt}, NoBracket t.content.cs → H.optionalArgument t = .ok none t := by
    intro t hb
    unfold H.optionalArgument; rw [noBracket_opt hb]; rfl
  have start : ∀ {r1 : Str}, Names s.content.cs name r1 → ∃ g : Sl,
      H.braceArgument s = .ok g { s with content := { s.content with cs := r1 } } ∧ ∀ t, H.onStr controlSequence g.cs t = .ok name t := by
    intro r1 hN
    obtain ⟨g, u, h1, h2⟩ := names_iff.1 hN
    exact ⟨_, brace (braceArgument_iff.1 h1), fun t => by unfold H.onStr; rw [show (s.content.part g 1 r1).cs = g from rfl, h2]⟩
  have ref : ¬ ((f.should.isSome && f.should != some (s.macros.contains name)) = true) := by
    revert hk
    cases f <;> cases s.macros.contains name <;> simp [Family.should, Family.refuses]
  have fin : ∀ {t : HSt} {rts : Sl}, t = { s with content := { s.content with cs := r } } → rts.cs = rt →
      ∃ m', (if t.macros.contains name && f.should.isNone then pure ⟨⟩ else
        H.macros fun m => insertCommand m name n d rts.cs : H PUnit) t = .ok ⟨⟩ { s with content := { s.content with cs := r }, macros := m' } ∧
        f.outcome (s.macros.get name ≠ none) (m' = s.macros) (insertCommand s.macros name n d rt = .ok m') := by
    rintro _ rts rfl e2
    have hc : s.macros.contains name = true ↔ s.macros.get name ≠ none := by
      unfold Ctx.contains; cases s.macros.get name <;> simp
    split
    · rename_i hif
      simp only [Bool.and_eq_true] at hif
      refine ⟨s.macros, rfl, ?_⟩
      cases f with
      | new => exact absurd hif.2 (by decide)
      | renew => exact absurd hif.2 (by decide)
      | provide => exact .inl ⟨hc.1 hif.1, rfl⟩
    · rename_i hif
      refine ⟨m', ?_, ?_⟩
      · unfold H.macros
        dsimp only
        rw [e2, hm]
      · rw [Bool.and_eq_true] at hif
        cases f with
        | new => exact ⟨fun h => (by rw [hc.2 h] at hk; cases hk), hm⟩
        | renew =>
          refine ⟨hc.1 ?_, hm⟩
          simpa [Family.refuses] using hk
        | provide => exact .inr ⟨fun h => hif ⟨hc.2 h, rfl⟩, hm⟩
  cases h with
  | plain hN hb hn hno hrt =>
    rename_i r1 g r2
    obtain ⟨g0, e1, e2⟩ := start hN
    obtain ⟨p1, p2⟩ := paramNumber_iff.1 hn
    unfold newCommand
    rw [M.run_bind, e1]; dsimp only
    rw [M.run_bind, e2]; dsimp only
    rw [M.get_bind, if_neg ref, M.run_bind, opt hb]; dsimp only
    rw [show (Sl.part { s.content with cs := r1 } g 1 r2).cs = g from rfl, p1]; dsimp only
    rw [M.run_bind, noopt hno]; dsimp only
    rw [if_neg (by omega), M.run_bind, brace hrt]; dsimp only
    rw [M.get_bind]
    exact fin rfl rfl
  | default hN hb hn hd hrt =>
    rename_i r1 g r2 d r3
    obtain ⟨g0, e1, e2⟩ := start hN
    obtain ⟨p1, p2⟩ := paramNumber_iff.1 hn
    unfold newCommand
    rw [M.run_bind, e1]; dsimp only
    rw [M.run_bind, e2]; dsimp only
    rw [M.get_bind, if_neg ref, M.run_bind, opt hb]; dsimp only
    rw [show (Sl.part { s.content with cs := r1 } g 1 r2).cs = g from rfl, p1]; dsimp only
    rw [M.run_bind, opt hd]; dsimp only
    rw [if_neg (by omega), M.run_bind, brace hrt]; dsimp only
    rw [M.get_bind]
    exact fin rfl rfl

/-- The three commands on whole inputs; the macro is called afterwards. -/
example : ([c!"\\newcommand{\\a}[1]{#1x}\\newcommand{\\a}[0]{y}\\a z", c!"\\renewcommand{\\a}[0]{y}", c!"\\newcommand{\\a}[0]{x}\\renewcommand{\\a}[0]{y}\\a",
    c!"\\newcommand{\\a}[0]{x}\\providecommand{\\a}[0]{y}\\a", c!"\\providecommand{\\a}[1][u]{#1}\\a"].map fun i =>
    ((run cf0 60 (State.init i)).1.map fun x => match x with | .ok (.content (.ordinary c _)) => (some c, none) | .ok _ => (none, none) | .err e _ => (none, some e))) =
    [[(none, some .macroAlreadyDefined), (none, none), (none, none), (none, none), (none, none), (some 'y', none), (none, none), (some 'z', none), (some 'x', none)],
      [(none, some .macroNotDefined), (none, none), (none, none), (none, none), (none, none), (some 'y', none), (none, none)], [(some 'y', none)], [(some 'x', none)],
      [(none, none), (some 'u', none), (none, none)]] := by decide +kernel

/-! ## C20: `\let` and `\futurelet` -/

/-- The definition an alias for a token is given. -/
def aliasOf : Word → Definition
  | .chr c => .aliasChr c
  | .cs name => .aliasCs name

/-- The token read is the word. -/
def Tok.says : Tok → Word → Prop
  | .chr c _, .chr c' => c = c'
  | .cs n, .cs n' => n = n'
  | _, _ => False

theorem nextTok_iff {s r : Str} {x : Word} : NextTok s x r ↔ ∃ t, token s = .ok t r ∧ Tok.says t x := by
  constructor
  · intro h
    cases h with
    | chr h1 h2 h3 h4 => exact ⟨_, token_chr_eq h1 h2 h3 h4, rfl⟩
    | cs h1 h2 h3 h4 =>
      refine ⟨.cs _, ?_, rfl⟩
      rw [token_cs_eq h1 h2, trimStart_ws_append h3, trimStart_eq_self h4]
  · rintro ⟨t, h1, h2⟩
    cases t with
    | chr c ctx =>
      obtain ⟨e, h3, h4, h5, k, h6, h7⟩ := C13_char _ _ _ _ h1
      cases x with
      | chr c' => cases h2; rw [h7]; exact .chr h6 h3 h4 h5
      | cs => cases h2
    | cs name =>
      obtain ⟨k, t, w, h3, h4, h5, h6, h7⟩ := C13_cs _ _ _ h1
      cases x with
      | chr c' => cases h2
      | cs n => cases h2; rw [h4]; exact .cs h3 h5 h6 h7

theorem cs_start {s name r : Str} (h : controlSequence s = .ok name r) : ∃ g u, s = '\\' :: g ∧ CsName g name u ∧ r = trimStart u := by
  cases s with
  | nil => cases h
  | cons c g =>
    by_cases hc : c = '\\'
    · subst hc
      obtain ⟨u, h1, h2⟩ := (C14_name _ _ _).1 h
      exact ⟨g, u, rfl, h1, h2⟩
    · have : controlSequence (c :: g) = .err .controlSequence (c :: g) :=
        (C14_fail _ _ _).2 (.inr (.inr ⟨c, g, rfl, hc, rfl, rfl⟩))
      rw [this] at h
      cases h

theorem trimStart_twice (s : Str) : trimStart (trimStart s) = trimStart s :=
  trimStart_eq_self fun _ _ h => trimStart_head h

theorem token_trim (s : Str) : token (trimStart s) = token s := by
  obtain ⟨w, hw, e⟩ := trimStart_spec s
  have := token_blank (k := w) (by simpa using Blank_ws hw .nil) (trimStart s)
  rw [← e] at this
  exact this.symm

theorem let_iff {s name r : Str} {x : Word} : LetText s name x r ↔ ∃ t, letAssignment s = .ok (name, t) r ∧ Tok.says t x := by
  have run : ∀ {s name u : Str}, controlSequence s = .ok name (trimStart u) → letAssignment s =
      (match stripPrefix c!"=" (trimStart u) with
        | some v => (match token v with | .ok t r => .ok (name, t) r | .err e r => .err e r | .panic p => .panic p)
        | none => (match token (trimStart u) with | .ok t r => .ok (name, t) r | .err e r => .err e r | .panic p => .panic p)) := by
    intro s name u h
    unfold letAssignment
    rw [M.run_bind, h]
    dsimp only
    rw [M.get_bind, trimStart_twice]
    cases stripPrefix c!"=" (trimStart u) with
    | some v => dsimp only; rw [M.set_bind, M.run_bind]; cases token v <;> rfl
    | none => dsimp only; rw [M.run_bind]; cases token (trimStart u) <;> rfl
  have eqs : ∀ {w v : Str}, Spaces w → stripPrefix c!"=" (trimStart (w ++ '=' :: v)) = some v := by
    intro w v hw
    rw [trimStart_ws_append hw, trimStart_eq_self (by intro c r e; cases e; decide)]
    exact stripPrefix_some.2 rfl
  constructor
  · intro h
    cases h with
    | equals h1 h2 h3 =>
      rw [run ((C14_name _ _ _).2 ⟨_, h1, rfl⟩), eqs h2]
      obtain ⟨t, ht, hx⟩ := nextTok_iff.1 h3
      dsimp only
      rw [ht]
      exact ⟨t, rfl, hx⟩
    | @plain g _ u _ _ h1 h2 h3 =>
      rw [run ((C14_name _ _ _).2 ⟨_, h1, rfl⟩)]
      have : stripPrefix c!"=" (trimStart u) = none := by
        rw [stripPrefix_none]
        intro v hv
        obtain ⟨w, hw, e⟩ := trimStart_spec u
        rw [hv] at e
        exact h2 w v hw e
      rw [this]
      obtain ⟨t, ht, hx⟩ := nextTok_iff.1 h3
      dsimp only
      rw [token_trim, ht]
      exact ⟨t, rfl, hx⟩
  · rintro ⟨t, h, hx⟩
    have hc : ∃ n u, controlSequence s = .ok n u := by
      unfold letAssignment at h
      rw [M.run_bind] at h
      cases hc : controlSequence s with
      | ok n u => exact ⟨n, u, rfl⟩
      | err => rw [hc] at h; cases h
      | panic => rw [hc] at h; cases h
    obtain ⟨n, u', hc⟩ := hc
    obtain ⟨g, u, rfl, h1, rfl⟩ := cs_start hc
    rw [run hc] at h
    cases hs : stripPrefix c!"=" (trimStart u) with
    | some v =>
      rw [hs] at h
      dsimp only at h
      cases ht : token v with
      | ok t' r' =>
        rw [ht] at h
        cases h
        rw [stripPrefix_some] at hs
        obtain ⟨w, hw, e⟩ := trimStart_spec u
        rw [hs] at e
        exact .equals (w := w) (u := v) (by rw [e] at h1; exact h1) hw (nextTok_iff.2 ⟨t, ht, hx⟩)
      | err => rw [ht] at h; cases h
      | panic => rw [ht] at h; cases h
    | none =>
      rw [hs] at h
      dsimp only at h
      rw [token_trim] at h
      cases ht : token u with
      | ok t' r' =>
        rw [ht] at h
        cases h
        refine .plain h1 ?_ (nextTok_iff.2 ⟨t, ht, hx⟩)
        rintro w v hw rfl
        rw [eqs hw] at hs
        cases hs
      | err => rw [ht] at h; cases h
      | panic => rw [ht] at h; cases h

theorem futurelet_iff {s name u : Str} {x : Word} :
    FutureText s name x u ↔ ∃ t r, futureletAssignment s = .ok (name, t, u) r ∧ Tok.says t x := by
  constructor
  · intro h
    cases h with
    | mk h1 h2 h3 h4 h5 =>
      obtain ⟨t1, a1, -⟩ := nextTok_iff.1 h4
      obtain ⟨t2, a2, b2⟩ := nextTok_iff.1 h5
      have hc := (C14_name _ _ _).2 ⟨_, h1, rfl⟩
      rw [trimStart_ws_append h2, trimStart_eq_self h3] at hc
      rename_i r2
      refine ⟨t2, r2, ?_, b2⟩
      unfold futureletAssignment
      rw [M.run_bind, hc]; dsimp only
      rw [M.get_bind, M.run_bind, a1]; dsimp only
      rw [M.run_bind, a2]; rfl
  · rintro ⟨t, r, h, hx⟩
    unfold futureletAssignment at h
    rw [M.run_bind] at h
    cases hc : controlSequence s with
    | err => rw [hc] at h; cases h
    | panic => rw [hc] at h; cases h
    | ok n u' =>
      rw [hc] at h
      dsimp only at h
      rw [M.get_bind, M.run_bind] at h
      obtain ⟨g, v, rfl, h1, rfl⟩ := cs_start hc
      cases ht : token (trimStart v) with
      | err => rw [ht] at h; cases h
      | panic => rw [ht] at h; cases h
      | ok t1 r1 =>
        rw [ht] at h
        dsimp only at h
        rw [M.run_bind] at h
        cases ht2 : token r1 with
        | err => rw [ht2] at h; cases h
        | panic => rw [ht2] at h; cases h
        | ok t2 r2 =>
          rw [ht2] at h
          cases h
          obtain ⟨w, hw, e⟩ := trimStart_spec v
          obtain ⟨x1, hx1⟩ : ∃ x, Tok.says t1 x := by
            cases t1 with
            | chr c _ => exact ⟨.chr c, rfl⟩
            | cs n => exact ⟨.cs n, rfl⟩
          refine .mk (w := w) (by rw [← e]; exact h1) hw (fun _ _ h => trimStart_head h)
            (nextTok_iff.2 ⟨t1, ht, hx1⟩) (nextTok_iff.2 ⟨_, ht2, hx⟩)

theorem primOf_let : primOf c!"let" = .let_ ∧ primOf c!"futurelet" = .futurelet := by decide +kernel

theorem assign_says {m : Ctx} {name : Str} {t : Tok} {x : Word} (h : Tok.says t x) : m.assign name t = m.insert name (aliasOf x) := by
  cases t <;> cases x <;> cases h <;> rfl

/-- `\let` succeeds exactly on the texts described by `LetText`: it consumes that text, makes the named control sequence
an alias of the token, and does nothing else (scripts are not looked for after it). -/
theorem C20_let (cf : Cfg) (k : Nat) (s s' : HSt) :
    handleToken cf (k + 1) (.cs c!"let") s = .ok ⟨⟩ s' ↔ ∃ name x r, LetText s.content.cs name x r ∧
      s' = { s with content := { s.content with cs := r }, skip := true, macros := s.macros.insert name (aliasOf x) } := by
  have e : handleToken cf (k + 1) (.cs c!"let") s = (do
      let (name, t) ← H.lex letAssignment
      H.setSkip
      H.macros fun m => .ok (m.assign name t) : H PUnit) s := by
    show execPrim cf (handleToken cf k) (primOf c!"let") s = _
    rw [primOf_let.1]
    rfl
  rw [e, M.run_bind]
  unfold H.lex
  constructor
  · intro h
    cases hl : letAssignment s.content.cs with
    | ok p r =>
      obtain ⟨name, t⟩ := p
      rw [hl] at h
      obtain ⟨x, hx⟩ : ∃ x, Tok.says t x := by
        cases t with
        | chr c _ => exact ⟨.chr c, rfl⟩
        | cs n => exact ⟨.cs n, rfl⟩
      refine ⟨name, x, r, let_iff.2 ⟨t, hl, hx⟩, ?_⟩
      cases h
      rw [← assign_says hx]
    | err => rw [hl] at h; cases h
    | panic => rw [hl] at h; cases h
  · rintro ⟨name, x, r, h, rfl⟩
    obtain ⟨t, hl, hx⟩ := let_iff.1 h
    rw [hl, ← assign_says hx]
    rfl

/-- `\futurelet` succeeds exactly on the texts described by `FutureText`: the named control sequence becomes an alias of
the second of the two tokens, and neither of them is consumed. -/
theorem C20_futurelet (cf : Cfg) (k : Nat) (s s' : HSt) :
    handleToken cf (k + 1) (.cs c!"futurelet") s = .ok ⟨⟩ s' ↔ ∃ name x u, FutureText s.content.cs name x u ∧
      s' = { s with content := { s.content with cs := u }, skip := true, macros := s.macros.insert name (aliasOf x) } := by
  have e : handleToken cf (k + 1) (.cs c!"futurelet") s = (do
      let (name, t, rest) ← H.lex futureletAssignment
      H.setSkip
      H.macros fun m => .ok (m.assign name t)
      M.modify fun s => { s with content := { s.content with cs := rest } } : H PUnit) s := by
    show execPrim cf (handleToken cf k) (primOf c!"futurelet") s = _
    rw [primOf_let.2]
    rfl
  rw [e, M.run_bind]
  unfold H.lex
  constructor
  · intro h
    cases hl : futureletAssignment s.content.cs with
    | ok p r =>
      obtain ⟨name, t, u⟩ := p
      rw [hl] at h
      obtain ⟨x, hx⟩ : ∃ x, Tok.says t x := by
        cases t with
        | chr c _ => exact ⟨.chr c, rfl⟩
        | cs n => exact ⟨.cs n, rfl⟩
      refine ⟨name, x, u, futurelet_iff.2 ⟨t, r, hl, hx⟩, ?_⟩
      cases h
      rw [← assign_says hx]
    | err => rw [hl] at h; cases h
    | panic => rw [hl] at h; cases h
  · rintro ⟨name, x, u, h, rfl⟩
    obtain ⟨t, r, hl, hx⟩ := futurelet_iff.1 h
    rw [hl, ← assign_says hx]
    rfl

theorem cs_sat (s : Str) : Sat (fun _ _ => True) (fun _ _ => True) (fun _ => False) (controlSequence s) := by
  cases h : controlSequence s with
  | ok => trivial
  | err => trivial
  | panic p => exact C14_no_panic _ _ h

theorem tok_sat (s : Str) : Sat (fun _ _ => True) (fun _ _ => True) (fun _ => False) (token s) := by
  cases h : token s with
  | ok => trivial
  | err => trivial
  | panic p => exact C13_no_panic _ _ h

theorem let_sat (s : Str) : Sat (fun _ _ => True) (fun _ _ => True) (fun _ => False) (letAssignment s) := by
  unfold letAssignment
  refine Sat.bind (cs_sat s) fun n r _ => ?_
  rw [M.get_bind]
  cases stripPrefix c!"=" (trimStart r) with
  | some v =>
    dsimp only
    rw [M.set_bind]
    exact Sat.bind (tok_sat _) fun _ _ _ => trivial
  | none => exact Sat.bind (tok_sat _) fun _ _ _ => trivial

theorem futurelet_sat (s : Str) : Sat (fun _ _ => True) (fun _ _ => True) (fun _ => False) (futureletAssignment s) := by
  unfold futureletAssignment
  refine Sat.bind (cs_sat s) fun n r _ => ?_
  rw [M.get_bind]
  refine Sat.bind (tok_sat _) fun _ _ _ => ?_
  exact Sat.bind (tok_sat _) fun _ _ _ => trivial

/-- Failing, either command leaves all macros unchanged; neither panics. -/
theorem C20_errors (cf : Cfg) (k : Nat) (w : Str) (hw : w = c!"let" ∨ w = c!"futurelet") (s : HSt) :
    (∀ e s', handleToken cf (k + 1) (.cs w) s = .err e s' → s'.macros = s.macros) ∧
    (∀ p, handleToken cf (k + 1) (.cs w) s ≠ .panic p) := by
  suffices h : Sat (fun _ _ => True) (fun _ (s' : HSt) => s'.macros = s.macros) (fun _ => False) (handleToken cf (k + 1) (.cs w) s) by
    constructor
    · intro e s' h2; rw [h2] at h; exact h
    · intro p h2; rw [h2] at h; exact h
  show Sat _ _ _ (execPrim cf (handleToken cf k) (primOf w) s)
  rcases hw with rfl | rfl
  · rw [primOf_let.1]
    have := let_sat s.content.cs
    show Sat _ _ _ ((H.lex letAssignment >>= _) s)
    rw [M.run_bind]
    unfold H.lex
    cases hl : letAssignment s.content.cs with
    | ok p r => trivial
    | err => rfl
    | panic p => rw [hl] at this; exact this
  · rw [primOf_let.2]
    have := futurelet_sat s.content.cs
    show Sat _ _ _ ((H.lex futureletAssignment >>= _) s)
    rw [M.run_bind]
    unfold H.lex
    cases hl : futureletAssignment s.content.cs with
    | ok p r => trivial
    | err => rfl
    | panic p => rw [hl] at this; exact this

/-- The other macros keep their meaning, and the assigned name gets its meaning. -/
theorem C20_frame (m : Ctx) (name x : Str) (w : Word) :
    (m.insert name (aliasOf w)).get name = some (aliasOf w) ∧ (x ≠ name → (m.insert name (aliasOf w)).get x = m.get x) :=
  ⟨get_insert, get_other⟩

/-- Cases of the texts. -/
example : LetText c!"\\x = y z" c!"x" (.chr 'y') c!" z" :=
  .equals (g := c!"x = y z") (w := c!" ") (u := c!" y z") (CsName.word (name := c!"x") (r := c!" = y z") (by decide) (by decide)
      (by intro c r h; cases h; decide)) (by unfold Spaces; decide)
    (.chr (k := c!" ") (.ws (by decide) .nil) (by decide) (by decide) (by decide))
example : ([c!"\\let\\x=y\\x", c!"\\let\\x\\alpha\\x", c!"\\futurelet\\x a b\\x"].map fun i => (run cf0 60 (State.init i)).1) =
    [[.ok (.content (.ordinary 'y' false))], [.ok (.content (.ordinary 'α' false))],
      [.ok (.content (.ordinary 'a' false)), .ok (.content (.ordinary 'b' false)), .ok (.content (.ordinary 'b' false))]] := by decide +kernel

end PL.Props
