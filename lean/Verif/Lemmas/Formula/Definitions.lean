import Verif.Lemmas.Formula.Elements
import Verif.Props.Def
set_option autoImplicit false
/-! # The macros that are known, and how definitions change them -/
namespace PL.Formula
open PL PL.Lex PL.H Spec PL.Props PL.Macros

variable {cf : Cfg} {D D' : Macros.Ctx} {Δ Δ' : Known}

/-- A definition as it is kept. -/
inductive Keeps : Spec.MacroDef → Definition → Prop
  | plain {pre ds b rt repl} : parseReplacement rt ds.length = .ok repl → Keeps (.plain pre ds b rt) (.macro_ ⟨opt pre, ds.map opt, b, repl⟩)
  | command {n dflt rt repl} : parseReplacement rt n = .ok repl → Keeps (.command n dflt rt) (.command ⟨n, dflt, repl⟩)
  | alias {x} : Keeps (.alias x) (aliasOf x)

/-- The parser stores the macros. -/
def Stores (cf : Cfg) (D : Macros.Ctx) (Δ : Known) : Prop :=
  ∀ name, (Δ name = none ↔ D.get name = none) ∧
    (∀ d s body r, Δ name = some d → Replaces d s body r → ∃ k, tryExpand cf D name s = some (.ok (body ++ r) k)) ∧
    ∀ d, Δ name = some d → ∃ df, D.get name = some df ∧ Keeps d df

theorem stores_none : Stores cf [] Known.none := fun _ => ⟨⟨fun _ => rfl, fun _ => rfl⟩, (fun _ _ _ _ h => by cases h), fun _ h => by cases h⟩

theorem Stores.unbound {x : Word} (h : Stores cf D Δ) (hx : Δ.Free x) : Unbound D x := fun name e => (h name).1.1 (hx name e)

theorem Stores.free {name : Str} (h : Stores cf D Δ) (hx : Δ name = none) : Unbound D (.cs name) := fun _ e => by cases e; exact (h name).1.1 hx

theorem Stores.set {name : Str} {d : Spec.MacroDef} {df : Definition} (h : Stores cf D Δ) (hk : Keeps d df) (hd : ∀ s body r, Replaces d s body r →
    ∃ k, tryExpand cf (D.insert name df) name s = some (.ok (body ++ r) k)) : Stores cf (D.insert name df) (Δ.set name d) := by
  intro x
  unfold Known.set
  by_cases hx : x = name
  · subst hx
    rw [if_pos rfl, get_insert]
    refine ⟨⟨(by intro h; cases h), (by intro h; cases h)⟩, ?_, ?_⟩
    · rintro _ s body r ⟨⟩ hr
      exact hd s body r hr
    · rintro _ ⟨⟩
      exact ⟨df, rfl, hk⟩
  · rw [if_neg hx, get_other hx]
    refine ⟨(h x).1, fun d s body r h1 h2 => ?_, (h x).2.2⟩
    obtain ⟨k, hk⟩ := (h x).2.1 d s body r h1 h2
    refine ⟨k, ?_⟩
    unfold tryExpand at hk ⊢
    rw [get_other hx]
    exact hk

theorem blen_rest {a b : Str} : ∃ k, k + blen b = blen (a ++ b) := ⟨blen a, by rw [blen_append]⟩

theorem stores_def {name pt rt pre : Str} {ds : List Str} {b : Bool} (h : Stores cf D Δ) (hd : DefText pt pre ds b) (hm : define D name pt rt = .ok D') :
    Stores cf D' (Δ.set name (.plain pre ds b rt)) := by
  have h17 := C17_def cf D D' name pt rt pre ds b hd hm
  rw [define_of hd] at hm
  split at hm
  · cases hm
  rename_i repl hrepl
  cases hm
  refine h.set (.plain hrepl) fun s body r hr => ?_
  cases hr with
  | @plain _ _ _ _ s args _ _ h1 h2 =>
    obtain ⟨a, rfl⟩ := ReadArgs_suffix h1
    obtain ⟨k, hk⟩ := blen_rest (a := pre ++ a) (b := r)
    exact ⟨k, (h17 _ _ _).2 ⟨_, _, _, _, rfl, h1, h2, rfl, by rw [hk, List.append_assoc]⟩⟩

theorem stores_command {name rt : Str} {n : Nat} {dflt : Option Str} (h : Stores cf D Δ) (hm : insertCommand D name n dflt rt = .ok D') :
    Stores cf D' (Δ.set name (.command n dflt rt)) := by
  have hm' := hm
  unfold insertCommand at hm'
  split at hm'
  · cases hm'
  rename_i repl hrepl
  cases hm'
  refine h.set (.command hrepl) fun s body r hr => ?_
  cases hr with
  | @command _ _ _ args _ _ h1 h2 =>
    obtain ⟨a, rfl⟩ := ReadArgs_suffix h1
    obtain ⟨k, hk⟩ := blen_rest (a := a) (b := r)
    exact ⟨k, (C17_command cf _ _ _ _ _ hm _ _ _).2 ⟨_, _, _, h1, h2, rfl, hk⟩⟩
  | @default _ _ _ _ g u args _ _ h1 h2 h3 h4 =>
    obtain ⟨a, rfl⟩ := ReadArgs_suffix h3
    obtain ⟨b, hb⟩ : ∃ b, s = b ++ (a ++ r) := by
      cases h2 with
      | @given w v _ _ h5 h6 =>
        have e := h6.eq
        exact ⟨w ++ '[' :: (g ++ [']']), by rw [e]; simp⟩
      | absent => exact ⟨[], rfl⟩
    obtain ⟨k, hk⟩ := blen_rest (a := b ++ a) (b := r)
    exact ⟨k, (C17_command_default cf _ _ _ _ _ _ hm _ _ _ h1).2 ⟨_, _, _, _, _, h2, h3, h4, rfl, by rw [hk, hb, List.append_assoc]⟩⟩

theorem stores_alias {name : Str} {x : Word} (h : Stores cf D Δ) : Stores cf (D.insert name (aliasOf x)) (Δ.set name (.alias x)) := by
  refine h.set .alias fun s body r hr => ?_
  cases hr
  refine ⟨0, ?_⟩
  cases x <;> simp [tryExpand, get_insert, expandDefinition, aliasOf, Word.text]

/-! ### Definitions -/

/-- A definition is carried out. -/
theorem exec_define {c : Sl} {A : Option AlignCount} {B : List Instr} {sp : Spans} {s t r : Str} {name : Str}
    (hc : trimStart c.cs = trimStart s) (hx : NextTok s (.cs name) t) (hf : D.get name = none)
    (ha : ∃ h', atom cf (.cs name) (start D c A t) = .ok none h' ∧ h'.macros = D' ∧ h'.align = A ∧ h'.buf = [] ∧ trimStart h'.content.cs = trimStart r) :
    ∃ c' : Sl, trimStart c'.cs = trimStart r ∧ Exec cf ⟨.sub c A :: B, [], D, sp⟩ [] ⟨.sub c' A :: B, [], D', sp⟩ := by
  obtain ⟨tk, ht, hsay⟩ := nextTok_iff.1 hx
  have ht' : token c.cs = .ok tk t := by rw [token_eq hc]; exact ht
  have hne : trimStart c.cs ≠ [] := by
    intro h0
    rw [← token_trim, h0] at ht'
    cases ht'
  cases tk with
  | chr => cases hsay
  | cs name' =>
    obtain rfl : name' = name := hsay
    obtain ⟨h', hat, hm, hA, hb, hr⟩ := ha
    refine ⟨h'.content, hr, Exec.init.again ?_⟩
    rw [step_sub_ne hne]
    have : parse cf (startSt ⟨.sub c A :: B, [], D, sp⟩ c A) = .ok none ⟨h', sp⟩ := by
      unfold parse
      rw [parseLoop]
      unfold startSt
      simp only [ht']
      unfold start at hat
      have hn : Macros.tryExpand cf D name' t = none := by
        unfold Macros.tryExpand
        rw [hf]
        rfl
      simp only [hn, liftH, HTok.ofTok, hat]
    rw [this]
    dsimp only
    rw [hb, hm, hA]
    rfl

theorem define_of_family {s t name rt r : Str} {n : Nat} {d : Option Str} (f : Family) {c : Sl} {A : Option AlignCount} {B : List Instr} {sp : Spans}
    (hc : trimStart c.cs = trimStart s) (hx : NextTok s (.cs f.word) t) (hf : D.get f.word = none) (hn : NewCommand t name n d rt r) (hr : ReplText n rt)
    (hno : Spec.NoScript r) (hk : f.refuses (D.contains name) = false) :
    ∃ D', f.outcome (D.get name ≠ none) (D' = D) (insertCommand D name n d rt = .ok D') ∧
      ∃ c' : Sl, trimStart c'.cs = trimStart r ∧ Exec cf ⟨.sub c A :: B, [], D, sp⟩ [] ⟨.sub c' A :: B, [], D', sp⟩ := by
  obtain ⟨m', e, ho⟩ := C19_accepts cf (t.length + 2) f (start D c A t) name rt r n d hn hr hk
  refine ⟨m', ho, exec_define hc hx hf ?_⟩
  exact ⟨_, atom_of e (scripts_no (vs := []) (r := r) rfl .no hno), rfl, rfl, rfl, trimStart_idem _⟩

theorem sound_define (hS : Stores cf D Δ) {s r : Str} (h : Defining Δ s Δ' r) {c : Sl} (A : Option AlignCount) (B : List Instr) (sp : Spans)
    (hc : trimStart c.cs = trimStart s) :
    ∃ D' c', Stores cf D' Δ' ∧ trimStart c'.cs = trimStart r ∧ Exec cf ⟨.sub c A :: B, [], D, sp⟩ [] ⟨.sub c' A :: B, [], D', sp⟩ := by
  have hcon : ∀ name, D.contains name = true ↔ D.get name ≠ none := by
    intro name; unfold Ctx.contains; cases D.get name <;> simp
  have hcon' : ∀ name, D.contains name = false ↔ D.get name = none := by
    intro name; unfold Ctx.contains; cases D.get name <;> simp
  cases h with
  | @def_ t name pt rt _ pre ds b hx hf h1 h2 h3 =>
    obtain ⟨m', hm⟩ := (C48_effect D name pt rt).1.2 ⟨_, _, _, h2, h3⟩
    have e := (C48_def cf (t.length + 2) (start D c A t) _).2 ⟨name, pt, rt, r, m', h1, hm, rfl⟩
    obtain ⟨c', h4, h5⟩ := exec_define (B := B) (sp := sp) (r := r) hc hx ((hS _).1.1 hf) ⟨_, atom_of e (scripts_skip rfl), rfl, rfl, rfl, rfl⟩
    exact ⟨m', c', stores_def hS h2 hm, h4, h5⟩
  | @let_ t name x _ hx hf h1 =>
    have e := (C20_let cf (t.length + 2) (start D c A t) _).2 ⟨name, x, r, h1, rfl⟩
    obtain ⟨c', h4, h5⟩ := exec_define (B := B) (sp := sp) (r := r) hc hx ((hS _).1.1 hf) ⟨_, atom_of e (scripts_skip rfl), rfl, rfl, rfl, rfl⟩
    exact ⟨_, c', stores_alias hS, h4, h5⟩
  | @futurelet t name x _ hx hf h1 =>
    have e := (C20_futurelet cf (t.length + 2) (start D c A t) _).2 ⟨name, x, r, h1, rfl⟩
    obtain ⟨c', h4, h5⟩ := exec_define (B := B) (sp := sp) (r := r) hc hx ((hS _).1.1 hf) ⟨_, atom_of e (scripts_skip rfl), rfl, rfl, rfl, rfl⟩
    exact ⟨_, c', stores_alias hS, h4, h5⟩
  | @new t name n d rt _ hx hf h1 h2 h3 hk =>
    obtain ⟨m', ho, c', h4, h5⟩ := define_of_family .new (A := A) (B := B) (sp := sp) hc hx ((hS _).1.1 hf) h1 h2 h3 ((hcon' _).2 ((hS _).1.1 hk))
    exact ⟨m', c', stores_command hS ho.2, h4, h5⟩
  | @renew t name n d rt _ hx hf h1 h2 h3 hk =>
    have hk' : D.get name ≠ none := fun h => hk ((hS _).1.2 h)
    obtain ⟨m', ho, c', h4, h5⟩ := define_of_family .renew (A := A) (B := B) (sp := sp) hc hx ((hS _).1.1 hf) h1 h2 h3
      (by show (!D.contains name) = false; rw [(hcon _).2 hk']; rfl)
    exact ⟨m', c', stores_command hS ho.2, h4, h5⟩
  | @provide t name n d rt _ hx hf h1 h2 h3 hk =>
    obtain ⟨m', ho, c', h4, h5⟩ := define_of_family .provide (A := A) (B := B) (sp := sp) hc hx ((hS _).1.1 hf) h1 h2 h3 rfl
    rcases ho with ⟨hkn, -⟩ | ⟨-, ho⟩
    · exact absurd ((hS _).1.1 hk) hkn
    · exact ⟨m', c', stores_command hS ho, h4, h5⟩
  | @provided t name n d rt _ hx hf h1 h2 h3 hk =>
    obtain ⟨m', ho, c', h4, h5⟩ := define_of_family .provide (A := A) (B := B) (sp := sp) hc hx ((hS _).1.1 hf) h1 h2 h3 rfl
    rcases ho with ⟨-, rfl⟩ | ⟨hkn, -⟩
    · exact ⟨_, c', hS, h4, h5⟩
    · exact absurd (fun h => hk ((hS _).1.2 h)) hkn

end PL.Formula
