import Verif.Lemmas.Erase
set_option autoImplicit false
/-!
# Executions on texts without definitions depend on the texts only
-/
namespace PL
open Lex Spec

variable {cf : Cfg}

/-- One round of `parse` when no macro is defined. -/
def parseH (cf : Cfg) (h : HSt) : Res HSt (Option Desc) :=
  match token h.content.cs with
  | .panic p => .panic p
  | .err e rest => if e = .token then .ok none { h with content := { h.content with cs := rest } }
    else .err e { h with content := { h.content with cs := rest } }
  | .ok t rest => atom cf (.ofTok h.content t) { h with content := { h.content with cs := rest } }

theorem parse_eq {s : PSt} (hm : s.h.macros = []) : parse cf s = match parseH cf s.h with
    | .ok d h => .ok d ⟨h, s.sp⟩
    | .err e h => .err e ⟨h, s.sp⟩
    | .panic p => .panic p := by
  unfold parse parseH
  rw [parseLoop]
  dsimp only
  cases token s.h.content.cs with
  | panic p => rfl
  | err e rest => dsimp only; split <;> rfl
  | ok t rest =>
    cases t with
    | chr c r =>
      dsimp only [liftH]
      cases atom cf (.ofTok s.h.content (.chr c r)) { s.h with content := { s.h.content with cs := rest } } <;> rfl
    | cs name =>
      have hx : Macros.tryExpand cf s.h.macros name rest = none := by rw [hm]; rfl
      dsimp only [liftH]
      rw [hx]
      dsimp only
      cases atom cf (.ofTok s.h.content (.cs name)) { s.h with content := { s.h.content with cs := rest } } <;> rfl

theorem hom_parseH : Hom id (parseH cf) (parseH cf) := by
  intro s
  unfold parseH
  show (match token s.content.cs with | .panic p => _ | .err e rest => _ | .ok t rest => _) = _
  cases token s.content.cs with
  | panic p => rfl
  | err e rest => dsimp only; split <;> rfl
  | ok t rest =>
    dsimp only
    have := hom_atom (cf := cf) (.ofTok s.content t) { s with content := { s.content with cs := rest } }
    rw [HTok.er_ofTok] at this
    exact this

/-! ### Moving instructions -/

theorem fillSlots_map (f : Instr → Instr) : ∀ (es : List Instr) (idx : Nat) (slots : List (Option Instr)),
    fillSlots (es.map f) idx (slots.map (Option.map f)) = (fillSlots es idx slots).map (List.map (Option.map f))
  | [], idx, slots => rfl
  | e :: es, idx, slots => by
    simp only [List.map_cons, fillSlots, List.length_map]
    generalize (if idx = slots.length then 0 else idx) = j
    split
    · rw [← fillSlots_map f es]
      congr 1
      rw [List.map_set]
      rfl
    · rfl

theorem mapM_id_map (f : Instr → Instr) (l : List (Option Instr)) :
    (l.map (Option.map f)).mapM id = (l.mapM (id : Option Instr → Option Instr)).map (List.map f) := by
  induction l with
  | nil => rfl
  | cons a l ih =>
    rw [List.map_cons, List.mapM_cons, List.mapM_cons, ih]
    cases a with
    | none => rfl
    | some a =>
      cases h : l.mapM (id : Option Instr → Option Instr) <;> rfl

theorem unstage_map (buf stack : List Instr) (d : Option Desc) :
    unstage (buf.map Instr.er) (stack.map Instr.er) d = (unstage buf stack d).map (List.map Instr.er) := by
  cases d with
  | none => simp [unstage, Except.map]
  | some d =>
    unfold unstage
    simp only [List.length_map, ← List.map_drop, ← List.map_take, ← List.map_reverse]
    split
    · split
      · rfl
      · have : List.replicate (buf.drop d.sup).reverse.length (none : Option Instr) =
            (List.replicate (buf.drop d.sup).reverse.length none).map (Option.map Instr.er) := by simp
        rw [this, fillSlots_map, ← this]
        cases fillSlots (buf.drop d.sup).reverse (d.sub - d.sup) (List.replicate (buf.drop d.sup).reverse.length none) with
        | none => rfl
        | some slots =>
          simp only [Option.map_some]
          rw [mapM_id_map]
          cases slots.mapM (id : Option Instr → Option Instr) with
          | none => rfl
          | some added => simp [Except.map, Instr.er]
    · split
      · rfl
      · simp [Except.map, Instr.er]

/-! ### Rounds -/

/-- The same up to the place of texts. -/
structure Alike (s t : State) : Prop where
  stack : s.stack.map Instr.er = t.stack.map Instr.er
  buf : s.buf.map Instr.er = t.buf.map Instr.er

inductive StepSim : Step → Step → Prop
  | done : StepSim .done .done
  | panic {p} : StepSim (.panic p) (.panic p)
  | again {s t} : Alike s t → StepSim (.again s) (.again t)
  | item {i j s t} : i.bare = j.bare → Alike s t → StepSim (.item i s) (.item j t)

/-- Without definitions a round panics only in the lexer. -/
theorem Base.panic {inp : Str} {s : State} (hb : Base inp s) (hn : ¬ Defines inp) {p : Panic} (hp : step cf s = .panic p) : p ≠ .assertion := by
  have hcase : ∃ c A rest, s.stack = .sub c A :: rest ∧ trimStart c.cs ≠ [] := by
    unfold step at hp
    cases hs : s.stack with
    | nil => rw [hs] at hp; cases hp
    | cons x rest =>
      rw [hs] at hp
      cases x with
      | ev e => cases hp
      | sub c A =>
        simp only at hp
        split at hp
        · cases hp
        · rename_i hne
          exact ⟨c, A, rest, rfl, by simpa using hne⟩
  obtain ⟨c, A, rest, hs, hne⟩ := hcase
  obtain ⟨p1, hx, -, hr⟩ := step_sub (cf := cf) (st := false) hs (hb.wf c A (by simp [hs])) hne (by intro h; cases h) hb.calls
  rw [hp] at hr
  have T := hb.onText hs hx
  cases hr with
  | lex hl => rcases hl with ⟨rfl, hl⟩ | ⟨rfl, hl⟩ <;> simp
  | expansion hl =>
    obtain ⟨d, hd, he⟩ := tryExpand_mem hl
    rw [(hb.nodef hn).1] at hd
    cases hd
  | assertion hsub hi hes hre =>
    have hre := reach_none hre
    rw [hi, hes, T.input] at hre
    obtain ⟨rfl, hc⟩ := T.nodef hn
    have he : (startSt s c A).sp.exps = [] := (hb.nodef hn).2.1
    rw [he] at hre
    obtain ⟨k, es', h1, -⟩ := reach_keep (cf := cf) hsub (es := []) (.inl hc) .nil (by simp)
    rw [h1] at hre
    cases hre


theorem instr_map_cons {l : List Instr} {x : Instr} {r : List Instr} (h : l.map Instr.er = x :: r) : ∃ y l', l = y :: l' ∧ y.er = x ∧ l'.map Instr.er = r := by
  cases l with
  | nil => cases h
  | cons y l' => simp at h; exact ⟨y, l', rfl, h.1, h.2⟩

theorem step_error {inp : Str} {s : State} {c : Sl} {A : Option AlignCount} {rest : List Instr} (hb : Base inp s) (hn : ¬ Defines inp)
    (hs : s.stack = .sub c A :: rest) (hne : trimStart c.cs ≠ []) {e : ErrorKind} {h : HSt} (hp : parseH cf (startSt s c A).h = .err e h) :
    ∃ ctx sp, step cf s = .item (.err e ctx) ⟨.sub h.content h.align :: rest, h.buf, h.macros, sp⟩ := by
  have hm : (startSt s c A).h.macros = [] := (hb.nodef hn).1
  have hst : step cf s = match errorContext cf s.sp (h.content.ptr cf) with
      | .error p => .panic p
      | .ok (ctx, sp) => .item (.err e ctx) ⟨.sub h.content h.align :: rest, h.buf, h.macros, sp⟩ := by
    unfold step
    rw [hs]
    simp only
    rw [if_neg (by simpa using hne), parse_eq hm, hp]
    rfl
  cases hr : s.sp.reach cf (h.content.ptr cf) with
  | none =>
    rw [errorContext_none hr] at hst
    exact absurd rfl (hb.panic hn hst)
  | some y =>
    obtain ⟨k, sp'⟩ := y
    obtain ⟨t, ht⟩ := errorContext_ok hb.calls hr
    rw [ht] at hst
    exact ⟨t, sp', hst⟩

theorem step_sim {i j : Str} {s t : State} (hs : Base i s) (ht : Base j t) (hi : ¬ Defines i) (hj : ¬ Defines j) (h : Alike s t) :
    StepSim (step cf s) (step cf t) := by
  cases hss : s.stack with
  | nil =>
    have : t.stack = [] := by have := h.stack; rw [hss] at this; simpa using this.symm
    unfold step
    rw [hss, this]
    exact .done
  | cons x rest =>
    obtain ⟨y, rest', hts, hy, hr'⟩ := instr_map_cons (show t.stack.map Instr.er = x.er :: rest.map Instr.er by rw [← h.stack, hss]; rfl)
    cases x with
    | ev e =>
      cases y with
      | sub c A => cases hy
      | ev e' =>
        cases hy
        unfold step
        rw [hss, hts]
        exact .item rfl ⟨hr'.symm, h.buf⟩
    | sub c A =>
      cases y with
      | ev e => cases hy
      | sub c' A' =>
        have hA : A' = A := by injection hy
        subst hA
        have hc : c'.er = c.er := by injection hy
        have hcs : c'.cs = c.cs := show c'.er.cs = c.er.cs from congrArg Sl.cs hc
        by_cases hne : trimStart c.cs = []
        · unfold step
          rw [hss, hts]
          simp only [hcs, hne]
          exact .again ⟨hr'.symm, h.buf⟩
        · have hne' : trimStart c'.cs ≠ [] := by rw [hcs]; exact hne
          have hms : s.macros = [] := (hs.nodef hi).1
          have hmt : t.macros = [] := (ht.nodef hj).1
          have hst : (startSt s c A').h.er = (startSt t c' A').h.er := by
            simp [startSt, HSt.er, hc, h.buf, hms, hmt]
          have e1 := hom_parseH (cf := cf) (startSt s c A').h
          have e2 := hom_parseH (cf := cf) (startSt t c' A').h
          rw [hst, e2] at e1
          cases hp : parseH cf (startSt s c A').h with
          | panic p =>
            rw [hp] at e1
            cases hq : parseH cf (startSt t c' A').h with
            | panic q =>
              rw [hq] at e1
              have : q = p := by simpa [Res.mapBoth] using e1
              subst this
              unfold step
              rw [hss, hts]
              simp only
              rw [if_neg (by simpa using hne), if_neg (by simpa using hne'), parse_eq hms, parse_eq hmt, hp, hq]
              exact .panic
            | ok a b => rw [hq] at e1; cases e1
            | err a b => rw [hq] at e1; cases e1
          | err e x =>
            rw [hp] at e1
            cases hq : parseH cf (startSt t c' A').h with
            | panic q => rw [hq] at e1; cases e1
            | ok a b => rw [hq] at e1; cases e1
            | err a b =>
              rw [hq] at e1
              have ⟨h1, h2⟩ : a = e ∧ b.er = x.er := by simpa [Res.mapBoth] using e1
              subst h1
              obtain ⟨ctx, sp, r1⟩ := step_error hs hi hss hne hp
              obtain ⟨ctx', sp', r2⟩ := step_error ht hj hts hne' hq
              rw [r1, r2]
              refine .item rfl ⟨?_, (congrArg HSt.buf h2).symm⟩
              have a1 : b.content.er = x.content.er := congrArg HSt.content h2
              have a2 : b.align = x.align := show b.er.align = x.er.align from congrArg HSt.align h2
              simp [Instr.er, a1, a2, hr']
          | ok d x =>
            rw [hp] at e1
            cases hq : parseH cf (startSt t c' A').h with
            | panic q => rw [hq] at e1; cases e1
            | err a b => rw [hq] at e1; cases e1
            | ok a b =>
              rw [hq] at e1
              have ⟨h1, h2⟩ : a = d ∧ b.er = x.er := by simpa [Res.mapBoth] using e1
              subst h1
              have a1 : b.content.er = x.content.er := congrArg HSt.content h2
              have a2 : b.align = x.align := show b.er.align = x.er.align from congrArg HSt.align h2
              have a3 : b.buf.map Instr.er = x.buf.map Instr.er := congrArg HSt.buf h2
              have u1 := unstage_map x.buf (.sub x.content x.align :: rest) a
              have u2 := unstage_map b.buf (.sub b.content b.align :: rest') a
              have u3 : (Instr.sub x.content x.align :: rest).map Instr.er = (Instr.sub b.content b.align :: rest').map Instr.er := by
                simp [Instr.er, a1, a2, hr']
              rw [← a3, u3, u2] at u1
              have s1 : step cf s = match unstage x.buf (.sub x.content x.align :: rest) a with
                  | .error p => .panic p
                  | .ok stack => .again ⟨stack, [], x.macros, s.sp⟩ := by
                unfold step
                rw [hss]
                simp only
                rw [if_neg (by simpa using hne), parse_eq hms, hp]
                rfl
              have s2 : step cf t = match unstage b.buf (.sub b.content b.align :: rest') a with
                  | .error p => .panic p
                  | .ok stack => .again ⟨stack, [], b.macros, t.sp⟩ := by
                unfold step
                rw [hts]
                simp only
                rw [if_neg (by simpa using hne'), parse_eq hmt, hq]
                rfl
              rw [s1, s2]
              cases r1 : unstage x.buf (.sub x.content x.align :: rest) a with
              | error p =>
                rw [r1] at u1
                cases r2 : unstage b.buf (.sub b.content b.align :: rest') a with
                | error q =>
                  rw [r2] at u1
                  have : q = p := by simpa [Except.map] using u1
                  rw [this]
                  exact .panic
                | ok y => rw [r2] at u1; cases u1
              | ok y =>
                rw [r1] at u1
                cases r2 : unstage b.buf (.sub b.content b.align :: rest') a with
                | error q => rw [r2] at u1; cases u1
                | ok z =>
                  rw [r2] at u1
                  have : z.map Instr.er = y.map Instr.er := by simpa [Except.map] using u1
                  exact .again ⟨this.symm, rfl⟩

/-- Executions correspond. -/
theorem exec_sim {i j : Str} {s s' t : State} {its : List Item} (hs : Base i s) (ht : Base j t) (hi : ¬ Defines i) (hj : ¬ Defines j)
    (h : Alike s t) (he : Exec cf s its s') : Base i s' ∧ ∃ its' t', Exec cf t its' t' ∧ its'.map Item.bare = its.map Item.bare ∧ Alike s' t' ∧ Base j t' := by
  induction he with
  | init => exact ⟨hs, [], t, .init, rfl, h, ht⟩
  | @item its s1 it s2 _ hst ih =>
    obtain ⟨b1, its', t1, h1, h2, h3, b2⟩ := ih
    have := step_sim (cf := cf) b1 b2 hi hj h3
    rw [hst] at this
    generalize hx : step cf t1 = x at this
    cases this with
    | @item i' j' s'' t'' hb ha =>
      exact ⟨b1.next (some it) hst, its' ++ [j'], t'', h1.item hx, by simp [h2, hb], ha, b2.next (some j') hx⟩
  | @again its s1 s2 _ hst ih =>
    obtain ⟨b1, its', t1, h1, h2, h3, b2⟩ := ih
    have := step_sim (cf := cf) b1 b2 hi hj h3
    rw [hst] at this
    generalize hx : step cf t1 = x at this
    cases this with
    | @again s'' t'' ha => exact ⟨b1.next none hst, its', t'', h1.again hx, h2, ha, b2.next none hx⟩

end PL
