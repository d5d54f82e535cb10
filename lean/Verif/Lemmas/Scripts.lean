import Verif.Lemmas.HandleToken
import Verif.Lemmas.Unstage
set_option autoImplicit false
/-! # Scripts, and one round of the parser without macros -/
namespace PL
open Lex Spec Macros H

variable {cf : Cfg} {st : Bool} {o : Sl} {s0 s s' : HSt} {j : Nat} {d : List Instr} {α β : Type}
variable {n : Nat} {rec : HTok → H PUnit}

/-- Not the start of a script. -/
def NoScript (t : Str) : Prop := t.head? ≠ some '^' ∧ t.head? ≠ some '_'

/-- The outcome of reading scripts. -/
def ScrPost (st : Bool) (o : Sl) (s s' : HSt) : Option Desc → Prop
  | none => Ext st o s s' [] ∧ s'.align = s.align ∧ s'.len ≤ s.len ∧
      (s.skip = false → s.allowMods = false → NoScript s'.content.cs ∧ NoScript s.content.cs)
  | some x => ∃ sub sup ty p dd, x.event = .script ty p ∧ Ext st o s s' dd ∧ s'.align = s.align ∧
      (dd = sub ++ sup ∧ x.sub = s.buf.length ∧ x.sup = s.buf.length + sub.length ∨
       dd = sup ++ sub ∧ x.sup = s.buf.length ∧ x.sub = s.buf.length + sup.length) ∧
      Flat sub ∧ Flat sup ∧ Elems st (scriptOperands ty - 1) (sub ++ sup) ∧
      W dd + 16 * s'.len + 16 ≤ 16 * s.len ∧ NoScript s'.content.cs ∧
      (s.allowMods = false → ∃ w c r, Spaces w ∧ (c = '^' ∨ c = '_') ∧ s.content.cs = w ++ c :: r)

theorem Elem.ne_nil {d : List Instr} (h : Elem true d) : d ≠ [] := by
  rintro rfl
  have := h [.need 2]
  simp [acc, fin, complete] at this

theorem limits_spec (h : Pre st o s) :
    HSat cf st o s 0 (fun _ s' => Ext st o s s' [] ∧ s'.align = s.align ∧ s'.len ≤ s.len ∧ s'.buf = s.buf ∧
      s'.skip = s.skip ∧ (s.allowMods = false → s' = s)) (limits s) := by
  unfold limits
  rw [M.get_bind]
  refine Sat.ite (fun hc => ?_) fun hc => ⟨Ext.refl h, rfl, Nat.le_refl _, rfl, rfl, fun _ => rfl⟩
  have hs := limitModifiers_suffix s.content.cs
  cases hl : limitModifiers s.content.cs with
  | mk b r =>
    rw [hl] at hs
    have hx := (mv_content h hs).ext
    have hno : s.allowMods = false → False := fun h => by rw [hc] at h; cases h
    cases b with
    | none => exact ⟨hx, rfl, hs.length_le, rfl, rfl, fun h => (hno h).elim⟩
    | some b =>
      cases b with
      | true => exact ⟨⟨hx.buf, hx.sub, hx.subs, hx.mac, hx.smac, hx.harg, hx.skip⟩, rfl, hs.length_le, rfl, rfl, fun h => (hno h).elim⟩
      | false => exact ⟨⟨hx.buf, hx.sub, hx.subs, hx.mac, hx.smac, hx.harg, hx.skip⟩, rfl, hs.length_le, rfl, rfl, fun h => (hno h).elim⟩

theorem noScript_spaces {w t : Str} (hw : Spaces w) (h : NoScript t) : NoScript (w ++ t) := by
  cases w with
  | nil => exact h
  | cons c w =>
    have hc := hw c (by simp)
    constructor <;>
    · intro e
      simp at e
      subst e
      revert hc
      decide

/-- Errors come after the character that starts a script. -/
def ScrErr (st : Bool) (o : Sl) (s : HSt) : ErrorKind → HSt → Prop := fun _ s' =>
  ∃ d, Ext st o s s' d ∧ Grow d ∧ W d + 16 * s'.len + 16 ≤ 16 * s.len

theorem scripts_spec (hr : RecOK cf st o n rec) (h : Pre st o s) (hn : s.len + 2 ≤ n) :
    Sat (fun x s' => ScrPost st o s s' x) (ScrErr st o s) (LexPanic cf o.cs) (scripts rec s) := by
  unfold scripts
  rw [M.get_bind]
  refine Sat.ite (fun hk => ⟨Ext.refl h, rfl, Nat.le_refl _, fun h2 => by rw [h2] at hk; cases hk⟩) fun _ => ?_
  have hlim := limits_spec (cf := cf) h
  rw [M.run_bind]
  have hno : ∀ e s', limits s ≠ .err e s' := by
    intro e s' he
    unfold limits at he
    rw [M.get_bind] at he
    by_cases hb : s.allowMods = true
    · rw [if_pos hb] at he
      cases hm : limitModifiers s.content.cs with
      | mk b r =>
        rw [hm] at he
        cases b with
        | none => cases he
        | some b => cases b <;> cases he
    · rw [if_neg hb] at he; cases he
  cases hl : limits s with
  | err e s' => exact absurd hl (hno e s')
  | panic p => rw [hl] at hlim; exact hlim
  | ok u s1 =>
  rw [hl] at hlim
  obtain ⟨x1, a1, l1, b1, k1, i1⟩ := hlim
  dsimp only
  rw [M.modify_bind, M.get_bind]
  have hp1 := h.next x1
  have mv2 := mv_content hp1 (trimStart_suffix s1.content.cs)
  obtain ⟨w, hw, ew⟩ := trimStart_spec s1.content.cs
  generalize hs2 : ({ s1 with content := { s1.content with cs := trimStart s1.content.cs } } : HSt) = s2 at mv2
  have x2 : Ext st o s s2 [] := x1.trans mv2.ext
  have hp2 := h.next x2
  have c2 : s2.content.cs = trimStart s1.content.cs := by rw [← hs2]
  have b2 : s2.buf = s.buf := by rw [← hs2]; exact b1
  have l2 : s2.len ≤ s.len := Nat.le_trans mv2.len l1
  have a2 : s2.align = s.align := mv2.align.trans a1
  have none_case : NoScript s2.content.cs → ScrPost st o s s2 none := fun hns =>
    ⟨x2, a2, l2, fun _ hm => ⟨hns, by
      have e := i1 hm
      subst e
      rw [ew, ← c2]
      exact noScript_spaces hw hns⟩⟩
  cases hc : s2.content.cs with
  | nil => exact none_case (by rw [hc]; exact ⟨by simp, by simp⟩)
  | cons c r =>
    dsimp only
    refine Sat.ite (fun hcc => ?_) fun hcc => none_case (by
      rw [hc]
      simp at hcc
      exact ⟨by simp [hcc.1], by simp [hcc.2]⟩)
    have hcc : c = '^' ∨ c = '_' := by simpa using hcc
    rw [M.set_bind]
    have mv3 := mv_content hp2 (r := r) ⟨[c], by rw [hc]; rfl⟩
    generalize hs3 : ({ s2 with content := { s2.content with cs := r } } : HSt) = s3 at mv3
    have x3 : Ext st o s s3 [] := x2.trans mv3.ext
    have l3 : s3.len + 1 ≤ s.len := by
      have : s3.len + 1 = s2.len := by rw [← hs3]; unfold HSt.len; rw [hc]; rfl
      omega
    have hp3 := h.next x3
    have A : At st o s3 0 s3 [] := At.start hp3
    have a3 : s3.align = s.align := mv3.align.trans a2
    have b3 : s3.buf = s.buf := by rw [← hs3]; exact b2
    suffices hmain : HSat cf st o s3 0 (fun x s' => ScrPost st o s s' x) _ by
      refine Sat.mono hmain (fun _ _ h => h) ?_ (fun _ h => h)
      rintro e s' ⟨d, y1, y2, y3⟩
      exact ⟨d, x3.trans y1, y2, by omega⟩
    have tail : s.allowMods = false → ∃ w c r, Spaces w ∧ (c = '^' ∨ c = '_') ∧ s.content.cs = w ++ c :: r := by
      intro hm
      have e := i1 hm
      subst e
      exact ⟨w, c, r, hw, hcc, by rw [← hc, c2]; exact ew⟩
    refine A.bindMv (argument_spec A.pre) (by wt) ?_
    rintro a s4 A l4 ⟨ok1, _, sz1, tl1⟩
    have := a.size_w; have := a.size_pos
    refine A.handle hr ok1 (by omega) (by omega) (by wt) fun s5 d1 A e1 w1 l5 => ?_
    rw [M.get_bind]
    have b5 : s5.buf = s.buf ++ d1 := by rw [← b3]; simpa using A.ext.buf
    have f1 : Flat d1 := A.flat
    -- without a second script
    have single : NoScript s5.content.cs → HSat cf st o s3 0 (fun x s' => ScrPost st o s s' x) ((do
        let s ← M.get
        let stop := s.buf.length
        let sub := if decide (c = '_') then s2.buf.length else s5.buf.length
        let sup := if decide (c = '_') then s5.buf.length else s2.buf.length
        let ty : ScriptType := if s5.buf.length = stop then (if decide (c = '_') then .sub else .sup) else .subSup
        return some ⟨.script ty s.pos, sub, sup⟩ : H (Option Desc)) s5) := by
      intro hns
      rw [M.get_bind]
      simp only [if_true]
      rcases hcc with rfl | rfl
      · refine ⟨[], d1, .sup, s5.pos, d1, rfl, by simpa using x3.trans A.ext, A.align.trans a3, .inr ⟨by simp, ?_, ?_⟩, Flat.nil, f1,
          Elems.one e1, ?_, hns, tail⟩
        · simp [b2]
        · simp [b5]
        · wt
      · refine ⟨d1, [], .sub, s5.pos, d1, rfl, by simpa using x3.trans A.ext, A.align.trans a3, .inl ⟨by simp, ?_, ?_⟩, f1, Flat.nil,
          (List.append_nil d1).symm ▸ Elems.one e1, ?_, hns, tail⟩
        · simp [b2]
        · simp [b5]
        · wt
    refine Sat.ite (fun hnext => ?_) fun hnext => ?_
    · have hne : s5.content.cs ≠ [] := by
        intro e
        rw [e] at hnext
        simp at hnext
      rw [M.set_bind]
      have mv6 := mv_content A.pre (r := s5.content.cs.tail) (List.tail_suffix _)
      have A := A.mv mv6
      have l6 : HSt.len { s5 with content := { s5.content with cs := s5.content.cs.tail } } + 1 = s5.len := by
        unfold HSt.len
        cases hx : s5.content.cs with
        | nil => exact absurd hx hne
        | cons => simp
      generalize hs6 : ({ s5 with content := { s5.content with cs := s5.content.cs.tail } } : HSt) = s6 at A mv6 l6
      refine A.bindMv (argument_spec A.pre) (by wt) ?_
      rintro a2 s7 A l7 ⟨ok2, _, sz2, tl2⟩
      have := a2.size_w; have := a2.size_pos
      refine A.handle hr ok2 (by omega) (by omega) (by wt) fun s8 d2 A e2 w2 l8 => ?_
      rw [M.get_bind]
      have b8 : s8.buf = s.buf ++ (d1 ++ d2) := by rw [← b3]; simpa using A.ext.buf
      have x8 : Ext st o s s8 (d1 ++ d2) := by simpa using x3.trans A.ext
      have f2 : Flat d2 := by
        have hf : Flat (d1 ++ d2) := by simpa using A.flat
        intro k
        have := hf k
        rw [dep_append, f1 k] at this
        exact this
      have last : NoScript s8.content.cs → HSat cf st o s3 0 (fun x s' => ScrPost st o s s' x) ((do
          let s ← M.get
          let stop := s.buf.length
          let sub := if decide (c = '_') then s2.buf.length else s5.buf.length
          let sup := if decide (c = '_') then s5.buf.length else s2.buf.length
          let ty : ScriptType := if s5.buf.length = stop then (if decide (c = '_') then .sub else .sup) else .subSup
          return some ⟨.script ty s.pos, sub, sup⟩ : H (Option Desc)) s8) := by
        intro hns
        rw [M.get_bind]
        have hEl : ∀ (ty ty' : ScriptType) (x y : List Instr), (ty' = .sub ∨ ty' = .sup) → x ++ y = d1 ++ d2 ∨ x ++ y = d2 ++ d1 →
            Elems st (scriptOperands (if s5.buf.length = s8.buf.length then ty' else .subSup) - 1) (x ++ y) := by
          intro ty ty' x y ht hxy
          split
          · rename_i hlen
            have hd2 : d2 = [] := by
              rw [b5, b8] at hlen
              simp at hlen
              exact hlen
            subst hd2
            have : x ++ y = d1 := by rcases hxy with h | h <;> simpa using h
            rw [this]
            rcases ht with rfl | rfl <;> exact Elems.one e1
          · rcases hxy with h | h <;> rw [h]
            · exact Elems.two e1 e2
            · exact Elems.two e2 e1
        rcases hcc with rfl | rfl
        · refine ⟨d2, d1, _, s8.pos, d1 ++ d2, rfl, x8, A.align.trans a3, .inr ⟨rfl, ?_, ?_⟩, f2, f1,
            hEl .sup _ d2 d1 (.inr rfl) (.inr rfl), ?_, hns, tail⟩
          · simp [b2]
          · simp [b5]
          · wt
        · refine ⟨d1, d2, _, s8.pos, d1 ++ d2, rfl, x8, A.align.trans a3, .inl ⟨rfl, ?_, ?_⟩, f1, f2,
            hEl .sub _ d1 d2 (.inl rfl) (.inl rfl), ?_, hns, tail⟩
          · simp [b2]
          · simp [b5]
          · wt
      have hb : W ([] ++ d1 ++ d2) + 16 * s8.len ≤ 16 * s3.len + 0 := by
        wt
      cases hh : s8.content.cs.head? with
      | none => exact last (by rw [NoScript, hh]; simp)
      | some x =>
        by_cases hx1 : x = '_'
        · subst hx1; exact A.bindFail hb
        · by_cases hx2 : x = '^'
          · subst hx2; exact A.bindFail hb
          · have := last (by rw [NoScript, hh]; simp [hx1, hx2])
            generalize hq : some x = q
            refine (fun (key : ∀ m : H (Option Desc), m = _ → HSat cf st o s3 0 (fun x s' => ScrPost st o s s' x) (m s8)) => key _ rfl) ?_
            intro m hm
            match q, hq, hm with
            | some '_', hq, _ => exact absurd (Option.some.inj hq) hx1
            | some '^', hq, _ => exact absurd (Option.some.inj hq) hx2
            | none, hq, _ => cases hq
            | some y, hq, hm =>
              cases hq
              split at hm
              · rename_i heq; exact absurd (Option.some.inj heq) hx1
              · rename_i heq; exact absurd (Option.some.inj heq) hx2
              · rw [hm]; exact this
    · refine Sat.ite (fun hnext2 => ?_) fun hnext2 => ?_
      · refine A.bindFail ?_
        wt
      · refine single ?_
        simp at hnext2
        exact ⟨hnext2.2, hnext2.1⟩

end PL
