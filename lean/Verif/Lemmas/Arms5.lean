import Verif.Lemmas.Arms4
set_option autoImplicit false
/-! # Definitions, line breaks and fonts -/
namespace PL
open Lex Spec Macros H

variable {cf : Cfg} {st : Bool} {o : Sl} {s0 s s' : HSt} {j : Nat} {d : List Instr} {α β : Type}
variable {n : Nat} {rec : HTok → H PUnit}

/-- Adding a definition. -/
theorem At.insert (A : At st o s0 j s d) (hst : st = false) (hD : Defines o.cs) {name : Str} {x : Definition} (hx : DefFrom o.cs x) :
    At st o s0 j { s with macros := s.macros.insert name x } d := by
  refine ⟨A.pre0, ⟨A.ext.buf, A.ext.sub, A.ext.subs, ?_, ?_, A.ext.harg, A.ext.skip⟩, A.op, A.align⟩
  · intro y hy
    rcases List.mem_cons.1 hy with rfl | hy
    · exact .inr ⟨hD, hx⟩
    · exact A.ext.mac y hy
  · intro h; rw [hst] at h; cases h

theorem definition_texts {t r name params repl : Str} (h : definition t = .ok (name, params, repl) r) :
    params <:+: t ∧ repl <:+: t := by
  unfold definition at h
  obtain ⟨nm, r1, h1, h⟩ := M.bind_eq_ok h
  rw [M.get_bind] at h
  have hs : r1 <:+ t := by have := good_controlSequence (cf := ⟨true, fun _ => 0⟩) t; rw [h1] at this; exact this
  cases hsp : splitOnce c!"{" r1 with
  | none => rw [hsp] at h; cases h
  | some x =>
    obtain ⟨pt, rest⟩ := x
    rw [hsp] at h
    dsimp only at h
    have e := splitOnce_some hsp
    generalize hq : List.find? (fun c => c == '%' || c == '}') pt = q at h
    cases q with
    | some c => cases h
    | none =>
      dsimp only at h
      rw [M.set_bind] at h
      obtain ⟨g, r2, h2, h⟩ := M.bind_eq_ok h
      cases h
      have e2 := groupContent_eq h2
      constructor
      · refine List.IsInfix.trans ?_ hs.isInfix
        exact ⟨[], c!"{" ++ rest, by rw [e]; simp⟩
      · refine List.IsInfix.trans ?_ hs.isInfix
        rw [e, e2]
        exact ⟨params ++ c!"{", GroupingKind.normal.closingStr ++ r, by simp⟩

theorem arm_def (hst : st = false) (hD : Defines o.cs) (h : Pre st o s) : Arm cf st o s (execPrim cf rec .def_) := by
  simp only [execPrim]
  refine (At.start h).lex good_definition (by wt) ?_
  rintro ⟨name, pt, rt⟩ s1 A l1 ⟨r, hr, -⟩
  obtain ⟨i1, i2⟩ := definition_texts hr
  dsimp only
  refine A.setSkip fun s2 A l2 _ => ?_
  unfold H.macros
  dsimp only
  cases hd : Macros.define s2.macros name pt rt with
  | error e =>
    cases e with
    | inl e => exact A.fail (cf := cf) (e := e) (Q := fun (_ : PUnit) _ => True) (by wt)
    | inr p => exact absurd hd define_no_panic
  | ok m =>
    obtain ⟨pre, ds, b, hdt⟩ := define_ok hd
    rw [define_of hdt] at hd
    cases hp : parseReplacement rt ds.length with
    | error e => rw [hp] at hd; cases hd
    | ok repl =>
      rw [hp] at hd
      cases hd
      have A' := A.insert hst hD (name := name) (DefFrom.mac hdt hp (i1.trans h.sub.infix) (i2.trans h.sub.infix))
      have l3 : HSt.len { s2 with macros := s2.macros.insert name (.macro_ ⟨opt pre, ds.map opt, b, repl⟩) } = s2.len := rfl
      refine A'.done rfl (by wt) (by omega) ?_
      subst hst; exact Elem.nil

theorem assign_from {t r : Str} {tok : Tok} (h : token t = .ok tok r) (hi : t <:+: o.cs) (m : Ctx) (name : Str) :
    ∃ x, DefFrom o.cs x ∧ m.assign name tok = m.insert name x := by
  have hf := token_facts h
  cases tok with
  | cs nm =>
    obtain ⟨k, w, _, _, hn, e⟩ := hf
    refine ⟨.aliasCs nm, .cs (List.IsInfix.trans ?_ hi) hn, rfl⟩
    exact ⟨k, w ++ r, by rw [e]; simp⟩
  | chr c r' =>
    obtain ⟨rfl, k, _, e, h1, h2, h3⟩ := hf
    refine ⟨.aliasChr c, .chr (hi.subset (by rw [e]; simp)) h1 h2 h3, rfl⟩

theorem letAssignment_token {t r name : Str} {tok : Tok} (h : letAssignment t = .ok (name, tok) r) :
    ∃ u, u <:+ t ∧ token u = .ok tok r := by
  unfold letAssignment at h
  obtain ⟨nm, r1, h1, h⟩ := M.bind_eq_ok h
  rw [M.get_bind] at h
  have hs : r1 <:+ t := by have := good_controlSequence (cf := ⟨true, fun _ => 0⟩) t; rw [h1] at this; exact this
  cases hsp : stripPrefix c!"=" (trimStart r1) with
  | none =>
    rw [hsp] at h
    obtain ⟨tk, r2, h2, h⟩ := M.bind_eq_ok h
    cases h
    exact ⟨r1, hs, h2⟩
  | some u =>
    rw [hsp] at h
    dsimp only at h
    rw [M.set_bind] at h
    obtain ⟨tk, r2, h2, h⟩ := M.bind_eq_ok h
    cases h
    exact ⟨u, (stripPrefix_suffix hsp).trans hs, h2⟩

theorem futurelet_token {t r name rest : Str} {tok : Tok} (h : futureletAssignment t = .ok (name, tok, rest) r) :
    (∃ u, u <:+ t ∧ token u = .ok tok r) ∧ rest <:+ t := by
  unfold futureletAssignment at h
  obtain ⟨nm, r1, h1, h⟩ := M.bind_eq_ok h
  rw [M.get_bind] at h
  have hs : r1 <:+ t := by have := good_controlSequence (cf := ⟨true, fun _ => 0⟩) t; rw [h1] at this; exact this
  obtain ⟨tk, r2, h2, h⟩ := M.bind_eq_ok h
  obtain ⟨tk', r3, h3, h⟩ := M.bind_eq_ok h
  injection h with h h'
  injection h with ha hb
  injection hb with hb hc
  subst ha hb hc h'
  have hs2 : r2 <:+ r1 := by have := good_token (cf := ⟨true, fun _ => 0⟩) r1; rw [h2] at this; exact this
  exact ⟨⟨r2, hs2.trans hs, h3⟩, hs⟩

theorem arm_let (hst : st = false) (hD : Defines o.cs) (h : Pre st o s) : Arm cf st o s (execPrim cf rec .let_) := by
  simp only [execPrim]
  refine (At.start h).lex good_letAssignment (by wt) ?_
  rintro ⟨name, tok⟩ s1 A l1 ⟨r, hr, -⟩
  obtain ⟨u, hu, ht⟩ := letAssignment_token hr
  dsimp only
  refine A.setSkip fun s2 A l2 _ => ?_
  obtain ⟨x, hx, e⟩ := assign_from ht (hu.isInfix.trans h.sub.infix) s2.macros name
  unfold H.macros
  dsimp only
  rw [e]
  have l3 : HSt.len { s2 with macros := s2.macros.insert name x } = s2.len := rfl
  refine (A.insert hst hD (name := name) hx).done rfl (by wt) (by omega) ?_
  subst hst; exact Elem.nil

theorem arm_futurelet (hst : st = false) (hD : Defines o.cs) (h : Pre st o s) : Arm cf st o s (execPrim cf rec .futurelet) := by
  simp only [execPrim]
  refine (At.start h).lex good_futureletAssignment (by wt) ?_
  rintro ⟨name, tok, rest⟩ s1 A l1 ⟨r, hr, hs1⟩
  obtain ⟨⟨u, hu, ht⟩, hrest⟩ := futurelet_token hr
  dsimp only
  refine A.setSkip fun s2 A l2 c2 => ?_
  obtain ⟨x, hx, e⟩ := assign_from ht (hu.isInfix.trans h.sub.infix) s2.macros name
  rw [M.run_bind]
  unfold H.macros
  dsimp only
  rw [e]
  have A' := A.insert hst hD (name := name) hx
  have hsub : Sub { s2.content with cs := rest } o := by
    rw [c2, hs1]; exact h.sub.suffix hrest
  have hext := A'.ext
  have A2 : At st o s 0 { s2 with macros := s2.macros.insert name x, content := { s2.content with cs := rest } } [] :=
    ⟨A'.pre0, ⟨hext.buf, hsub, hext.subs, hext.mac, hext.smac, hext.harg, hext.skip⟩, A'.op, A'.align⟩
  have l3 : rest.length ≤ s.content.cs.length := hrest.length_le
  refine A2.done rfl (by simp only [W, HSt.len]; omega) l3 ?_
  subst hst; exact Elem.nil

theorem arm_newcommand {z : Option Bool} (hst : st = false) (hD : Defines o.cs) (h : Pre st o s) :
    Arm cf st o s (execPrim cf rec (.newcommand z)) := by
  simp only [execPrim, newCommand]
  refine (At.start h).bindMv (braceArgument_spec h) (by wt) ?_
  rintro g s1 A l1 ⟨h1, h2⟩
  refine A.onStr good_controlSequence h1.infix (by wt) ?_
  rintro name -
  rw [M.get_bind]
  refine Sat.ite (fun _ => A.fail (by wt)) fun _ => ?_
  refine A.bindMv (optionalArgument_spec A.pre) (by wt) ?_
  rintro nb s2 A l2 -
  cases nb with
  | none => exact A.fail (by wt)
  | some nb =>
    dsimp only
    cases parseU8 nb.cs with
    | none => exact A.fail (by wt)
    | some k =>
      dsimp only
      refine A.bindMv (optionalArgument_spec A.pre) (by wt) ?_
      rintro df s3 A l3 ⟨hdf, -⟩
      refine Sat.ite (fun _ => A.fail (by wt)) fun hk => ?_
      refine A.bindMv (braceArgument_spec A.pre) (by wt) ?_
      rintro rp s4 A l4 ⟨h3, h4⟩
      rw [M.get_bind]
      refine Sat.ite (fun _ => ?_) fun _ => ?_
      · refine A.done rfl (by wt) (by omega) ?_
        subst hst; exact Elem.nil
      · unfold H.macros
        dsimp only
        unfold insertCommand
        have hsp := parseReplacement_spec rp.cs k
        cases hp : parseReplacement rp.cs k with
        | error e =>
          cases e with
          | inl e => exact A.fail (cf := cf) (e := e) (Q := fun (_ : PUnit) _ => True) (by wt)
          | inr p => rw [hp] at hsp; exact hsp.elim
        | ok repl =>
          have hx : DefFrom o.cs (.command ⟨k, df.map (·.cs), repl⟩) := by
            refine .cmd (by omega) hp h3.infix ?_
            intro t ht
            cases df with
            | none => cases ht
            | some df => cases ht; exact (hdf df rfl).1.infix
          have A' := A.insert hst hD (name := name) hx
          have l5 : HSt.len { s4 with macros := s4.macros.insert name (.command ⟨k, df.map (·.cs), repl⟩) } = s4.len := rfl
          refine A'.done rfl (by wt) (by omega) ?_
          subst hst; exact Elem.nil

end PL
