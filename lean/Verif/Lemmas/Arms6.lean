import Verif.Lemmas.Arms5
import Verif.Lemmas.Words
set_option autoImplicit false
/-! # Fonts, line breaks, characters, and the handler as a whole -/
namespace PL
open Lex Spec Macros H

variable {cf : Cfg} {st : Bool} {o : Sl} {s0 s s' : HSt} {j : Nat} {d : List Instr} {α β : Type}
variable {n : Nat} {rec : HTok → H PUnit}

theorem tableNames {p : Prim} {names : List Str} (ht : ∀ e ∈ primTable, e.2 = p → e.1 ∈ names)
    (h1 : ∀ c ty, p ≠ .delim c ty) (h2 : p ≠ .nbsp) (h3 : p ≠ .unknown) {name : Str} (h : primOf name = p) : name ∈ names := by
  unfold primOf at h
  split at h
  · rename_i q hq
    subst h
    exact ht _ (mem_of_lookup hq) rfl
  · split at h
    · exact absurd h.symm (h1 _ _)
    · split at h
      · exact absurd h.symm h2
      · exact absurd h.symm h3

theorem newline_names {name : Str} (h : primOf name = .newline) : name = c!"\\" ∨ name = c!"cr" := by
  have := tableNames (names := [c!"\\", c!"cr"]) (by decide +kernel) (by simp) (by simp) (by simp) h
  simpa using this

theorem font_names {name : Str} {f : Option Font} (h : primOf name = .fontGroup f) : name ∈ fontCommands := by
  have key : ∀ e ∈ primTable, (match e.2 with | .fontGroup _ => true | _ => false) = true → e.1 ∈ fontCommands := by
    decide +kernel
  exact tableNames (p := .fontGroup f) (fun e he h => key e he (by rw [h])) (by simp) (by simp) (by simp) h

theorem Ruled.ws {w m : Str} (hw : Spaces w) (hm : Ruled m) : Ruled (w ++ m) := by
  induction w with
  | nil => exact hm
  | cons c w ih => exact .ws (hw c (by simp)) (ih fun x hx => hw x (by simp [hx]))

theorem Spaces_append {w v : Str} (hw : Spaces w) (hv : Spaces v) : Spaces (w ++ v) := fun x hx =>
  (List.mem_append.1 hx).elim (hw x) (hv x)

theorem Ruled.append_ws {w m : Str} (hm : Ruled m) (hw : Spaces w) : Ruled (m ++ w) := by
  induction hm with
  | nil => simpa using Ruled.ws hw .nil
  | ws hc _ ih => exact .ws hc ih
  | solid _ ih => rw [List.append_assoc]; exact .solid ih
  | dashed _ ih => rw [List.append_assoc]; exact .dashed ih

theorem BreakTail.pad {w m v : Str} (hw : Spaces w) (hv : Spaces v) (hm : BreakTail m) : BreakTail (w ++ m ++ v) := by
  cases hm with
  | plain h => exact .plain (Ruled.append_ws (Ruled.ws hw h) hv)
  | @spacing u g m hu h =>
    have := BreakTail.spacing (g := g) (Spaces_append hw hu) (Ruled.append_ws h hv)
    simpa using this
  | @bracket u m hu h =>
    have := BreakTail.bracket (Spaces_append hw hu) (Ruled.append_ws h hv)
    simpa using this

theorem lines_ruled {t r : Str} {ls : List Line} (h : WordSeq lineWords t ls r) : ∃ m, Ruled m ∧ t = m ++ r := by
  induction h with
  | nil => exact ⟨[], .nil, rfl⟩
  | @cons w u v s vs r hw hu _ ih =>
    obtain ⟨m, hm, e⟩ := ih
    refine ⟨w ++ (u ++ m), Ruled.ws hw ?_, by rw [e]; simp⟩
    simp only [lineWords, List.mem_cons, Prod.mk.injEq, List.not_mem_nil, or_false] at hu
    rcases hu with ⟨rfl, _⟩ | ⟨rfl, _⟩
    · exact .solid hm
    · exact .dashed hm

/-- What arms may do in general. -/
def ArmPost' (st : Bool) (o : Sl) (nl : Prop) (s s' : HSt) : Prop :=
  ∃ d, Ext st o s s' d ∧ Flat d ∧ W d + 16 * s'.len ≤ 16 * s.len + 8 ∧ s'.len ≤ s.len ∧
    (Elem st d ∧ s'.align = s.align ∨ s.harg = false ∧ Shape st s.align s'.align d ∧
      (st = true → nl ∧ s'.allowMods = s.allowMods ∧ (s'.content.cs = [] ∨ ∃ m, BreakTail m ∧ s.content.cs = m ++ s'.content.cs)))

theorem ArmPost.to (nl : Prop) (h : ArmPost st o s s') : ArmPost' st o nl s s' := by
  obtain ⟨d, h1, h2, h3, h4, h5, h6⟩ := h
  exact ⟨d, h1, h2, h3, h4, .inl ⟨h5, h6⟩⟩

theorem arm_font {f : Option Font} (hr : RecOK cf st o n rec) (h : Pre st o s) (hn : s.len + 1 ≤ n)
    (hs : st = true → ∃ nm w, nm ∈ fontCommands ∧ Spaces w ∧ ('\\' :: nm ++ w ++ s.content.cs) <:+: o.cs) :
    HSat cf st o s 8 (fun _ s' => ArmPost' st o False s s') (execPrim cf rec (.fontGroup f) s) := by
  simp only [execPrim, fontGroup]
  refine (At.start h).bindMv (argument_spec h) (by wt) ?_
  rintro a s1 A l1 ⟨h2, h3, h4, h5⟩
  have := a.size_w; have := a.size_pos
  refine A.push (by simp) (j' := 1) (fun _ => rfl) fun s2 A l2 c2 => ?_
  cases a with
  | group g =>
    refine A.push (mem_one h2 none (by simp)) (j' := 1) (fun _ => rfl) fun s3 A l3 _ => ?_
    refine A.ev' (j' := 0) (fun _ => rfl) fun s4 A l4 _ => ?_
    refine (A.done rfl ?_ (by omega) (Elem.group (Inside.ev (by trivial) (Inside.sub Inside.nil)))).to _
    simp only [HArg.size] at h4
    wt
  | token t =>
    dsimp only
    have ht : TokOK st o s2 t := ArgOK.congr (a := .token t) h2 c2
    refine Step.bind A.ext ⟨1, A.op⟩ (hr t s2 A.pre ht (by omega)) (by wt) ?_
    rintro _ s3 ⟨d1, x1, f1, w1, l3, hd⟩
    have hroom : 16 * room t s2 + slack t + 3 ≤ 16 * s.len + 8 ∧ room t s2 ≤ s.len := by
      unfold room bonus
      cases t with
      | cs => simp only [HTok.tl, slack, HArg.size] at *; omega
      | chr c x => simp only [HArg.tl, HTok.tl, slack, HArg.size] at *; split <;> omega
    have x2 := A.ext.trans x1
    have f2 : Flat ([] ++ [Instr.ev (.begin_ .normal), .ev (.stateChange (.font f))] ++ d1 ++ [.ev .end_]) := by
      have : Flat (Instr.ev (.begin_ .normal) :: ((.ev (.stateChange (.font f)) :: d1) ++ [.ev .end_])) :=
        Flat.wrap (Flat.cons (by trivial) f1)
      simpa using this
    have x3 := x2.trans (push_ext (h.next x2) (is := [.ev .end_]) (by simp))
    refine ⟨_, x3, f2, ?_, ?_, ?_⟩
    · show W _ + 16 * s3.len ≤ _
      wt
    · show s3.len ≤ _
      omega
    · rcases hd with ⟨e1, a1⟩ | ⟨hh, sh, hst⟩
      · refine .inl ⟨?_, ?_⟩
        · have : Elem st (Instr.ev (.begin_ .normal) :: ((.ev (.stateChange (.font f)) :: d1) ++ [.ev .end_])) :=
            Elem.group (Inside.ev (by trivial) (Inside.one e1))
          simpa using this
        · show s3.align = _
          rw [a1, A.align]
      · refine .inr ⟨?_, ?_, ?_⟩
        · cases hb : s.harg with
          | false => rfl
          | true =>
            have := A.ext.harg hb
            rw [hh] at this; cases this
        · cases st with
          | true =>
            exfalso
            obtain ⟨hf, _⟩ := hst rfl
            obtain ⟨nm, w, hnm, hw, hi⟩ := hs rfl
            have hfont := (h.clean rfl).font nm hnm
            cases t with
            | chr c x =>
              obtain ⟨k, r, hk, e⟩ := h3
              have hc : c = '&' := hf
              refine hfont (w ++ k) ['&'] (Blank_ws hw hk) (.inl rfl) (List.IsInfix.trans ?_ hi)
              rw [e, hc]
              exact ⟨[], r, by simp⟩
            | cs nl =>
              obtain ⟨k, r, hk, e⟩ := h3
              rcases newline_names hf with rfl | rfl
              · refine hfont (w ++ k) c!"\\\\" (Blank_ws hw hk) (.inr (.inl rfl)) (List.IsInfix.trans ?_ hi)
                rw [e]
                exact ⟨[], r, by simp⟩
              · refine hfont (w ++ k) c!"\\cr" (Blank_ws hw hk) (.inr (.inr rfl)) (List.IsInfix.trans ?_ hi)
                rw [e]
                exact ⟨[], r, by simp⟩
          | false =>
            rw [A.align] at sh
            have e1 : Elem false [Instr.ev (.stateChange (.font f))] := Elem.ev (by trivial)
            have := Shape.group ((Elem.shape e1).append sh)
            show Shape false s.align s3.align _
            simpa using this
        · rintro rfl
          exfalso
          obtain ⟨hf, _⟩ := hst rfl
          obtain ⟨nm, w, hnm, hw, hi⟩ := hs rfl
          have hfont := (h.clean rfl).font nm hnm
          cases t with
          | chr c x =>
            obtain ⟨k, r, hk, e⟩ := h3
            have hc : c = '&' := hf
            refine hfont (w ++ k) ['&'] (Blank_ws hw hk) (.inl rfl) (List.IsInfix.trans ?_ hi)
            rw [e, hc]
            exact ⟨[], r, by simp⟩
          | cs nl =>
            obtain ⟨k, r, hk, e⟩ := h3
            rcases newline_names hf with rfl | rfl
            · refine hfont (w ++ k) c!"\\\\" (Blank_ws hw hk) (.inr (.inl rfl)) (List.IsInfix.trans ?_ hi)
              rw [e]
              exact ⟨[], r, by simp⟩
            · refine hfont (w ++ k) c!"\\cr" (Blank_ws hw hk) (.inr (.inr rfl)) (List.IsInfix.trans ?_ hi)
              rw [e]
              exact ⟨[], r, by simp⟩

theorem arm_newline (h : Pre st o s) :
    HSat cf st o s 8 (fun _ s' => ArmPost' st o True s s') (execPrim cf rec .newline s) := by
  simp only [execPrim]
  rw [M.get_bind]
  cases ha : s.align with
  | none => exact (At.start h).fail (by wt)
  | some a =>
    dsimp only
    refine Sat.ite (fun _ => (At.start h).fail (by wt)) fun hh => ?_
    rw [M.set_bind]
    have x0 : Ext st o s { s with align := some { a with count := 0 } } [] :=
      ⟨by simp, h.sub, by simp, fun _ hx => .inl hx, fun _ => rfl, id, id⟩
    generalize hs1 : ({ s with align := some { a with count := 0 } } : HSt) = s1 at *
    have hp1 : Pre st o s1 := h.next x0
    have c1 : s1.content = s.content := by rw [← hs1]
    have l1 : s1.len = s.len := by unfold HSt.len; rw [c1]
    have a1 : s1.align = some { a with count := 0 } := by rw [← hs1]
    refine Step.bind (m := optionalArgument >>= _) (b := 0) (Q1 := fun sp s2 => Mv st o s1 s2 ∧
      (s2.content.cs = s1.content.cs ∨ ∃ w t, Spaces w ∧ s1.content.cs = w ++ '[' :: t ∧
        (s2.content.cs = [] ∨ s2.content.cs = t ∨ ∃ g, t = g ++ ']' :: s2.content.cs))) x0 Grow.nil ?_ (by wt) ?_
    · refine Step.bind (Ext.refl hp1) Grow.nil (optionalArgument_spec hp1) (by wt) ?_
      rintro g s2 ⟨m2, hg, r, hr, hc⟩
      have hcase : s2.content.cs = s1.content.cs ∨ ∃ w t, Spaces w ∧ s1.content.cs = w ++ '[' :: t ∧
          (s2.content.cs = [] ∨ s2.content.cs = t ∨ ∃ g, t = g ++ ']' :: s2.content.cs) := by
        rcases optionalArgument_eq hr with ⟨_, h2⟩ | ⟨w, t, hw, e, ⟨_, h2⟩ | ⟨g', _, h2⟩⟩
        · exact .inl (hc.trans h2)
        · refine .inr ⟨w, t, hw, e, ?_⟩
          rw [hc]
          rcases h2 with h2 | h2
          · exact .inl h2
          · exact .inr (.inl h2)
        · exact .inr ⟨w, t, hw, e, .inr (.inr ⟨g', by rw [hc]; exact h2⟩)⟩
      cases g with
      | none => exact ⟨m2, hcase⟩
      | some g =>
        refine Step.bind m2.ext Grow.nil (onStr_spec good_dimension (hp1.next m2.ext) (hg g rfl).1.infix) (by have := m2.len; wt) ?_
        rintro dm s3 ⟨rfl, _⟩
        exact ⟨m2, hcase⟩
    · rintro sp s2 ⟨m2, hcase⟩
      have x2 : Ext st o s s2 [] := x0.trans m2.ext
      have hp2 := h.next x2
      refine Step.bind x2 Grow.nil (lexPure_spec horizontalLines_suffix hp2) (by have := m2.len; wt) ?_
      rintro ls s3 ⟨m3, e1, e2, -⟩
      have x3 : Ext st o s s3 [] := x2.trans m3.ext
      have hp3 := h.next x3
      have x4 := x3.trans (push_ext hp3 (is := [.ev (.flow (.newLine sp ls))]) (by simp))
      have hlen : s3.len ≤ s.len := by have := m2.len; have := m3.len; omega
      refine ⟨_, x4, Flat.cons (by trivial) Flat.nil, ?_, hlen, .inr ⟨?_, ?_, ?_⟩⟩
      · show W _ + 16 * s3.len ≤ _
        wt
      · simpa using hh
      · show Shape st s.align s3.align _
        rw [m3.align, m2.align, a1, ha]
        exact Shape.newLine
      · intro _
        refine ⟨trivial, ?_, ?_⟩
        · show s3.allowMods = s.allowMods
          rw [m3.mods, m2.mods, ← hs1]
        show s3.content.cs = [] ∨ ∃ m, BreakTail m ∧ s.content.cs = m ++ s3.content.cs
        obtain ⟨m, hm, em⟩ := lines_ruled (horizontalLines_of.1 (show horizontalLines s2.content.cs = (ls, s3.content.cs) by rw [e1, e2]))
        rcases hcase with hc | ⟨w, t, hw, e, hc⟩
        · exact .inr ⟨m, .plain hm, by rw [← c1, ← hc, em]⟩
        · rw [c1] at e
          rcases hc with hc | hc | ⟨g, hc⟩
          · left
            rw [hc] at em
            have := congrArg List.length em
            simp only [List.length_nil, List.length_append] at this
            exact List.eq_nil_of_length_eq_zero (by omega)
          · refine .inr ⟨w ++ '[' :: m, .bracket hw hm, ?_⟩
            rw [e, ← hc, em]; simp
          · refine .inr ⟨w ++ '[' :: (g ++ ']' :: m), .spacing hw hm, ?_⟩
            rw [e, hc, em]; simp

end PL
