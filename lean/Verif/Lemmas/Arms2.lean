import Verif.Lemmas.Arms
set_option autoImplicit false
/-! # The arms of `execPrim`, continued -/
namespace PL
open Lex Spec Macros H

variable {cf : Cfg} {st : Bool} {o : Sl} {s0 s s' : HSt} {j : Nat} {d : List Instr} {α β : Type}
variable {n : Nat} {rec : HTok → H PUnit}

theorem At.lex {m : L β} {f : β → H α} {Q : α → HSt → Prop} {b : Nat} (A : At st o s0 j s d)
    (hm : ∀ s, Good cf s (m s)) (hb : W d + 16 * s.len ≤ 16 * s0.len + b)
    (hf : ∀ a s', At st o s0 j s' d → s'.len ≤ s.len →
      (∃ r, m s.content.cs = .ok a r ∧ s' = { s with content := { s.content with cs := r } }) → HSat cf st o s0 b Q (f a s')) :
    HSat cf st o s0 b Q ((H.lex m >>= f) s) := A.bindMv (lex_spec hm A.pre) hb hf

theorem At.onStr {m : L β} {f : β → H α} {Q : α → HSt → Prop} {b : Nat} {t : Str} (A : At st o s0 j s d)
    (hm : ∀ s, Good cf s (m s)) (ht : t <:+: o.cs) (hb : W d + 16 * s.len ≤ 16 * s0.len + b)
    (hf : ∀ a, (∃ r, m t = .ok a r) → HSat cf st o s0 b Q (f a s)) :
    HSat cf st o s0 b Q ((H.onStr m t >>= f) s) := A.bindSame (onStr_spec hm A.pre ht) hb hf

theorem arm_sized {z : DelimSize} (h : Pre st o s) : Arm cf st o s (execPrim cf rec (.sized z)) := by
  simp only [execPrim, sizedDelim]
  refine (At.start h).lex good_delimiter (by wt) fun a s1 A l1 _ => ?_
  exact A.ev1 trivial (fun _ => rfl) (by omega)

theorem leftDelim_spec (h : Pre st o s) : HSat cf st o s 0 (fun _ s' => Mv st o s s' ∧ True) (leftDelim s) := by
  unfold leftDelim
  rw [M.get_bind]
  refine (fun (key : ∀ m : H (Option Char), m = _ → HSat cf st o s 0 _ (m s)) => key _ rfl) ?_
  intro m hm
  split at hm
  · rename_i rest hs
    subst hm
    refine ⟨mv_content (r := rest) h ⟨['.'], ?_⟩, trivial⟩
    rw [hs]; rfl
  · subst hm
    refine Step.bind (Ext.refl h) Grow.nil (lex_spec good_delimiter h) (by wt) ?_
    rintro a s' ⟨h1, _⟩
    exact ⟨h1, trivial⟩

theorem arm_left (h : Pre st o s) : Arm cf st o s (execPrim cf rec .left) := by
  simp only [execPrim]
  refine (At.start h).bindMv (leftDelim_spec h) (by wt) fun op s1 A l1 _ => ?_
  refine A.bindMv (groupContent_spec _ A.pre) (by wt) ?_
  rintro g s2 A l2 ⟨h1, h2⟩
  refine A.bindMv (leftDelim_spec A.pre) (by wt) fun cl s3 A l3 _ => ?_
  refine A.push' (mem_one h1 none (by simp)) (j' := 0) (fun _ => rfl) fun s4 A l4 _ => ?_
  exact A.done rfl (by wt) (by omega) (Elem.group (Inside.sub Inside.nil))

theorem arm_middle (h : Pre st o s) : Arm cf st o s (execPrim cf rec .middle) := by
  simp only [execPrim]
  refine (At.start h).lex good_delimiter (by wt) fun a s1 A l1 _ => ?_
  exact A.ev1 trivial (fun _ => rfl) (by omega)

theorem arm_largeOp {c : Char} {b : Bool} (h : Pre st o s) : Arm cf st o s (execPrim cf rec (.largeOp c b)) := by
  simp only [execPrim]
  refine (At.start h).allowMods fun s1 A l1 _ => A.setPos fun s2 A l2 _ => A.ev1 trivial (fun _ => rfl) (by omega)

theorem arm_smallint (h : Pre st o s) : Arm cf st o s (execPrim cf rec .smallint) := by
  simp only [execPrim]
  refine (At.start h).allowMods fun s1 A l1 _ => A.ev1 trivial (fun _ => rfl) (by omega)

theorem arm_accent' {c : Char} {b : Bool} (hr : RecOK cf st o n rec) (A : At st o s0 0 s []) (hl : s.len = s0.len) (hn : s0.len + 1 ≤ n) :
    HSat cf st o s0 8 (fun _ s' => ArmPost st o s0 s') (accent rec c b s) := by
  unfold accent
  refine A.bindMv (argument_spec A.pre) (by wt) ?_
  rintro a s2 A l2 ⟨h2, h3, h4, h5⟩
  have := a.size_w; have := a.size_pos
  refine A.ev (j' := 0) (fun _ => rfl) fun s3 A l3 c3 => ?_
  refine A.handle hr (h2.congr c3) (by omega) (by omega) (by wt) fun s4 d1 A e1 w1 l4 => ?_
  refine A.ev' (j' := 0) (fun _ => rfl) fun s5 A l5 _ => ?_
  refine A.done (d' := .ev (.script .sup .aboveBelow) :: (d1 ++ [.ev (.content (.ordinary c b))])) (by simp) (by wt) (by omega)
    (Elem.script (Elems.two e1 (Elem.ev (by trivial))))

theorem arm_under' {c : Char} (hr : RecOK cf st o n rec) (A : At st o s0 0 s []) (hl : s.len = s0.len) (hn : s0.len + 1 ≤ n) :
    HSat cf st o s0 8 (fun _ s' => ArmPost st o s0 s') (underscript rec c s) := by
  unfold underscript
  refine A.bindMv (argument_spec A.pre) (by wt) ?_
  rintro a s2 A l2 ⟨h2, h3, h4, h5⟩
  have := a.size_w; have := a.size_pos
  refine A.ev (j' := 0) (fun _ => rfl) fun s3 A l3 c3 => ?_
  refine A.handle hr (h2.congr c3) (by omega) (by omega) (by wt) fun s4 d1 A e1 w1 l4 => ?_
  refine A.ev' (j' := 0) (fun _ => rfl) fun s5 A l5 _ => ?_
  refine A.done (d' := .ev (.script .sub .aboveBelow) :: (d1 ++ [.ev (.content (.ordinary c true))])) (by simp) (by wt) (by omega)
    (Elem.script (Elems.two e1 (Elem.ev (by trivial))))

theorem arm_accent {c : Char} {b above : Bool} (hr : RecOK cf st o n rec) (h : Pre st o s) (hn : s.len + 1 ≤ n) :
    Arm cf st o s (execPrim cf rec (.accent c b above)) := by
  cases above <;> simp only [execPrim, if_true, Bool.false_eq_true, if_false]
  · exact arm_accent' hr (At.start h) rfl hn
  · exact (At.start h).setPos fun s1 A l1 _ => arm_accent' hr A l1 hn

theorem arm_under {c : Char} {above : Bool} (hr : RecOK cf st o n rec) (h : Pre st o s) (hn : s.len + 1 ≤ n) :
    Arm cf st o s (execPrim cf rec (.under c above)) := by
  cases above <;> simp only [execPrim, if_true, Bool.false_eq_true, if_false]
  · exact arm_under' hr (At.start h) rfl hn
  · exact (At.start h).setPos fun s1 A l1 _ => arm_under' hr A l1 hn

theorem arm_atom0 {cls : AtomClass} (hr : RecOK cf st o n rec) (h : Pre st o s) (hn : s.len + 1 ≤ n) :
    Arm cf st o s (execPrim cf rec (.atom cls)) := by
  simp only [execPrim]
  by_cases hc : cls = .op
  · simp only [if_pos hc]
    exact (At.start h).allowMods fun s1 A l1 _ => A.setPos fun s2 A l2 _ => arm_atom hr A (by omega) hn
  · simp only [if_neg hc]
    exact arm_atom hr (At.start h) (Nat.le_refl _) hn

theorem arm_kern (h : Pre st o s) : Arm cf st o s (execPrim cf rec .kern) := by
  simp only [execPrim]
  refine (At.start h).lex good_dimensionOrBraced (by wt) fun a s1 A l1 _ => ?_
  exact A.ev1 trivial (fun _ => rfl) (by omega)

theorem arm_hskip (h : Pre st o s) : Arm cf st o s (execPrim cf rec .hskip) := by
  simp only [execPrim]
  refine (At.start h).lex good_glueOrBraced (by wt) fun a s1 A l1 _ => ?_
  exact A.ev1 trivial (fun _ => rfl) (by omega)

theorem arm_mkern (h : Pre st o s) : Arm cf st o s (execPrim cf rec .mkern) := by
  simp only [execPrim]
  refine (At.start h).lex good_dimensionOrBraced (by wt) fun a s1 A l1 _ => ?_
  exact Sat.ite (fun _ => A.ev1 trivial (fun _ => rfl) (by omega)) (fun _ => A.fail (by wt))

theorem arm_mskip (h : Pre st o s) : Arm cf st o s (execPrim cf rec .mskip) := by
  simp only [execPrim]
  refine (At.start h).lex good_glueOrBraced (by wt) fun a s1 A l1 _ => ?_
  exact Sat.ite (fun _ => A.ev1 trivial (fun _ => rfl) (by omega)) (fun _ => A.fail (by wt))

theorem arm_hspace (h : Pre st o s) : Arm cf st o s (execPrim cf rec .hspace) := by
  simp only [execPrim]
  refine (At.start h).bindMv (groupArg_spec h) (by wt) ?_
  rintro g s1 A l1 ⟨h2, h3⟩
  refine A.onStr good_glue h2.infix (by wt) fun a _ => ?_
  exact A.ev1 trivial (fun _ => rfl) (by omega)

theorem arm_space3 (h : Pre st o s) : Arm cf st o s (execPrim cf rec .space3) := by
  simp only [execPrim]
  refine (At.start h).bindMv (groupArg_spec h) (by wt) ?_
  rintro g s1 A l1 ⟨h2, h3⟩
  refine A.onStr good_dimension h2.infix (by wt) fun a _ => ?_
  refine A.bindMv (groupArg_spec A.pre) (by wt) ?_
  rintro g s2 A l2 ⟨h2, h3⟩
  refine A.onStr good_dimension h2.infix (by wt) fun a _ => ?_
  refine A.bindMv (groupArg_spec A.pre) (by wt) ?_
  rintro g s3 A l3 ⟨h2, h3⟩
  refine A.onStr good_dimension h2.infix (by wt) fun a _ => ?_
  exact A.ev1 trivial (fun _ => rfl) (by omega)

theorem arm_xarrow {c : Char} (hr : RecOK cf st o n rec) (h : Pre st o s) (hn : s.len + 1 ≤ n) :
    Arm cf st o s (execPrim cf rec (.xarrow c)) := by
  simp only [execPrim]
  refine (At.start h).bindMv (optionalArgument_spec h) (by wt) ?_
  rintro below s1 A l1 ⟨hb, _⟩
  refine A.bindMv (argument_spec A.pre) (by wt) ?_
  rintro a s2 A l2 ⟨h2, h3, h4, h5⟩
  have := a.size_w; have := a.size_pos
  refine A.push (by simp) (j' := 0) (fun _ => rfl) fun s3 A l3 c3 => ?_
  cases below with
  | none =>
    refine A.handle' hr (h2.congr c3) (by omega) (by omega) (by wt) fun s4 d1 A e1 w1 l4 => ?_
    refine A.done (d' := .ev (.script .sup .aboveBelow) :: ([.ev (relation c)] ++ d1)) (by simp) (by wt) (by omega)
      (Elem.script (Elems.two (Elem.ev (by trivial)) e1))
  | some g =>
    obtain ⟨hg, hg2, _⟩ := hb g rfl
    dsimp only
    refine A.push (mem_one hg none (by simp)) (j' := 0) (fun _ => rfl) fun s4 A l4 c4 => ?_
    refine A.handle' hr (h2.congr (c4.trans c3)) (by omega) (by omega) (by wt) fun s5 d2 A e2 w2 l5 => ?_
    refine A.done (d' := .ev (.script .subSup .aboveBelow) :: ([.ev (relation c)] ++
      ([.ev (.begin_ .normal), .sub g none, .ev .end_] ++ d2))) (by simp) (by wt) (by omega)
      (Elem.script (Elems.three (Elem.ev (by trivial)) elem_braces e2))

end PL
