import Verif.Props.Values
import Verif.Props.Defs
set_option autoImplicit false
/-!
# Horizontal lines recorded by commands (C44)
-/
namespace PL.Props
open PL PL.Lex Spec

/-- After a line break with spacing the event records the spacing and the lines. -/
theorem C44_newline_spacing (cf : Cfg) (rec : HTok → H PUnit) (st : HSt) (a : AlignCount) (ls : List Line) (g t r u : Str) (d : Dim)
    (ha : st.align = some a) (hh : st.harg = false) (hb : Bracketed st.content.cs g t) (hd : dimension g = .ok d u) (h : WordSeq lineWords t ls r) :
    execPrim cf rec .newline st = .ok ⟨⟩ { st with
      content := { st.content with cs := r }
      buf := st.buf ++ [.ev (.flow (.newLine (some d) ls))]
      align := some { a with count := 0 } } := by
  simp only [execPrim]
  rw [M.get_bind]
  obtain ⟨content, buf, am, pos, skip, harg, align, macros⟩ := st
  subst ha hh
  dsimp only at *
  rw [if_neg (by simp), M.set_bind]
  have ho : Lex.optionalArgument content.cs = .ok (some g) t := bracketed_iff.2 hb
  rw [M.bind_ok (a := some d) (s' := ⟨{ content with cs := t }, buf, am, pos, skip, false, some { a with count := 0 }, macros⟩)
    (by
      rw [M.bind_ok (m := H.optionalArgument) (a := some (content.part g 1 t))
        (s' := ⟨{ content with cs := t }, buf, am, pos, skip, false, some { a with count := 0 }, macros⟩)
        (by unfold H.optionalArgument; dsimp only; rw [ho]; rfl)]
      dsimp only
      rw [M.bind_ok (a := d) (s' := ⟨{ content with cs := t }, buf, am, pos, skip, false, some { a with count := 0 }, macros⟩)
        (by unfold H.onStr; rw [show (content.part g 1 t).cs = g from rfl, hd])]
      rfl)]
  rw [M.bind_ok (m := H.lexPure horizontalLines) (a := ls)
    (s' := ⟨{ content with cs := r }, buf, am, pos, skip, false, some { a with count := 0 }, macros⟩)
    (by unfold H.lexPure H.lex; dsimp only; rw [horizontalLines_of.2 h])]
  rfl

/-- After a line break without spacing the event records the lines. This includes a bracket that is never closed: it is dropped, perhaps with all the
text after it. -/
theorem C44_newline_plain (cf : Cfg) (rec : HTok → H PUnit) (st : HSt) (a : AlignCount) (ls : List Line) (t r : Str)
    (ha : st.align = some a) (hh : st.harg = false) (hb : NoOptional st.content.cs t) (h : WordSeq lineWords t ls r) :
    execPrim cf rec .newline st = .ok ⟨⟩ { st with
      content := { st.content with cs := r }
      buf := st.buf ++ [.ev (.flow (.newLine none ls))]
      align := some { a with count := 0 } } := by
  simp only [execPrim]
  rw [M.get_bind]
  obtain ⟨content, buf, am, pos, skip, harg, align, macros⟩ := st
  subst ha hh
  dsimp only at *
  rw [if_neg (by simp), M.set_bind]
  have ho : Lex.optionalArgument content.cs = .ok none t := noOptional_iff.2 hb
  rw [M.bind_ok (a := none) (s' := ⟨{ content with cs := t }, buf, am, pos, skip, false, some { a with count := 0 }, macros⟩)
    (by rw [M.bind_ok (m := H.optionalArgument) (a := none) (by unfold H.optionalArgument; dsimp only; rw [ho]; rfl)]; rfl)]
  rw [M.bind_ok (m := H.lexPure horizontalLines) (a := ls)
    (s' := ⟨{ content with cs := r }, buf, am, pos, skip, false, some { a with count := 0 }, macros⟩)
    (by unfold H.lexPure H.lex; dsimp only; rw [horizontalLines_of.2 h])]
  rfl

/-- At the start of an environment, after its name and arguments, the lines are recorded in one event, and no event is emitted when there are none.
`env` is what the name and the arguments select, and `s2` the state after reading them. The content is the text from there to the closing
command. -/
theorem C44_begin (cf : Cfg) (rec : HTok → H PUnit) (st s1 s2 : HSt) (name : Sl) (m : H Env) (env : Env) (ls : List Line) (r X v : Str)
    (hn : groupArg .argument st = .ok name s1) (hm : (environments cf).lookup name.cs = some m) (he : m s1 = .ok env s2)
    (h : WordSeq lineWords s2.content.cs ls r) (hs : Split env.kind.openingStr env.kind.closingStr 0 r X v) :
    ∃ x : Sl, x.cs = X ∧ execPrim cf rec .begin_ st = .ok ⟨⟩ { s2 with
      content := { s2.content with cs := v }
      buf := s2.buf ++ ((match env.wrap with | some (l, r) => [.ev (.begin_ (.leftRight (some l) (some r)))] | none => []) ++ .ev (.begin_ env.g) ::
        ((match env.style with | some s => [.ev (.stateChange (.style s))] | none => []) ++
        (if ls = [] then [] else [.ev (.flow (.startLines ls))]) ++ .sub x (some ⟨0, env.max⟩) :: .ev .end_ ::
        (if env.wrap.isSome then [.ev .end_] else []))) } := by
  refine ⟨s2.content.part X (blen env.kind.closingStr) v, rfl, ?_⟩
  simp only [execPrim]
  unfold beginEnv
  rw [M.bind_ok hn]
  dsimp only
  rw [hm]
  dsimp only
  rw [M.bind_ok he]
  have hl : ∀ b, H.lexPure horizontalLines { s2 with buf := b } = .ok ls { s2 with content := { s2.content with cs := r }, buf := b } := by
    intro b
    unfold H.lexPure H.lex
    dsimp only
    rw [horizontalLines_of.2 h]
  have hg : ∀ b, H.groupContent env.kind { s2 with content := { s2.content with cs := r }, buf := b } =
      .ok (s2.content.part X (blen env.kind.closingStr) v) { s2 with content := { s2.content with cs := v }, buf := b } := by
    intro b
    unfold H.groupContent
    dsimp only
    rw [groupContent_ok.2 hs]
    rfl
  cases hw : env.wrap with
  | none =>
    dsimp only
    rw [M.bind_ok (hl s2.buf), M.bind_ok (hg s2.buf)]
    cases env.style <;> cases ls <;> simp [H.push, M.modify]
  | some lr =>
    obtain ⟨l, r'⟩ := lr
    dsimp only
    rw [M.bind_ok (show H.ev (.begin_ (.leftRight (some l) (some r'))) s2 = .ok ⟨⟩ { s2 with buf := s2.buf ++ [.ev (.begin_ (.leftRight (some l) (some r')))] } from rfl),
      M.bind_ok (hl _), M.bind_ok (hg _)]
    cases env.style <;> cases ls <;> simp [H.push, M.modify]

/-- A line break before a bracket that is never closed loses the rest of the text. -/
example : NoOptional c!"[1em b" [] ∧ (run ⟨true, fun k => 1000000 * k⟩ 30 (State.init c!"\\substack{a\\\\[1em b}")).1 =
    [.ok (.begin_ (.subArray .center)), .ok (ordinary 'a'), .ok (.flow (.newLine none [])), .ok .end_] := by
  refine ⟨.lost (w := []) (fun _ h => by cases h) ?_, by decide +kernel⟩
  repeat first | exact .nil | refine .char (by decide) (by decide) (by decide) (by decide) ?_

/-- A case of it. -/
example : (run ⟨true, fun k => 1000000 * k⟩ 30 (State.init c!"\\begin{pmatrix}\\hline\\hdashline a\\\\[1em]\\hline b\\end{pmatrix}")).1 =
    [.ok (.begin_ (.leftRight (some '(') (some ')'))), .ok (.begin_ (.matrix .center)), .ok (.flow (.startLines [.solid, .dashed])), .ok (ordinary 'a'),
     .ok (.flow (.newLine (some ⟨⟨1, 1⟩, .em⟩) [.solid])), .ok (ordinary 'b'), .ok .end_, .ok .end_] := by decide +kernel

end PL.Props
