import Verif.Lemmas.Render.Loop
import Verif.Lemmas.Render.Peek
import Verif.Spec.Document
set_option autoImplicit false
/-! # What the renderer writes for contents, exactly -/
namespace PL.Mathml
open Spec

/-- The parameters of the document. -/
def printing (cfg : RCfg) : Printing :=
  ⟨true, cfg.block, shouldBeUpright cfg.isUpper cfg.style, fun f c => (f.mapChar c).getD c, dimStr cfg⟩

/-- The place of the next element. -/
def roleOf : List EnvR → Role
  | .script .subSup _ n _ :: _ => if n = 0 || n = 1 then .script else .base
  | .script _ _ n _ :: _ => if n = 0 then .script else .base
  | .visual .negation _ :: _ => .negated
  | .visual .squareRoot _ :: _ => .main
  | .visual _ n :: _ => if n = 0 then .aside else .main
  | _ => .free

theorem inScript_role (env : List EnvR) : inScriptOperand env = decide (roleOf env = .script) := by
  match env with
  | [] => rfl
  | .group g :: E => rfl
  | .visual v n :: E => cases v <;> simp only [inScriptOperand, roleOf] <;> (try split) <;> rfl
  | .script ty a n f :: E =>
    cases ty
    · simp only [inScriptOperand, roleOf]; split <;> simp_all
    · simp only [inScriptOperand, roleOf]; split <;> simp_all
    · simp only [inScriptOperand, roleOf]; split <;> simp_all

theorem prevOf_role (env : List EnvR) (pv : Option Atom) (a : Atom) : prevOf env pv a = (roleOf env).after pv a := by
  match env with
  | [] => rfl
  | .group g :: E => rfl
  | .visual v n :: E =>
    cases v <;> cases n <;> rfl
  | .script ty b n f :: E =>
    have : prevOf (.script ty b n f :: E) pv a = if inScriptOperand (.script ty b n f :: E) then pv else some a := rfl
    rw [this, inScript_role]
    cases ty <;> simp only [roleOf, Role.after] <;> split <;> simp_all [Role.silent]

theorem blocked_role (env : List EnvR) : binBlocked env = (roleOf env).operand := by
  match env with
  | [] => rfl
  | .group g :: E => rfl
  | .visual v n :: E => cases v <;> simp only [binBlocked, roleOf] <;> (try split) <;> rfl
  | .script ty b n f :: E => cases ty <;> simp only [binBlocked, roleOf] <;> split <;> rfl

theorem rgb_eq (c : Nat × Nat × Nat) : rgbStr c = rgb c := by
  simp [rgbStr, rgb, decStr, joined]

theorem colorAttr_eq (st : RState) : colorAttr st = (colourAttributes st).flatMap attr := by
  obtain ⟨f, t, b, g, s⟩ := st
  cases t <;> cases b <;> cases g <;> simp [colorAttr, colourAttributes, attr, joined, rgb_eq]

theorem styleAttr_eq (s : Style) : styleAttr s = (styleAttributes (some s)).flatMap attr := by
  cases s <;> rfl

theorem openTag_eq (st : RState) (env : List EnvR) (t : Str) (cl : Option Str) : openTagStr st env t cl =
    c!"<" ++ t ++ (lookAttributes (roleOf env) st ++ (cl.map fun c => (c!"class", c)).toList).flatMap attr := by
  have h0 : openTagStr st env t cl = c!"<" ++ t ++ (if roleOf env = .script then [] else styleAttributes st.style).flatMap attr ++
      colorAttr st ++ ((cl.map fun c => (c!"class", c)).toList).flatMap attr := by
    unfold openTagStr
    rw [inScript_role]
    cases st.style with
    | none => cases cl <;> by_cases hr : roleOf env = .script <;> simp [hr, attr, styleAttributes]
    | some s => cases cl <;> by_cases hr : roleOf env = .script <;> simp [hr, attr, styleAttr_eq]
  rw [h0, colorAttr_eq]
  simp [lookAttributes]

/-! ## Contents -/

theorem mapChar_eq (f : Font) (c : Char) : mapChar f c = Pure.pure ((f.mapChar c).getD c) := by
  obtain ⟨e, he⟩ := Props.C37_total f c
  rw [mapChar, he]; rfl

theorem isOrdLike_eq (p : Option Atom) : isOrdLike p = ordLike p := by
  cases p with
  | none => rfl
  | some a => cases a <;> rfl

section
variable (pk rt : List RItem) (o : Str) (env : List EnvR) (st : RState) (ss : List RState) (pv : Option Atom) (rc : Bool)

theorem wp_next_class {Q : Option Atom → RSt → Prop}
    (h : ∀ p r, p ++ r = pk ++ rt → Q (firstAtom (pk ++ rt)) ⟨p, r, o, none, env, ss, pv, rc⟩) :
    wp nextAtom Q ⟨pk, rt, o, none, env, ss, pv, rc⟩ := by
  obtain ⟨t, h1, p, r, rfl, h2⟩ := nextAtom_eq ⟨pk, rt, o, none, env, ss, pv, rc⟩
  exact ⟨_, _, h1, h _ _ h2⟩

theorem wp_apply {Q : PUnit → RSt → Prop}
    (h : ∀ p r, p ++ r = pk ++ rt → Q ⟨⟩ ⟨p, r, o ++ application (firstAtom (pk ++ rt)), none, env, ss, pv, rc⟩) :
    wp applyFunction Q ⟨pk, rt, o, none, env, ss, pv, rc⟩ := by
  rw [applyFunction, wp_bind]
  apply wp_next_class
  intro p r hp
  have h := h p r hp
  cases hf : firstAtom (pk ++ rt) with
  | none =>
    rw [hf] at h
    simp only [application, List.append_nil] at h
    exact (wp_pure _ _ _).2 h
  | some a =>
    rw [hf] at h
    show wp (do W.out c!"<mo>⁡</mo>"; if a = .open_ || a = .punct || a = .close then pure ⟨⟩ else W.out c!"<mspace width=\"0.1667em\" />") _ _
    rw [wp_bind, wp_out']
    cases a <;> (
      first
      | exact (wp_pure _ _ _).2 h
      | (refine (wp_out' _ _ _ _ _ _ _ _ _).2 ?_; simp only [List.append_assoc]; exact h))

theorem wp_forChars {Q : PUnit → RSt → Prop} {f : Char → W PUnit} {k : Char → Str}
    (hf : ∀ c o Q, wp (f c) Q ⟨pk, rt, o, none, env, ss, pv, rc⟩ ↔ Q ⟨⟩ ⟨pk, rt, o ++ k c, none, env, ss, pv, rc⟩) :
    ∀ (t : Str) (o : Str), wp (forChars f t) Q ⟨pk, rt, o, none, env, ss, pv, rc⟩ ↔
      Q ⟨⟩ ⟨pk, rt, o ++ t.flatMap k, none, env, ss, pv, rc⟩
  | [], o => by rw [forChars, wp_pure]; simp
  | c :: t, o => by
    rw [forChars, wp_bind, hf, wp_forChars hf t]
    simp

/-- Whether the operator is binary. -/
theorem wp_isBin {Q : Bool → RSt → Prop} (s : RSt) (hs1 : s.prev = pv) (hs2 : s.env = env)
    (h : ∀ p r, p ++ r = pk ++ rt → Q (actsBinary (roleOf env) pv (firstAtom (pk ++ rt))) ⟨p, r, o, none, env, ss, pv, rc⟩) :
    wp (if isOrdLike s.prev && !binBlocked s.env then do
        match ← nextAtom with
        | some .inner => return true
        | some .bin => return true
        | some .op => return true
        | some .ord => return true
        | some .open_ => return true
        | _ => return false
      else pure false : W Bool) Q ⟨pk, rt, o, none, env, ss, pv, rc⟩ := by
  subst hs1 hs2
  rw [isOrdLike_eq, blocked_role]
  unfold actsBinary at h
  cases hb : (ordLike s.prev && !(roleOf s.env).operand) with
  | false =>
    rw [hb] at h
    exact (wp_pure _ _ _).2 (h _ _ rfl)
  | true =>
    rw [hb] at h
    simp only [if_true]
    rw [wp_bind]
    apply wp_next_class
    intro p r hp
    have h := h p r hp
    cases hf : firstAtom (pk ++ rt) with
    | none => rw [hf] at h; exact (wp_pure _ _ _).2 h
    | some a => rw [hf] at h; cases a <;> exact (wp_pure _ _ _).2 h

/-- A function name among the operands of a script is remembered. -/
def markFn : Content → List EnvR → List EnvR
  | .function _, .script ty a n _ :: E => .script ty a n true :: E
  | _, env => env

theorem markFn_role (c : Content) (env : List EnvR) : roleOf (markFn c env) = roleOf env := by
  unfold markFn
  split
  · rename_i ty a n f E; cases ty <;> rfl
  · rfl

theorem scripted_role {env : List EnvR} (h : ∀ ty a n f E, env ≠ .script ty a n f :: E) : (roleOf env).scripted = false := by
  match env with
  | [] => rfl
  | .group g :: E => rfl
  | .visual v n :: E => cases v <;> simp only [roleOf] <;> (try split) <;> rfl
  | .script ty b n f :: E => exact absurd rfl (h _ _ _ _ _)

theorem scripted_role' (ty : ScriptType) (b : Bool) (n : Nat) (f : Bool) (E : List EnvR) :
    (roleOf (.script ty b n f :: E)).scripted = true := by
  cases ty <;> simp only [roleOf] <;> split <;> rfl

theorem escape_eq (c : Char) : escapeChar c = escaped c := by
  unfold escapeChar escaped
  split
  · rename_i h; subst h; rfl
  · split
    · rename_i h; subst h; rfl
    · split
      · rename_i h; subst h; rfl
      · split <;> first | contradiction | rfl

theorem space_head (t : Str) : (if (t.head?.map isWs).getD false then c!"&nbsp;" else []) = spaceAt t.head? := by
  cases t.head? <;> rfl

theorem space_last (t : Str) : (if (t.getLast?.map isWs).getD false then c!"&nbsp;" else []) = spaceAt t.getLast? := by
  cases t.getLast? <;> rfl

/-- A conditional write. -/
theorem wp_if_out {α : Type} {Q : α → RSt → Prop} (b : Bool) (t : Str) (k : W α) :
    wp (do
      if b then W.out t
      k) Q ⟨pk, rt, o, none, env, ss, pv, rc⟩ ↔
    wp k Q ⟨pk, rt, o ++ (if b then t else []), none, env, ss, pv, rc⟩ := by
  cases b with
  | false =>
    simp only [Bool.false_eq_true, if_false, List.append_nil]
  | true =>
    simp only [if_true]
    exact (wp_bind _ _ _ _).trans (wp_out' _ _ _ _ _ _ _ _ _)

/-- What is written for a content, exactly. -/
theorem wp_content {Q : PUnit → RSt → Prop} (cfg : RCfg) (neg : Bool) (c : Content)
    (h : ∀ p r, p ++ r = pk ++ rt → Q ⟨⟩ ⟨p, r, o ++ (printing cfg).content (roleOf env) st pv (firstAtom (pk ++ rt)) neg c, none,
      markFn c env, st :: ss, behind (roleOf env) pv (firstAtom (pk ++ rt)) c, rc⟩) :
    wp (writeContent cfg neg c) Q ⟨pk, rt, o, none, env, st :: ss, pv, rc⟩ := by
  have app : ∀ {a b : Str}, a = b → ∀ {e1 e2 : List EnvR}, e1 = e2 → ∀ {v1 v2 : Option Atom}, v1 = v2 → ∀ p r,
      Q ⟨⟩ ⟨p, r, b, none, e2, st :: ss, v2, rc⟩ → Q ⟨⟩ ⟨p, r, a, none, e1, st :: ss, v1, rc⟩ := by
    rintro a _ rfl e1 _ rfl v1 _ rfl p r h; exact h
  cases c with
  | text t =>
    unfold writeContent
    rw [wp_bind, wp_openTag, wp_bind, wp_out', wp_if_out, wp_bind, wp_state]
    have fin : ∀ u, u = (trimmed t).flatMap (fun c => escaped ((printing cfg).textual st.font c)) →
        wp (do
          if (t.getLast?.map isWs).getD false then W.out c!"&nbsp;"
          setPrev .ord
          W.out c!"</mtext>") Q ⟨pk, rt, o ++ openTagStr st env c!"mtext" none ++ c!">" ++
            (if (t.head?.map isWs).getD false then c!"&nbsp;" else []) ++ u, none, env, st :: ss, pv, rc⟩ := by
      rintro u rfl
      rw [wp_if_out, wp_bind, wp_setPrev, wp_out']
      refine app ?_ rfl (prevOf_role _ _ _) _ _ (h _ _ rfl)
      rw [openTag_eq, space_head, space_last]
      simp [Printing.content, tag]
    cases hf : st.font with
    | none =>
      dsimp only
      rw [wp_bind, wp_out']
      refine fin _ ?_
      rw [hf]
      have : escapeChar = fun c => escaped c := funext escape_eq
      rw [escape, this]; rfl
    | some f =>
      dsimp only
      rw [wp_bind, wp_forChars (k := fun c => escaped ((f.mapChar c).getD c)) pk rt env (st :: ss) pv rc]
      · refine fin _ ?_
        rw [hf]; rfl
      · intro c o Q
        rw [mapChar_eq, wp_bind, wp_pure, wp_out', escape_eq]
  | number t =>
    unfold writeContent
    rw [wp_bind, wp_openTag, wp_bind, wp_out', wp_bind,
      wp_forChars (k := fun c => [(printing cfg).digit st.font c]) pk rt env (st :: ss) pv rc]
    · rw [wp_bind, wp_setPrev, wp_out']
      refine app ?_ rfl (prevOf_role _ _ _) _ _ (h _ _ rfl)
      rw [openTag_eq]
      have : ∀ (t : Str) (f : Char → Char), t.flatMap (fun c => [f c]) = t.map f := by
        intro t f
        induction t with
        | nil => rfl
        | cons c t ih => rw [List.flatMap_cons, ih]; rfl
      rw [this]
      simp [Printing.content, tag]
    · intro c o Q
      rw [wp_bind, wp_state]
      cases hf : st.font with
      | none => exact wp_out' _ _ _ _ _ _ _ _ _
      | some f => cases f <;> (dsimp only; rw [mapChar_eq, wp_bind, wp_pure, wp_out']; rfl)
  | function t =>
    unfold writeContent
    rw [wp_bind, wp_get, wp_if_out]
    simp only [wp_bind, wp_openTag, wp_out', wp_setPrev, wp_get]
    have fin : ∀ p r, p ++ r = pk ++ rt → Q ⟨⟩ ⟨p, r, o ++ (if isOrdLike pv then c!"<mspace width=\"0.1667em\" />" else []) ++
        openTagStr st env c!"mi" none ++ (if t.length = 1 then c!" mathvariant=\"normal\">" else c!">") ++ t ++ c!"</mi>" ++
        (if (roleOf env).scripted then [] else application (firstAtom (pk ++ rt))), none, markFn (.function t) env, st :: ss,
        prevOf env pv .op, rc⟩ := by
      intro p r hp
      refine app ?_ rfl (prevOf_role _ _ _) _ _ (h _ _ hp)
      rw [openTag_eq, isOrdLike_eq]
      have e : (if t.length = 1 then c!" mathvariant=\"normal\">" else c!">") =
          (if t.length = 1 then [(c!"mathvariant", c!"normal")] else []).flatMap attr ++ c!">" := by split <;> rfl
      rw [e]
      have e2 : (c!"<mspace width=\"0.1667em\" />" : Str) = thinSpace := rfl
      rw [e2]
      simp [Printing.content, tag]
    split
    · rename_i ty a n f E
      rw [wp_modify]
      have := fin _ _ rfl
      rw [scripted_role'] at this
      simp only [if_true, List.append_nil] at this
      exact this
    · rename_i hne
      apply wp_apply
      intro p r hp
      have := fin p r hp
      rw [scripted_role (fun ty a n f E he => hne _ _ _ _ _ he)] at this
      simp only [Bool.false_eq_true, if_false] at this
      have e : markFn (.function t) env = env := by
        unfold markFn
        split
        · exact absurd rfl (hne _ _ _ _ _)
        · rfl
      rw [e] at this
      exact this
  | ordinary c stretchy =>
    unfold writeContent
    cases stretchy with
    | true =>
      simp only [if_true]
      rw [wp_bind, wp_out', wp_bind, wp_out', wp_out']
      refine app ?_ rfl rfl _ _ (h _ _ rfl)
      simp [Printing.content, tag, attr]
    | false =>
      simp only [Bool.false_eq_true, if_false]
      rw [wp_bind, wp_openTag]
      simp only [wp_bind, wp_state]
      have fin : ∀ u, u = (if ((printing cfg).letter st.font c).2 then [(c!"mathvariant", c!"normal")] else []).flatMap attr ++ c!">" ++
          [((printing cfg).letter st.font c).1] →
          wp (do
            W.out (stroke neg)
            setPrev .ord
            W.out c!"</mi>") Q ⟨pk, rt, o ++ openTagStr st env c!"mi" none ++ u, none, env, st :: ss, pv, rc⟩ := by
        rintro u rfl
        rw [wp_bind, wp_out', wp_bind, wp_setPrev, wp_out']
        refine app ?_ rfl (prevOf_role _ _ _) _ _ (h _ _ rfl)
        rw [openTag_eq]
        simp [Printing.content, tag, stroke]
      have upE : (printing cfg).upright c = shouldBeUpright cfg.isUpper cfg.style c := rfl
      cases hf : st.font with
      | none =>
        have hl : (printing cfg).letter st.font c = (c, shouldBeUpright cfg.isUpper cfg.style c) := by rw [hf]; rfl
        dsimp only
        cases hu : shouldBeUpright cfg.isUpper cfg.style c with
        | true =>
          simp only [if_true]
          simp only [wp_bind, wp_out', List.append_assoc]
          have := fin (c!" mathvariant=\"normal\">" ++ [c]) (by rw [hl, hu]; rfl)
          simpa only [wp_bind, wp_out', List.append_assoc] using this
        | false =>
          simp only [Bool.false_eq_true, if_false]
          simp only [wp_bind, wp_out', List.append_assoc]
          have := fin (c!">" ++ [c]) (by rw [hl, hu]; rfl)
          simpa only [wp_bind, wp_out', List.append_assoc] using this
      | some f =>
        by_cases hup : f = .upRight
        · subst hup
          have hl : (printing cfg).letter st.font c = (c, true) := by rw [hf]; rfl
          simp only [wp_bind, wp_out', List.append_assoc]
          have := fin (c!" mathvariant=\"normal\">" ++ [c]) (by rw [hl]; rfl)
          simpa only [wp_bind, wp_out', List.append_assoc] using this
        · have hl : (printing cfg).letter st.font c = ((((if f = .boldSymbol then
              (if shouldBeUpright cfg.isUpper cfg.style c then .bold else .boldItalic) else f) : Font).mapChar c).getD c, false) := by
            rw [hf]
            cases f <;> first | exact absurd rfl hup | rfl
          have := fin (c!">" ++ [(((if f = .boldSymbol then
              (if shouldBeUpright cfg.isUpper cfg.style c then .bold else .boldItalic) else f) : Font).mapChar c).getD c]) (by rw [hl]; rfl)
          cases f <;> first
            | exact absurd rfl hup
            | (simp only [mapChar_eq, wp_bind, wp_out', wp_pure, List.append_assoc]
               simpa only [wp_bind, wp_out', List.append_assoc] using this)
  | binaryOp c small =>
    unfold writeContent
    rw [wp_bind, wp_get, wp_bind]
    refine wp_isBin pk rt o env _ pv rc _ rfl rfl fun p r hp => ?_
    simp only [wp_bind, wp_setPrev, wp_openTag, wp_out']
    refine app ?_ rfl ?_ _ _ (h _ _ hp)
    · rw [openTag_eq]
      cases small <;> simp [Printing.content, tag, stroke, classes, joined]
    · rw [prevOf_role]
      show _ = (roleOf env).after pv _
      cases actsBinary (roleOf env) pv (firstAtom (pk ++ rt)) <;> rfl
  | relation c second small =>
    unfold writeContent
    simp only [wp_bind, wp_setPrev, wp_openTag, wp_out']
    refine app ?_ rfl (prevOf_role _ _ _) _ _ (h _ _ rfl)
    rw [openTag_eq]
    cases small <;> simp [Printing.content, tag, stroke, classes, joined]
  | largeOp c small =>
    unfold writeContent
    rw [wp_bind, wp_openTag, wp_if_out]
    simp only [wp_bind, wp_setPrev, wp_out']
    refine app ?_ rfl (prevOf_role _ _ _) _ _ (h _ _ rfl)
    rw [openTag_eq]
    cases small <;> simp [Printing.content, tag, stroke, attr]
  | delimiter c size ty =>
    unfold writeContent
    cases size with
    | some z =>
      have e : c!"minsize=\"" ++ emStr z ++ c!"em\" maxsize=\"" ++ emStr z ++ c!"em\"" = ((sizeAttributes z).flatMap attr).tail := by
        cases z <;> rfl
      simp only [e, wp_bind, wp_setPrev, wp_openTag, wp_out', Option.isSome_some, Bool.or_true, if_true]
      refine app ?_ rfl ?_ _ _ (h _ _ rfl)
      · rw [openTag_eq]
        simp only [Printing.content, printing, if_true, List.flatMap_append, List.append_assoc, stroke]
        rfl
      · cases ty <;> exact prevOf_role _ _ _
    | none =>
      cases ty <;> (
        simp only [wp_bind, wp_setPrev, wp_openTag, wp_out', Option.isSome_none, Bool.or_false, decide_true, decide_false, if_true, if_false,
          Bool.false_eq_true, reduceCtorEq]
        refine app ?_ rfl (prevOf_role _ _ _) _ _ (h _ _ rfl)
        rw [openTag_eq]
        simp [Printing.content, tag, stroke, attr])
  | punctuation c =>
    unfold writeContent
    simp only [wp_bind, wp_setPrev, wp_openTag, wp_out']
    refine app ?_ rfl (prevOf_role _ _ _) _ _ (h _ _ rfl)
    rw [openTag_eq]
    simp [Printing.content, tag, stroke]

end
end PL.Mathml
