import Verif.Lemmas.Render.ExactTable
import Verif.Lemmas.Render.Sim
set_option autoImplicit false
/-! # What the renderer writes for trees, exactly -/
namespace PL.Mathml
open Spec

/-! ## What comes next -/

theorem firstAtom_cons (i : RItem) (q : List RItem) : firstAtom (i :: q) = match atomOf i with
    | none => firstAtom q
    | some r => r := rfl

mutual
theorem Node.first_eq : ∀ (n : Node) (q : List RItem), firstAtom (n.events.map .ok ++ q) = (n.first <|> firstAtom q)
  | .content c, q => by
    rw [Node.events, Node.first]
    cases c with
    | delimiter c z ty => cases ty <;> rfl
    | _ => rfl
  | .space w h d, q => by rw [Node.events, Node.first]; rfl
  | .change sc, q => by rw [Node.events, Node.first]; rfl
  | .group none cs b, q => by rw [Node.events, Node.first]; rfl
  | .group (some (l, r)) cs b, q => by rw [Node.events, Node.first]; rfl
  | .table g none rows, q => by rw [Node.events, Node.first]; rfl
  | .table g (some ls) rows, q => by rw [Node.events, Node.first]; rfl
  | .script ty p ops, q => by
    rw [Node.events, Node.first]
    exact Nodes.first_eq ops q
  | .visual .negation ops, q => by
    rw [Node.events, Node.first]
    exact Nodes.first_eq ops q
  | .visual .root ops, q => by rw [Node.events, Node.first] <;> first | rfl | (intro h; cases h)
  | .visual .squareRoot ops, q => by rw [Node.events, Node.first] <;> first | rfl | (intro h; cases h)
  | .visual (.fraction x) ops, q => by rw [Node.events, Node.first] <;> first | rfl | (intro h; cases h)
theorem Nodes.first_eq : ∀ (ns : Nodes) (q : List RItem), firstAtom (ns.events.map .ok ++ q) = (ns.first none <|> firstAtom q)
  | .nil, q => by rw [Nodes.events, Nodes.first]; rfl
  | .cons n ns, q => by
    rw [Nodes.events, Nodes.first, List.map_append, List.append_assoc, Node.first_eq n, Nodes.first_eq ns]
    cases n.first <;> rfl
end

theorem Nodes.first_next : ∀ (ns : Nodes) (x : Option Atom), ns.first x = (ns.first none <|> x)
  | .nil, x => by rw [Nodes.first, Nodes.first]; rfl
  | .cons n ns, x => by
    rw [Nodes.first, Nodes.first, Nodes.first_next ns x]
    cases n.first <;> rfl

theorem first_of (ns : Nodes) (q : List RItem) : firstAtom (ns.events.map .ok ++ q) = ns.first (firstAtom q) := by
  rw [Nodes.first_eq, ← Nodes.first_next]

/-! ## Pieces -/

theorem applyChange_eq (sc : StateChange) (st : RState) : applyChange sc st = changed st sc := by
  cases sc with
  | color c t => cases t <;> rfl
  | _ => rfl

/-- The function flag of the script that the node is an operand of. -/
def mark : Node → List EnvR → List EnvR
  | .content c, env => markFn c env
  | _, env => env

def isFunction : Node → Bool
  | .content (.function _) => true
  | _ => false

theorem mark_fr (n : Node) (op : Op) (m : Nat) (f : Bool) (E : List EnvR) :
    mark n (op.fr m f :: E) = op.fr m (f || isFunction n) :: E := by
  cases n with
  | content c => cases c <;> cases op <;> simp [mark, markFn, isFunction, Op.fr]
  | _ => simp [mark, isFunction]

theorem function_cons (n : Node) (ns : Nodes) : (Nodes.cons n ns).function = (isFunction n || ns.function) := by
  cases n with
  | content c => cases c <;> simp [Nodes.function, isFunction]
  | _ => simp [Nodes.function, isFunction]

theorem mark_flat (n : Node) {env : List EnvR} (he : env = [] ∨ ∃ g E, env = .group g :: E) : mark n env = env := by
  rcases he with rfl | ⟨g, E, rfl⟩
  · cases n with
    | content c => cases c <;> rfl
    | _ => rfl
  · cases n with
    | content c => cases c <;> rfl
    | _ => rfl

theorem role_flat {env : List EnvR} (he : env = [] ∨ ∃ g E, env = .group g :: E) : roleOf env = .free := by
  rcases he with rfl | ⟨g, E, rfl⟩ <;> rfl

/-- The roles of the last `n + 1` operands. -/
def Op.roles (op : Op) : Nat → List Role
  | 0 => [roleOf [op.fr 0 false]]
  | n + 1 => roleOf [op.fr (n + 1) false] :: op.roles n

theorem role_fr (op : Op) (n : Nat) (f : Bool) (E : List EnvR) : roleOf (op.fr n f :: E) = roleOf [op.fr n false] := by
  cases op with
  | visual v => cases v <;> rfl
  | script ty a => cases ty <;> rfl

theorem Op.roles_head (op : Op) (n : Nat) (f : Bool) (E : List EnvR) : (op.roles n).headD .free = roleOf (op.fr n f :: E) := by
  rw [role_fr]; cases n <;> rfl

/-- The number of operands is counted down in the stack. -/
def Op.script? : Op → Bool
  | .visual _ => false
  | .script _ _ => true

section
variable {cfg : RCfg} {L : RSt → Prop}
variable {pk rt : List RItem} {o : Str} {env : List EnvR} {st : RState} {ss : List RState} {pv : Option Atom} {rc : Bool}

/-- The end of a script or visual. -/
theorem WC.close_eq {op : Op} {f : Bool} {E : List EnvR}
    (h : ∀ p r, p ++ r = pk ++ rt → WC L ⟨p, r, o ++ (closeTag op.tag ++ (if op.script? && f then application (firstAtom (pk ++ rt)) else [])),
      none, E, ss, (roleOf [op.fr 0 false]).after pv .inner, rc⟩) :
    WC L ⟨pk, rt, o, none, op.fr 0 f :: E, ss, pv, rc⟩ := by
  cases op with
  | visual v =>
    simp only [WC, Op.fr, closeLoop]
    rw [if_neg (by omega)]
    simp only [wp_bind, wp_out', wp_setPrev, wp_modify]
    have := h pk rt rfl
    simp only [Op.script?, Bool.false_and, Bool.false_eq_true, if_false, List.append_nil] at this
    rw [← role_fr (.visual v) 0 f E, ← prevOf_role] at this
    exact this
  | script ty a =>
    simp only [WC, Op.fr, closeLoop]
    rw [if_neg (by omega)]
    simp only [wp_bind, wp_out', wp_setPrev, wp_modify]
    cases f with
    | false =>
      have := h pk rt rfl
      simp only [Bool.and_false, Bool.false_eq_true, if_false, List.append_nil] at this ⊢
      rw [← role_fr (.script ty a) 0 false E, ← prevOf_role] at this
      exact this
    | true =>
      simp only [if_true, wp_bind]
      apply wp_apply
      intro p r hp
      have := h p r hp
      rw [← List.append_assoc, ← role_fr (.script ty a) 0 true E, ← prevOf_role] at this
      exact wp_mono this fun _ s' ⟨h1, h2⟩ => ⟨by rw [qlen_of hp] at h1; exact h1, h2⟩

/-- Rendering a node writes its markup. -/
def NodeX (cfg : RCfg) (n : Node) : Prop := ∀ (L : RSt → Prop) [Goes cfg L] q pk rt o env st ss pv rc,
  pk ++ rt = n.events.map .ok ++ q →
  (∀ p r c, p ++ r = q → WC L ⟨p, r, o ++ (n.markup (printing cfg) (roleOf env) st pv (firstAtom q)).text, none, mark n env,
    (n.markup (printing cfg) (roleOf env) st pv (firstAtom q)).st :: ss,
    (n.markup (printing cfg) (roleOf env) st pv (firstAtom q)).prev, c⟩) →
  L ⟨pk, rt, o, none, env, st :: ss, pv, rc⟩

/-- Rendering operands writes their markup. -/
def OpsX (cfg : RCfg) (ns : Nodes) : Prop := ∀ (L : RSt → Prop) [Goes cfg L] (op : Op) n f E q pk rt o st ss pv rc,
  ns.length = n + 1 → pk ++ rt = ns.events.map .ok ++ q →
  (∀ p r c, p ++ r = q → WC L ⟨p, r, o ++ (ns.markup (printing cfg) (op.roles n) st pv (firstAtom q)).text, none,
    op.fr 0 (f || ns.function) :: E, (ns.markup (printing cfg) (op.roles n) st pv (firstAtom q)).st :: ss,
    (ns.markup (printing cfg) (op.roles n) st pv (firstAtom q)).prev, c⟩) →
  L ⟨pk, rt, o, none, op.fr n f :: E, st :: ss, pv, rc⟩

/-- Rendering the inside of a group writes its markup. -/
def BodyX (cfg : RCfg) (ns : Nodes) : Prop := ∀ (L : RSt → Prop) [Goes cfg L] q pk rt o env st ss pv rc,
  (env = [] ∨ ∃ g E, env = .group g :: E) → pk ++ rt = ns.events.map .ok ++ q →
  (∀ p r c, p ++ r = q → L ⟨p, r, o ++ (ns.markup (printing cfg) [] st pv (firstAtom q)).text, none, env,
    (ns.markup (printing cfg) [] st pv (firstAtom q)).st :: ss,
    (ns.markup (printing cfg) [] st pv (firstAtom q)).prev, c⟩) →
  L ⟨pk, rt, o, none, env, st :: ss, pv, rc⟩

theorem nodeX_content {c : Content} : NodeX cfg (.content c) := by
  intro L _ q pk rt o env st ss pv rc hq h
  rw [Node.events] at hq
  refine WL.step hq fun p r hp => ?_
  show wp (writeContent cfg false c) _ _
  refine wp_content _ _ _ _ _ _ _ _ cfg false c fun p' r' hp' => ?_
  rw [hp] at hp'
  have := h p' r' rc hp'
  rw [Node.markup] at this
  refine ⟨len_of hp', ?_⟩
  rw [hp]
  exact this

theorem nodeX_change (sc : StateChange) : NodeX cfg (.change sc) := by
  intro L _ q pk rt o env st ss pv rc hq h
  rw [Node.events] at hq
  refine WL.step hq fun p r hp => ?_
  show wp (handleStateChange sc) _ _
  rw [handleStateChange, wp_updState, applyChange_eq]
  have := h p r rc hp
  rw [Node.markup] at this
  simp only [List.append_nil] at this
  exact ⟨len_of hp, this⟩

theorem nodeX_space {w h' x : Option Dim} : NodeX cfg (.space w h' x) := by
  intro L _ q pk rt o env st ss pv rc hq h
  rw [Node.events] at hq
  refine WL.step hq fun p r hp => ?_
  show wp (writeSpace cfg w h' x) _ _
  have fin : ∀ t, t = o ++ (printing cfg).space w h' x →
      qlen ⟨p, r, t, none, env, st :: ss, pv, rc⟩ ≤ q.length ∧ WC L ⟨p, r, t, none, env, st :: ss, pv, rc⟩ := by
    rintro t rfl
    have := h p r rc hp
    rw [Node.markup] at this
    exact ⟨len_of hp, this⟩
  unfold writeSpace
  cases w with
  | none => cases h' <;> cases x <;> dsimp only <;> wps <;> refine fin _ ?_ <;> simp [Printing.space, attr, printing]
  | some w =>
  dsimp only
  rw [wp_bind, wp_out']
  by_cases hn : w.value.num < 0
  · rw [if_pos hn]
    cases h' <;> cases x <;> dsimp only <;> wps <;> refine fin _ ?_ <;>
      simp [Printing.space, void, hn, attr, printing]
  · rw [if_neg hn]
    cases h' <;> cases x <;> dsimp only <;> wps <;> refine fin _ ?_ <;>
      simp [Printing.space, void, hn, attr, printing]

theorem bodyX_nil : BodyX cfg .nil := by
  intro L _ q pk rt o env st ss pv rc he hq h
  rw [Nodes.events] at hq
  have := h _ _ rc hq
  rw [Nodes.markup] at this
  simpa using this

theorem bodyX_cons {n : Node} {ns : Nodes} (h1 : NodeX cfg n) (h2 : BodyX cfg ns) : BodyX cfg (.cons n ns) := by
  intro L _ q pk rt o env st ss pv rc he hq h
  rw [Nodes.events, List.map_append, List.append_assoc] at hq
  refine h1 L _ _ _ _ _ _ _ _ _ hq fun p r rc hp => ?_
  rw [mark_flat n he, first_of, role_flat he]
  refine WC.flat he (h2 L q _ _ _ _ _ _ _ _ he hp fun p r rc hp => ?_)
  have := h p r rc hp
  rw [Nodes.markup] at this
  rw [List.append_assoc]
  exact this

theorem opsX_cons {n : Node} {ns : Nodes} (h1 : NodeX cfg n) (h2 : OpsX cfg ns) : OpsX cfg (.cons n ns) := by
  intro L _ op m f E q pk rt o st ss pv rc hl hq h
  rw [Nodes.events, List.map_append, List.append_assoc] at hq
  refine h1 L _ _ _ _ _ _ _ _ _ hq fun p r rc hp => ?_
  rw [mark_fr, first_of, ← op.roles_head]
  rw [function_cons] at h
  simp only [Nodes.markup, ← Bool.or_assoc] at h
  cases m with
  | zero =>
    cases ns with
    | cons _ _ => simp [Nodes.length] at hl
    | nil =>
      rw [Nodes.events] at hp
      have := h p r rc hp
      simp only [Nodes.markup, List.append_nil, Nodes.function, Bool.or_false] at this
      exact this
  | succ m =>
    refine WC.count (h2 L op m _ E q _ _ _ _ _ _ _ (by rw [Nodes.length] at hl; omega) hp fun p r rc hp => ?_)
    have := h p r rc hp
    rw [List.append_assoc]
    exact this

theorem opsX_nil : OpsX cfg .nil := by
  intro L _ op m f E q pk rt o st ss pv rc hl
  rw [Nodes.length] at hl
  omega

/-- From the point where a script or visual has been put on the stack. -/
theorem opX {op : Op} {ns : Nodes} {n : Nat} (hn : ns.length = n + 1) (ho : OpsX cfg ns) [Goes cfg L] {q : List RItem} {E : List EnvR}
    (hq : pk ++ rt = ns.events.map .ok ++ q)
    (h : ∀ p r c, p ++ r = q → WC L ⟨p, r, o ++ (ns.markup (printing cfg) (op.roles n) st pv (firstAtom q)).text ++ (closeTag op.tag ++
      (if op.script? && ns.function then application (firstAtom q) else [])), none, E,
      (ns.markup (printing cfg) (op.roles n) st pv (firstAtom q)).st :: ss,
      (roleOf [op.fr 0 false]).after (ns.markup (printing cfg) (op.roles n) st pv (firstAtom q)).prev .inner, c⟩) :
    WC L ⟨pk, rt, o, none, op.fr (n + 1) false :: E, st :: ss, pv, rc⟩ := by
  refine WC.count (ho L op n false E q _ _ _ _ _ _ _ hn hq fun p r rc hp => ?_)
  rw [Bool.false_or]
  refine WC.close_eq fun p' r' hp' => ?_
  rw [hp] at hp' ⊢
  exact h p' r' rc hp'

theorem scriptTag_eq (ty : ScriptType) (a : Bool) : scriptTag ty a = scriptElement ty a := by
  cases ty <;> cases a <;> rfl

theorem visualTag_eq (v : Visual) : visualTag v = visualElement v := by cases v <;> rfl

theorem roles_script (ty : ScriptType) (a : Bool) {n : Nat} (hn : scriptOperands ty = n + 1) :
    (Op.script ty a).roles n = scriptRoles ty := by
  cases ty <;> cases hn <;> rfl

theorem roles_visual (v : Visual) {n : Nat} (hn : visualOperands v = n + 1) : (Op.visual v).roles n = visualRoles v := by
  cases v <;> cases hn <;> rfl

theorem free_script (ty : ScriptType) (a : Bool) (E : List EnvR) : lookAttributes (roleOf (.script ty a (ScriptType.arity ty) false :: E)) st =
    lookAttributes .free st := by
  cases ty <;> rfl

theorem wp_writeScript {Q : PUnit → RSt → Prop} (ty : ScriptType) (pos : ScriptPos)
    (h : Q ⟨⟩ ⟨pk, rt, o ++ (c!"<" ++ scriptTag ty ((printing cfg).above st pos) ++ (lookAttributes .free st).flatMap attr) ++ c!">", none,
      .script ty ((printing cfg).above st pos) (ScriptType.arity ty) false :: env, st :: ss, pv, rc⟩) :
    wp (writeScript cfg ty pos) Q ⟨pk, rt, o, none, env, st :: ss, pv, rc⟩ := by
  unfold writeScript
  cases pos with
  | movable =>
    have e : (decide (st.style = some .display) || (st.style.isNone && cfg.block)) = (printing cfg).above st .movable := by
      simp only [Printing.above]
      cases st.style with
      | none => simp [printing]
      | some s => cases s <;> simp
    simp only [wp_bind, wp_state, wp_modify, wp_openTag, wp_out', openTag_eq, free_script, Option.map_none, Option.toList_none, List.append_nil]
    rw [e]
    exact h
  | right =>
    simp only [wp_bind, wp_state, wp_modify, wp_openTag, wp_out', openTag_eq, free_script, Option.map_none, Option.toList_none, List.append_nil]
    exact h
  | aboveBelow =>
    simp only [wp_bind, wp_state, wp_modify, wp_openTag, wp_out', openTag_eq, free_script, Option.map_none, Option.toList_none, List.append_nil]
    exact h

theorem nodeX_script {ty : ScriptType} {pos : ScriptPos} {ops : Nodes} (hl : ops.length = scriptOperands ty) (ho : OpsX cfg ops) :
    NodeX cfg (.script ty pos ops) := by
  intro L _ q pk rt o env st ss pv rc hq h
  rw [Node.events] at hq
  refine WL.step hq fun p r hp => ?_
  show wp (writeScript cfg ty pos) _ _
  apply wp_writeScript
  obtain ⟨n, hn⟩ : ∃ n, scriptOperands ty = n + 1 := by cases ty <;> exact ⟨_, rfl⟩
  have har : ScriptType.arity ty = n + 1 := by rw [← hn]; cases ty <;> rfl
  refine ⟨Nat.le_of_eq (by simp only [qlen, hp]), ?_⟩
  rw [har]
  refine opX (op := .script ty ((printing cfg).above st pos)) (hl.trans hn) ho hp fun p r rc hp => ?_
  have := h p r rc hp
  rw [Node.markup] at this
  rw [roles_script ty _ hn]
  have hr : ∀ x y, (roleOf [(Op.script ty ((printing cfg).above st pos)).fr 0 false]).after x y = x := by
    intro x y; cases ty <;> rfl
  rw [hr]
  have e : ∀ (t : Str) (u : Str), o ++ (c!"<" ++ scriptTag ty ((printing cfg).above st pos) ++
      (lookAttributes .free st).flatMap attr) ++ c!">" ++ t ++
      (closeTag (Op.script ty ((printing cfg).above st pos)).tag ++ u) =
      o ++ (tag (scriptElement ty ((printing cfg).above st pos)) (lookAttributes .free st) t ++ u) := by
    intro t u
    simp [tag, closeTag, Op.tag, scriptTag_eq]
  rw [e]
  exact this

theorem negatable_eq (c : Content) : negatable c = strokable c := by cases c <;> rfl

theorem stroked_none {ops : Nodes} {c : Content} {q q' : List RItem} (hl : ops.length = 1) (hs : ops.stroked = none)
    (h : (ops.events.map RItem.ok ++ q) = .ok (.content c) :: q') : negatable c = false := by
  cases ops with
  | nil => cases hl
  | cons n ns =>
    cases ns with
    | cons _ _ => simp [Nodes.length] at hl
    | nil =>
      rw [Nodes.events, Nodes.events] at h
      cases n with
      | content c' =>
        rw [Node.events] at h
        cases h
        rw [Nodes.stroked] at hs
        rw [negatable_eq]
        cases hc : strokable c with
        | false => rfl
        | true => rw [hc] at hs; cases hs
      | group d cs b => rcases d with _ | ⟨l, r⟩ <;> rw [Node.events] at h <;> cases h
      | table g ls rows => cases ls <;> rw [Node.events] at h <;> cases h
      | _ => rw [Node.events] at h; cases h

theorem markup_negation {P : Printing} {r : Role} {pv next : Option Atom} {ops : Nodes} (h : ops.stroked = none) :
    Node.markup P r st pv next (.visual .negation ops) = ⟨tag c!"mrow" (lookAttributes r st ++ classes [c!"mop-negated"])
      (ops.markup P [.negated] st pv next).text, (ops.markup P [.negated] st pv next).st, some .inner⟩ := by
  exact Node.markup.eq_8 _ _ _ _ _ _ (by intro c _ hc; rw [h] at hc; cases hc)

/-- The attributes of a fraction or root. -/
def visualAttributes (P : Printing) (st : RState) : Visual → List (Str × Str)
  | .fraction (some d) => lookAttributes .free st ++ [(c!"linethickness", P.shown d)]
  | _ => lookAttributes .free st

theorem markup_visual {P : Printing} {r : Role} {pv next : Option Atom} {v : Visual} {ops : Nodes} (h : v ≠ .negation) :
    Node.markup P r st pv next (.visual v ops) = ⟨tag (visualElement v) (visualAttributes P st v)
      (ops.markup P (visualRoles v) st pv next).text, (ops.markup P (visualRoles v) st pv next).st,
      (roleOf [(Op.visual v).fr 0 false]).after (ops.markup P (visualRoles v) st pv next).prev .inner⟩ := by
  cases v with
  | negation => exact absurd rfl h
  | fraction x => cases x <;> (rw [Node.markup] <;> first | rfl | (intros; contradiction) | (intro d hd; cases hd))
  | _ => rw [Node.markup] <;> first | rfl | (intros; contradiction)

theorem markup_stroked {P : Printing} {r : Role} {pv next : Option Atom} {ops : Nodes} {c : Content} (h : ops.stroked = some c) :
    Node.markup P r st pv next (.visual .negation ops) = ⟨P.content r st pv (if P.flawed then some (ahead c) else next) true c, st, behind r pv (if P.flawed then some (ahead c) else next) c⟩ :=
  Node.markup.eq_7 _ _ _ _ _ _ _ h

theorem nodeX_visual {v : Visual} {ops : Nodes} (hl : ops.length = visualOperands v) (ho : OpsX cfg ops) :
    NodeX cfg (.visual v ops) := by
  intro L _ q pk rt o env st ss pv rc hq h
  rw [Node.events] at hq
  refine WL.step hq fun p r hp => ?_
  show wp (writeVisual cfg v) _ _
  unfold writeVisual
  obtain ⟨n, hn⟩ : ∃ n, visualOperands v = n + 1 := by cases v <;> exact ⟨_, rfl⟩
  have har : Visual.arity v = n + 1 := by rw [← hn]; cases v <;> rfl
  -- with an element of its own
  have gen : ∀ (as : List (Str × Str)) (p r : List RItem) (env' : List EnvR) (t : Str), p ++ r = ops.events.map .ok ++ q →
      t = o ++ (c!"<" ++ visualElement v ++ as.flatMap attr ++ c!">") → env' = .visual v (Visual.arity v) :: env →
      (∀ T s' p', Node.markup (printing cfg) (roleOf env) st pv (firstAtom q) (.visual v ops) = ⟨T, s', p'⟩ →
        T = tag (visualElement v) as (ops.markup (printing cfg) (visualRoles v) st pv (firstAtom q)).text ∧
        s' = (ops.markup (printing cfg) (visualRoles v) st pv (firstAtom q)).st ∧
        p' = (roleOf [(Op.visual v).fr 0 false]).after (ops.markup (printing cfg) (visualRoles v) st pv (firstAtom q)).prev .inner) →
      qlen ⟨p, r, t, none, env', st :: ss, pv, rc⟩ ≤ (ops.events.map RItem.ok ++ q).length ∧
      WC L ⟨p, r, t, none, env', st :: ss, pv, rc⟩ := by
    rintro as p r _ _ hp rfl rfl hm
    refine ⟨len_of hp, ?_⟩
    rw [har]
    refine opX (op := .visual v) (hl.trans hn) ho hp fun p r rc hp => ?_
    have := h p r rc hp
    obtain ⟨h1, h2, h3⟩ := hm (Node.markup (printing cfg) (roleOf env) st pv (firstAtom q) (.visual v ops)).text
      (Node.markup (printing cfg) (roleOf env) st pv (firstAtom q) (.visual v ops)).st
      (Node.markup (printing cfg) (roleOf env) st pv (firstAtom q) (.visual v ops)).prev rfl
    rw [h1, h2, h3] at this
    rw [roles_visual v hn]
    have e : ∀ t : Str, o ++ (c!"<" ++ visualElement v ++ as.flatMap attr ++ c!">") ++ t ++
        (closeTag (Op.visual v).tag ++ (if (Op.visual v).script? && ops.function then application (firstAtom q) else [])) =
        o ++ tag (visualElement v) as t := by
      intro t
      simp [tag, closeTag, Op.tag, visualTag_eq, Op.script?]
    rw [e]
    exact this
  by_cases hv : v = .negation
  · subst hv
    rw [if_pos rfl, wp_bind]
    apply wp_peekFirst
    intro p' r' hp'
    have hp2 : p' ++ r' = ops.events.map .ok ++ q := hp'.trans hp
    have gen2 : ops.stroked = none → wp (do
        openTag c!"mrow" (some c!"mop-negated")
        W.out c!">"
        W.modify fun s => { s with env := .visual .negation (Visual.arity .negation) :: s.env })
        (fun _ s' => qlen s' ≤ ((ops.events.map RItem.ok) ++ q).length ∧ WC L s') ⟨p', r', o, none, env, st :: ss, pv, rc⟩ := by
      intro hsn
      simp only [wp_bind, wp_modify, wp_openTag, wp_out', openTag_eq]
      refine gen _ _ _ _ _ hp2 (List.append_assoc _ _ _) rfl fun T s' p' hm => ?_
      rw [markup_negation hsn] at hm
      cases hm
      exact ⟨rfl, rfl, rfl⟩
    cases hst : ops.stroked with
    | none =>
      split
      · rename_i c hh
        rw [if_neg]
        · exact gen2 hst
        · rw [hp] at hh
          change (ops.events.map RItem.ok ++ q).head? = _ at hh
          cases hc : (ops.events.map RItem.ok ++ q) with
          | nil => rw [hc] at hh; cases hh
          | cons i q' =>
            rw [hc] at hh
            cases hh
            rw [stroked_none hl hst hc]
            simp
      · exact gen2 hst
    | some c =>
      have hop : ops = .cons (.content c) .nil ∧ strokable c = true := by
        unfold Nodes.stroked at hst
        split at hst
        · split at hst
          · rename_i hc; cases hst; exact ⟨rfl, hc⟩
          · cases hst
        · cases hst
      obtain ⟨rfl, hc⟩ := hop
      have he : (Nodes.cons (.content c) .nil).events = [.content c] := by rw [Nodes.events, Nodes.events, Node.events]; rfl
      rw [he] at hp hp2 ⊢
      rw [hp]
      show wp (do if negatable c then (do writeContent cfg true c; let _ ← next) else _) _ _
      rw [negatable_eq, if_pos hc, wp_bind]
      refine wp_content _ _ _ _ _ _ _ _ cfg true c fun p3 r3 hp3 => ?_
      rw [wp_bind]
      refine wp_next _ _ _ _ _ _ _ (hp3.trans hp2) fun p4 r4 hp4 => ?_
      rw [wp_pure]
      refine ⟨by simp only [qlen, hp4]; simp, ?_⟩
      have := h p4 r4 rc hp4
      rw [markup_stroked hst] at this
      have e4 : firstAtom (p' ++ r') = some (ahead c) := by
        rw [hp2]
        cases c with
        | delimiter x z ty => cases ty <;> rfl
        | _ => rfl
      rw [e4]
      have e3 : markFn c env = env := by cases c <;> first | rfl | cases hc
      rw [e3]
      exact this
  · rw [if_neg hv]
    simp only [wp_bind, wp_modify, wp_openTag, openTag_eq]
    have hfree : lookAttributes (roleOf (.visual v (Visual.arity v) :: env)) st = lookAttributes .free st := by cases v <;> rfl
    rw [hfree, visualTag_eq]
    cases v with
    | negation => exact absurd rfl hv
    | fraction x =>
      cases x with
      | none =>
        refine (wp_out' ..).2 (gen (lookAttributes .free st) _ _ _ _ hp (by simp) rfl fun T s' p' hm => ?_)
        rw [markup_visual hv] at hm
        cases hm
        exact ⟨rfl, rfl, rfl⟩
      | some x =>
        refine (wp_bind ..).2 ((wp_out' ..).2 ((wp_out' ..).2 ?_))
        refine gen (lookAttributes .free st ++ [(c!"linethickness", (printing cfg).shown x)]) _ _ _ _ hp (by simp [attr, printing]) rfl
          fun T s' p' hm => ?_
        rw [markup_visual hv] at hm
        cases hm
        exact ⟨rfl, rfl, rfl⟩
    | root =>
      refine (wp_out' ..).2 (gen (lookAttributes .free st) _ _ _ _ hp (by simp) rfl fun T s' p' hm => ?_)
      rw [markup_visual hv] at hm
      cases hm
      exact ⟨rfl, rfl, rfl⟩
    | squareRoot =>
      refine (wp_out' ..).2 (gen (lookAttributes .free st) _ _ _ _ hp (by simp) rfl fun T s' p' hm => ?_)
      rw [markup_visual hv] at hm
      cases hm
      exact ⟨rfl, rfl, rfl⟩

end
end PL.Mathml
