import Verif.Lemmas.Render.Flows
set_option autoImplicit false
/-! # The main loop of the renderer on well-formed streams -/
namespace PL.Mathml
open Spec

/-- Number of items left. -/
def qlen (s : RSt) : Nat := (s.peeked ++ s.rest).length

/-- `L` holds before a round of the main loop if it holds after it. -/
class Goes (cfg : outParam RCfg) (L : RSt → Prop) : Prop where
  step : ∀ {i : RItem} {q : List RItem} {s : RSt}, s.peeked ++ s.rest = i :: q →
    wp next (fun _ s1 => wp (writeEvent cfg i) (fun _ s2 => qlen s2 ≤ q.length ∧
      wp (closeLoop s2.env) (fun _ s3 => qlen s3 ≤ qlen s2 ∧ L s3) s2) s1) s → L s

/-- After an event. -/
def WC (L : RSt → Prop) (s : RSt) : Prop := wp (closeLoop s.env) (fun _ s' => qlen s' ≤ qlen s ∧ L s') s

/-- The main loop, with fuel enough, ends in `Q`. -/
def WL (cfg : RCfg) (Q : PUnit → RSt → Prop) (s : RSt) : Prop := ∀ n, qlen s < n → wp (mainLoop cfg n) Q s

section
variable {cfg : RCfg} {L : RSt → Prop}
variable {pk rt : List RItem} {o : Str} {env : List EnvR} {st : RState} {ss : List RState} {pv : Option Atom} {rc : Bool}

instance (Q : PUnit → RSt → Prop) : Goes cfg (WL cfg Q) where
  step := by
    intro i q s hq h n hn
    cases n with
    | zero => omega
    | succ n =>
      have hl : qlen s = q.length + 1 := by simp only [qlen]; rw [hq]; rfl
      rw [mainLoop, wp_bind]
      have hi : ∃ s1, next s = .ok (some i) s1 := by
        obtain ⟨p, r, o, b, e, ss, pv, rc⟩ := s
        cases p with
        | cons j p => cases hq; exact ⟨_, rfl⟩
        | nil =>
          cases r with
          | nil => cases hq
          | cons j r => cases hq; exact ⟨_, rfl⟩
      obtain ⟨s1, hi⟩ := hi
      obtain ⟨a, s1', h1, h2⟩ := h
      cases hi.symm.trans h1
      refine ⟨_, _, hi, ?_⟩
      dsimp only
      rw [wp_bind]
      refine wp_mono h2 fun _ s2 ⟨h3, h4⟩ => ?_
      rw [wp_bind, wp_get, wp_bind]
      refine wp_mono h4 fun _ s3 ⟨h5, h6⟩ => ?_
      exact h6 n (by omega)

theorem WL.step [Goes cfg L] {i : RItem} {q : List RItem} (hq : pk ++ rt = i :: q)
    (h : ∀ p r, p ++ r = q → wp (writeEvent cfg i) (fun _ s' => qlen s' ≤ q.length ∧ WC L s')
      ⟨p, r, o, none, env, ss, pv, rc⟩) : L ⟨pk, rt, o, none, env, ss, pv, rc⟩ :=
  Goes.step (cfg := cfg) hq (wp_next _ _ _ _ _ _ _ hq fun p r hp => h p r hp)

theorem WC.flat (he : env = [] ∨ ∃ g E, env = .group g :: E) (h : L ⟨pk, rt, o, none, env, ss, pv, rc⟩) :
    WC L ⟨pk, rt, o, none, env, ss, pv, rc⟩ := by
  rcases he with rfl | ⟨g, E, rfl⟩
  · exact (wp_pure _ _ _).2 ⟨Nat.le_refl _, h⟩
  · exact (wp_pure _ _ _).2 ⟨Nat.le_refl _, h⟩

/-- Scripts and visuals. -/
inductive Op where
  | visual (v : Visual)
  | script (ty : ScriptType) (above : Bool)

/-- The entry on the stack with `n` operands to come. -/
def Op.fr : Op → Nat → Bool → EnvR
  | .visual v, n, _ => .visual v n
  | .script ty a, n, f => .script ty a n f

def Op.tag : Op → Str
  | .visual v => visualTag v
  | .script ty a => scriptTag ty a

theorem WC.count {op : Op} {n : Nat} {f : Bool} {E : List EnvR}
    (h : L ⟨pk, rt, o, none, op.fr n f :: E, ss, pv, rc⟩) :
    WC L ⟨pk, rt, o, none, op.fr (n + 1) f :: E, ss, pv, rc⟩ := by
  cases op with
  | visual v =>
    simp only [WC, Op.fr, closeLoop]
    rw [if_pos (by omega), wp_modify]
    exact ⟨Nat.le_refl _, h⟩
  | script ty a =>
    simp only [WC, Op.fr, closeLoop]
    rw [if_pos (by omega), wp_modify]
    exact ⟨Nat.le_refl _, h⟩

theorem qlen_of {p r : List RItem} (h : p ++ r = pk ++ rt) {o o' : Str} {b b' : Option Nat} {e e' : List EnvR} {s s' : List RState}
    {v v' : Option Atom} {c c' : Bool} : qlen ⟨p, r, o, b, e, s, v, c⟩ = qlen ⟨pk, rt, o', b', e', s', v', c'⟩ := by
  simp only [qlen, h]

theorem WC.close {op : Op} {f : Bool} {E : List EnvR}
    (h : ∀ p r u k pv', p ++ r = pk ++ rt → Elems k u → (f = false → k = 0) →
      WC L ⟨p, r, o ++ (closeTag op.tag ++ u), none, E, ss, pv', rc⟩) :
    WC L ⟨pk, rt, o, none, op.fr 0 f :: E, ss, pv, rc⟩ := by
  cases op with
  | visual v =>
    simp only [WC, Op.fr, closeLoop]
    rw [if_neg (by omega)]
    simp only [wp_bind, wp_out', wp_setPrev, wp_modify]
    have := h pk rt [] 0 (prevOf (.visual v 0 :: E) pv .inner) rfl .nil (fun _ => rfl)
    rw [List.append_nil] at this
    exact this
  | script ty a =>
    simp only [WC, Op.fr, closeLoop]
    rw [if_neg (by omega)]
    simp only [wp_bind, wp_out', wp_setPrev, wp_modify]
    cases f with
    | false =>
      have := h pk rt [] 0 (prevOf (.script ty a 0 false :: E) pv .inner) rfl .nil (fun _ => rfl)
      rw [List.append_nil] at this
      simp only [Bool.false_eq_true, if_false]
      exact this
    | true =>
      simp only [if_true, wp_bind]
      apply wp_applyFunction
      intro p r u k hp hk
      have := h p r u k (prevOf (.script ty a 0 true :: E) pv .inner) hp hk (by rintro ⟨⟩)
      rw [← List.append_assoc] at this
      exact wp_mono this fun _ s' ⟨h1, h2⟩ => ⟨by rw [qlen_of hp] at h1; exact h1, h2⟩

/-- What is needed to say something about the text. -/
def Safe (cfg : RCfg) (es : List Event) : Prop := FmtOk cfg ∧ ∀ e ∈ es, SafeEvent e

theorem Safe.left {a b : List Event} (h : Safe cfg (a ++ b)) : Safe cfg a := ⟨h.1, fun e he => h.2 e (by simp [he])⟩
theorem Safe.right {a b : List Event} (h : Safe cfg (a ++ b)) : Safe cfg b := ⟨h.1, fun e he => h.2 e (by simp [he])⟩

/-- After an element. -/
structure Done (cfg : RCfg) (d : Bool) (es : List Event) (q : List RItem) (o : Str) (env : List EnvR) (st : RState)
    (ss : List RState) (s' : RSt) : Prop where
  items : s'.peeked ++ s'.rest = q
  budget : s'.budget = none
  sts : ∃ st', s'.sts = st' :: ss
  keep : (∃ g b, es = .begin_ g :: b) → s'.sts = st :: ss
  same : SameEnv env s'.env
  same' : d = true → Visible es → s'.env = env
  out : ∃ t, s'.out = o ++ t ∧ (Safe cfg es → ∃ k, El d k t ∧ (d = true → Visible es → k = 1))

/-- Rendering the element `es` from any state. -/
def ElemOk (cfg : RCfg) (d : Bool) (es : List Event) : Prop := ∀ (L : RSt → Prop) [Goes cfg L] q pk rt o env st ss pv rc,
  pk ++ rt = es.map .ok ++ q → (∀ s', Done cfg d es q o env st ss s' → WC L s') →
  L ⟨pk, rt, o, none, env, st :: ss, pv, rc⟩

/-- After the operands of a script or visual. -/
structure DoneOps (cfg : RCfg) (d : Bool) (n : Nat) (es : List Event) (q : List RItem) (o : Str) (op : Op) (f : Bool) (E : List EnvR)
    (ss : List RState) (s' : RSt) : Prop where
  items : s'.peeked ++ s'.rest = q
  budget : s'.budget = none
  sts : ∃ st', s'.sts = st' :: ss
  env : ∃ f', s'.env = op.fr 0 f' :: E ∧ (d = true → f' = f)
  out : ∃ t, s'.out = o ++ t ∧ (Safe cfg es → ∃ k, El d k t ∧ (d = true → k = n))

def OpsOk (cfg : RCfg) (d : Bool) (n : Nat) (es : List Event) : Prop := ∀ (L : RSt → Prop) [Goes cfg L] op f E q pk rt o st ss pv rc,
  pk ++ rt = es.map .ok ++ q → (∀ s', DoneOps cfg d (n + 1) es q o op f E ss s' → WC L s') →
  L ⟨pk, rt, o, none, op.fr n f :: E, st :: ss, pv, rc⟩

/-- The place in the group. -/
def InG (g : Option Grouping) (k : Nat) (E env : List EnvR) : Prop :=
  match g with
  | none => env = []
  | some g => ∃ e, env = .group e :: E ∧ RG g k e

/-- The text inside a group. -/
def GoodIn (d : Bool) (g : Option Grouping) (t : Str) : Prop :=
  match g with
  | none => ∃ k, El d k t
  | some g => ∀ F S, F.map Prod.fst = frames g → ∃ F', F'.map Prod.fst = frames g ∧ Sc d .text (F ++ S) t .text (F' ++ S)

theorem GoodIn.nil {d : Bool} {g : Option Grouping} : GoodIn d g [] := by
  cases g with
  | none => exact ⟨0, fun S => rfl⟩
  | some g => exact fun F S h => ⟨F, h, rfl⟩

theorem GoodIn.append {d : Bool} {g : Option Grouping} {t u : Str} (h : GoodIn d g t) (h' : GoodIn d g u) : GoodIn d g (t ++ u) := by
  cases g with
  | none =>
    obtain ⟨k, h⟩ := h
    obtain ⟨j, h'⟩ := h'
    exact ⟨_, h.append h'⟩
  | some g =>
    intro F S hF
    obtain ⟨F1, h1, h2⟩ := h F S hF
    obtain ⟨F2, h3, h4⟩ := h' F1 S h1
    exact ⟨F2, h3, h2.append h4⟩

theorem frames_cons (g : Grouping) : ∃ n ns, frames g = n :: ns := by
  cases g <;> exact ⟨_, _, rfl⟩

theorem GoodIn.el {d : Bool} {g : Option Grouping} {t : Str} {k : Nat} (h : El d k t) : GoodIn d g t := by
  cases g with
  | none => exact ⟨k, h⟩
  | some g =>
    intro F S hF
    obtain ⟨n, ns, hn⟩ := frames_cons g
    rw [hn] at hF
    obtain ⟨x, F', rfl, hF'⟩ := map_fst_cons hF
    refine ⟨(n, x + k) :: F', by rw [hn]; exact congrArg (n :: ·) hF', ?_⟩
    have := h ((n, x) :: F' ++ S)
    rw [List.cons_append, addN_cons] at this
    exact this

structure DoneBody (cfg : RCfg) (d : Bool) (g : Option Grouping) (k' : Nat) (es : List Event) (q : List RItem) (o : Str)
    (E : List EnvR) (ss : List RState) (s' : RSt) : Prop where
  items : s'.peeked ++ s'.rest = q
  budget : s'.budget = none
  sts : ∃ st', s'.sts = st' :: ss
  env : InG g k' E s'.env
  out : ∃ t, s'.out = o ++ t ∧ (Safe cfg es → GoodIn d g t)

def BodyOk (cfg : RCfg) (d : Bool) (g : Option Grouping) (k k' : Nat) (es : List Event) : Prop :=
  ∀ (L : RSt → Prop) [Goes cfg L] E q pk rt o env st ss pv rc, InG g k E env →
  pk ++ rt = es.map .ok ++ q → (∀ s', DoneBody cfg d g k' es q o E ss s' → L s') →
  L ⟨pk, rt, o, none, env, st :: ss, pv, rc⟩

end
end PL.Mathml
