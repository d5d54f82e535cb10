import Verif.Lemmas.Render.Loop
set_option autoImplicit false
/-! # Rendering well-formed streams -/
namespace PL.Mathml
open Spec

variable {cfg : RCfg} {d : Bool}

theorem len_of {p r q : List RItem} (h : p ++ r = q) {o : Str} {b : Option Nat} {e : List EnvR} {s : List RState}
    {v : Option Atom} {c : Bool} : qlen ⟨p, r, o, b, e, s, v, c⟩ ≤ q.length := by
  simp only [qlen, h]; exact Nat.le_refl _

theorem elem_content (c : Content) : ElemOk cfg d [.content c] := by
  intro L _ q pk rt o env st ss pv rc hq h
  refine WL.step hq fun p r hp => ?_
  show wp (writeContent cfg false c) _ _
  refine wp_writeContent _ _ _ _ _ _ _ _ cfg false c fun s' t hw => ?_
  refine ⟨by rw [qlen, hw.items]; exact Nat.le_of_eq (congrArg List.length hp), h s' ?_⟩
  refine ⟨hw.items.trans hp, hw.budget, ⟨st, hw.sts⟩, fun _ => hw.sts, hw.env, fun _ hv => ?_, t, hw.out, fun hs => ?_⟩
  · refine hw.env' ?_
    cases c <;> first | rfl | exact hv.elim
  · obtain ⟨k, hk, h1⟩ := hw.elems (hs.2 _ (List.mem_singleton.2 rfl))
    refine ⟨k, hk.el d, fun _ hv => h1 ?_⟩
    cases c <;> first | rfl | exact hv.elim

theorem elem_change (c : StateChange) : ElemOk cfg d [.stateChange c] := by
  intro L _ q pk rt o env st ss pv rc hq h
  refine WL.step hq fun p r hp => ?_
  show wp (handleStateChange c) _ _
  rw [handleStateChange, wp_updState]
  refine ⟨len_of hp, h _ ⟨hp, rfl, ⟨_, rfl⟩, ?_, .inl rfl, fun _ _ => rfl, [], by simp, fun _ => ⟨0, Elems.nil.el d, fun _ hv => hv.elim⟩⟩⟩
  rintro ⟨g, b, ⟨⟩⟩

theorem elem_space (w h' x : Option Dim) : ElemOk cfg d [.space w h' x] := by
  intro L _ q pk rt o env st ss pv rc hq h
  refine WL.step hq fun p r hp => ?_
  show wp (writeSpace cfg w h' x) _ _
  have fin : ∀ t, (FmtOk cfg → ∃ k, El d k t ∧ (w ≠ none → k = 1)) →
      qlen ⟨p, r, o ++ t, none, env, st :: ss, pv, rc⟩ ≤ q.length ∧ WC L ⟨p, r, o ++ t, none, env, st :: ss, pv, rc⟩ := by
    intro t ht
    refine ⟨len_of hp, h _ ⟨hp, rfl, ⟨_, rfl⟩, ?_, .inl rfl, fun _ _ => rfl, t, rfl, fun hs => ?_⟩⟩
    · rintro ⟨g, b, ⟨⟩⟩
    · obtain ⟨k, hk, h1⟩ := ht hs.1
      exact ⟨k, hk, fun _ hv => h1 hv⟩
  have T : FmtOk cfg → ∀ (n : Str) (S : Open) (y : Dim), Sc d (.attrs n true) S (dimStr cfg y) (.attrs n true) S :=
    fun hf n S y => Sc.quoted (dimStr_ok hf y).1 (dimStr_ok hf y).2
  have P : FmtOk cfg → ∀ (S : Open) (y : Dim), Sc d .text S (dimStr cfg y) .text S := fun hf S y => Sc.plain (dimStr_ok hf y).1
  unfold writeSpace
  cases w with
  | none =>
    dsimp only
    cases h' <;> cases x <;> dsimp only <;> wps <;> (try simp only [List.append_assoc]) <;>
      refine fin _ fun hf => ⟨0, fun S => ?_, fun hn => absurd rfl hn⟩ <;> have := P hf S <;> sc [this _]
  | some w =>
    dsimp only
    rw [wp_bind, wp_out']
    split
    · cases h' <;> cases x <;> dsimp only <;> wps <;> (try simp only [List.append_assoc]) <;>
        refine fin _ fun hf => ⟨1, fun S => ?_, fun hn => rfl⟩ <;> (have := fun n => T hf n S) <;> sc [this _ _]
    · cases h' <;> cases x <;> dsimp only <;> wps <;> (try simp only [List.append_assoc]) <;>
        refine fin _ fun hf => ⟨1, fun S => ?_, fun hn => rfl⟩ <;> (have := fun n => T hf n S) <;> sc [this _ _]

theorem Visible.head {e : Event} {a b : List Event} (h : Visible (e :: a)) : Visible (e :: b) := by
  cases e with
  | content c => cases c <;> exact h
  | _ => exact h

theorem op_tag_mem (op : Op) : op.tag ∈ elementNames := by
  cases op with
  | visual v => cases v <;> (simp only [Op.tag, visualTag]; decide)
  | script ty a => cases ty <;> cases a <;> (simp only [Op.tag, scriptTag]; decide)

/-- The number of operands agrees with MathML. -/
def Op.arity : Op → Nat
  | .visual v => visualOperands v
  | .script ty _ => scriptOperands ty

theorem close_op (op : Op) (j : Nat) (hj : d = true → j = op.arity) (S : Open) :
    Sc d .text ((op.tag, j) :: S) (closeTag op.tag) .text (addChild S) := by
  cases d with
  | false =>
    cases op with
    | visual v => cases v <;> rfl
    | script ty a => cases ty <;> cases a <;> rfl
  | true =>
    rw [hj rfl]
    cases op with
    | visual v => cases v <;> rfl
    | script ty a => cases ty <;> cases a <;> rfl

/-- From the point where a script or visual has been put on the stack. -/
theorem op_ok {op : Op} {ds : List Event} {n : Nat} (hn : op.arity = n + 1) (ho : OpsOk cfg d n ds) {e : Event}
    (hv : ∀ g, e ≠ .begin_ g) {L : RSt → Prop} [Goes cfg L] {q pk rt : List RItem} {o t : Str} {env : List EnvR} {st : RState}
    {ss : List RState} {pv : Option Atom} {rc : Bool} (hq : pk ++ rt = ds.map .ok ++ q)
    (ht : Safe cfg (e :: ds) → ∀ S, Sc d .text S t .text ((op.tag, 0) :: S))
    (h : ∀ s', Done cfg d (e :: ds) q o env st ss s' → WC L s') :
    WC L ⟨pk, rt, o ++ t, none, op.fr (n + 1) false :: env, st :: ss, pv, rc⟩ := by
  refine WC.count (ho L op false env q _ _ _ _ _ _ _ hq ?_)
  rintro ⟨p, r, o', b, env', sts, pv', rc'⟩ ⟨h1, h2, ⟨st', h3⟩, ⟨f', h4, h4'⟩, t', h5, h6⟩
  cases h2
  subst h3 h4
  dsimp only at h5
  subst h5
  refine WC.close fun p' r' u k pv'' hp hu hk => ?_
  refine h _ ⟨hp.trans h1, rfl, ⟨_, rfl⟩, ?_, .inl rfl, fun _ _ => rfl, t ++ (t' ++ (closeTag op.tag ++ u)), by simp, fun hs => ?_⟩
  · rintro ⟨g, b, hh⟩
    cases hh
    exact absurd rfl (hv g)
  · obtain ⟨j, hj, hj'⟩ := h6 (Safe.right (a := [e]) hs)
    refine ⟨1 + k, fun S => ?_, fun hd _ => by rw [hk (h4' hd)]⟩
    refine (ht hs S).append ((hj _).append ?_)
    rw [addN_cons]
    refine (close_op op (0 + j) (fun hd => by rw [hj' hd, hn]; omega) S).append ?_
    have := hu.el d (addChild S)
    have e1 : addN k (addChild S) = addN (1 + k) S := by rw [← addN_add]; rfl
    rw [e1] at this
    exact this

theorem elem_script {ty : ScriptType} {pos : ScriptPos} {ds : List Event} {n : Nat} (hn : scriptOperands ty = n + 1)
    (ho : OpsOk cfg d n ds) : ElemOk cfg d (.script ty pos :: ds) := by
  intro L _ q pk rt o env st ss pv rc hq h
  refine WL.step hq fun p r hp => ?_
  show wp (writeScript cfg ty pos) _ _
  unfold writeScript
  have har : ScriptType.arity ty = n + 1 := by rw [← hn]; cases ty <;> rfl
  simp only [wp_bind, wp_state, wp_modify, wp_openTag, wp_out', har]
  refine ⟨Nat.le_of_eq (by simp only [qlen, hp]), ?_⟩
  rw [List.append_assoc]
  refine op_ok (op := .script ty _) (e := .script ty pos) hn ho (by rintro g ⟨⟩) hp (fun hs S => ?_) h
  obtain ⟨m, hm, h4⟩ := openTag_sc (d := d) (S := S) (op_tag_mem (.script ty _)) classOk_none st _
  exact h4.append hm.close

theorem Doc.elems0 {b : List Event} (h : Doc d (.elems 0) b) : b = [] := by cases h; rfl

theorem Doc.content {c : Content} {r : List Event} (h : Doc d .elem (.content c :: r)) : r = [] := by
  cases h; rfl

theorem elem_visual {v : Visual} {ds : List Event} {n : Nat} (hn : visualOperands v = n + 1)
    (hd : Doc d (.elems (n + 1)) ds) (ho : OpsOk cfg d n ds) : ElemOk cfg d (.visual v :: ds) := by
  intro L _ q pk rt o env st ss pv rc hq h
  refine WL.step hq fun p r hp => ?_
  show wp (writeVisual cfg v) _ _
  unfold writeVisual
  by_cases hv : v = .negation
  · subst hv
    cases hn
    rw [if_pos rfl, wp_bind]
    apply wp_peekFirst
    intro p' r' hp'
    have hp2 : p' ++ r' = ds.map .ok ++ q := hp'.trans hp
    have gen : wp (do
        openTag c!"mrow" (some c!"mop-negated")
        W.out c!">"
        W.modify fun s => { s with env := .visual .negation (Visual.arity .negation) :: s.env })
        (fun _ s' => qlen s' ≤ ((ds.map RItem.ok) ++ q).length ∧ WC L s') ⟨p', r', o, none, env, st :: ss, pv, rc⟩ := by
      simp only [wp_bind, wp_modify, wp_openTag, wp_out']
      refine ⟨Nat.le_of_eq (by simp only [qlen, hp2]), ?_⟩
      rw [List.append_assoc]
      refine op_ok (op := .visual .negation) (e := .visual .negation) rfl ho (by rintro g ⟨⟩) hp2 (fun hs S => ?_) h
      obtain ⟨m, hm, h4⟩ := openTag_sc (d := d) (S := S) (tag := c!"mrow") (cl := some c!"mop-negated") (by decide)
        (by rintro c ⟨⟩; decide) st env
      exact h4.append hm.close
    split
    · rename_i c hh
      split
      · rename_i hc
        obtain rfl : ds = [.content c] := by
          cases hd with
          | @cons _ a b ha _ hb =>
            obtain rfl := hb.elems0
            rw [List.append_nil] at hp hp2 ⊢
            have := ha.ne_nil
            cases a with
            | nil => exact absurd rfl this
            | cons e a =>
              rw [hp] at hh
              cases hh
              rw [ha.content]
        rw [wp_bind]
        refine wp_writeContent _ _ _ _ _ _ _ _ cfg true c fun s' t hw => ?_
        obtain ⟨h1, h2, h3, -, h5, h6, h7⟩ := hw
        have hf : isFn c = false := by cases c <;> first | rfl | cases hc
        replace h5 := h5 hf
        obtain ⟨p2, r2, o2, b2, env2, sts2, pv2, rc2⟩ := s'
        dsimp only at h1 h2 h3 h5 h6
        subst h2 h3 h5 h6
        rw [wp_bind]
        refine wp_next _ _ _ _ _ _ _ (h1.trans hp2) fun p3 r3 hp3 => ?_
        rw [wp_pure]
        refine ⟨by simp only [qlen, hp3]; simp, h _ ⟨hp3, rfl, ⟨_, rfl⟩, fun _ => rfl, .inl rfl, fun _ _ => rfl, t, rfl, fun hs => ?_⟩⟩
        obtain ⟨k, hk, hk'⟩ := h7 (hs.2 (.content c) (by simp))
        exact ⟨k, hk.el d, fun _ _ => hk' hf⟩
      · exact gen
    · exact gen
  · rw [if_neg hv]
    have har : Visual.arity v = n + 1 := by rw [← hn]; cases v <;> rfl
    simp only [wp_bind, wp_modify, wp_openTag, har]
    have fin : ∀ u, (FmtOk cfg → ∀ m S, InTag (visualTag v) m → Sc d m S u .text ((visualTag v, 0) :: S)) →
        qlen ⟨p, r, o ++ openTagStr st (.visual v (n + 1) :: env) (visualTag v) none ++ u, none, .visual v (n + 1) :: env, st :: ss, pv, rc⟩
          ≤ ((ds.map RItem.ok) ++ q).length ∧
        WC L ⟨p, r, o ++ openTagStr st (.visual v (n + 1) :: env) (visualTag v) none ++ u, none, .visual v (n + 1) :: env, st :: ss, pv, rc⟩ := by
      intro u hu
      refine ⟨Nat.le_of_eq (by simp only [qlen, hp]; rfl), ?_⟩
      rw [List.append_assoc]
      refine op_ok (op := .visual v) (e := .visual v) hn ho (by rintro g ⟨⟩) hp (fun hs S => ?_) h
      obtain ⟨m, hm, h4⟩ := openTag_sc (d := d) (S := S) (op_tag_mem (.visual v)) classOk_none st _
      exact h4.append (hu hs.1 _ _ hm)
    split
    · rename_i x
      simp only [wp_bind, wp_out']
      rw [List.append_assoc]
      refine fin _ fun hf m S hm => ?_
      have := Sc.quoted (d := d) (S := S) (n := c!"mfrac") (dimStr_ok hf x).1 (dimStr_ok hf x).2
      have h1 : Sc d m S c!" linethickness=\"" (.attrs c!"mfrac" true) S := hm.attr rfl
      have h2 : Sc d (.attrs c!"mfrac" true) S c!"\"" (.attrs c!"mfrac" false) S := rfl
      have h3 : Sc d (.attrs c!"mfrac" false) S c!">" .text ((c!"mfrac", 0) :: S) := rfl
      sc [h1, this, h2, h3]
    · simp only [wp_out']
      exact fin _ fun hf m S hm => hm.close

theorem elem_group {g : Grouping} {b : List Event} {k' : Nat} (hb : beginOk g = true) (hd : Doc d (.body (some g) 0 k') b)
    (ih : ∀ b' k, b'.length ≤ b.length → Doc d (.body (some g) 0 k) b' → BodyOk cfg d (some g) 0 k b') :
    ElemOk cfg d (.begin_ g :: (b ++ [.end_])) := by
  intro L _ q pk rt o env st ss pv rc hq h
  refine WL.step hq fun p r hp => ?_
  show wp (writeBegin g) _ _
  refine wp_writeBegin _ _ _ _ _ _ _ _ hb hd (q := q) (by simp [hp]) ?_
  rintro ⟨p1, r1, o1, b1, env1, sts1, pv1, rc1⟩ ⟨h1, ⟨e, h2, hr⟩, ⟨st1, h3⟩, ⟨x, b', rfl, hd', h4⟩, t1, h5, h6⟩
  dsimp only at h1 h2 h3 h4 h5
  subst h1 h2 h3 h5
  refine ⟨by simp only [qlen, h4]; simp, WC.flat (.inr ⟨_, _, rfl⟩) ?_⟩
  refine ih b' k' (by simp) hd' L env _ _ _ _ _ _ _ _ _ ⟨e, rfl, hr⟩ h4 ?_
  rintro ⟨p2, r2, o2, b2, env2, sts2, pv2, rc2⟩ ⟨h1, h2, ⟨st2, h3⟩, ⟨e2, h4, hr2⟩, t2, h5, h7⟩
  dsimp only at h1 h2 h3 h4 h5
  subst h2 h3 h4 h5
  refine WL.step h1 fun p3 r3 hp3 => ?_
  show wp writeEnd _ _
  refine wp_writeEnd _ _ _ _ _ _ _ _ hr2 _ fun pv3 t3 h8 => ?_
  refine ⟨len_of hp3, h _ ⟨hp3, rfl, ⟨_, rfl⟩, fun _ => rfl, .inl rfl, fun _ _ => rfl, t1 ++ (t2 ++ t3), by simp, fun hs => ?_⟩⟩
  refine ⟨1, fun S => ?_, fun _ _ => rfl⟩
  have hg : SafeEvent (.begin_ g) := hs.2 _ (by simp)
  obtain ⟨F, hF, h9⟩ := h6 hg d S
  obtain ⟨F', hF', h10⟩ := h7 ⟨hs.1, fun e he => hs.2 e (by simp [he])⟩ F S hF
  exact h9.append (h10.append (h8 hg d F' S hF'))

theorem SameEnv.op {op : Op} {n : Nat} {f : Bool} {E env : List EnvR} (h : SameEnv (op.fr n f :: E) env) :
    ∃ f', env = op.fr n f' :: E ∧ (env = op.fr n f :: E → f' = f) := by
  rcases h with rfl | ⟨ty, a, n', f1, E', h1, h2⟩
  · exact ⟨f, rfl, fun _ => rfl⟩
  · cases op with
    | visual v => cases h1
    | script ty a => cases h1; exact ⟨_, h2, fun h => by cases h2.symm.trans h; rfl⟩

theorem SameEnv.inG {g : Option Grouping} {k : Nat} {E env env' : List EnvR} (h : SameEnv env env') (hi : InG g k E env) :
    env' = env := by
  rcases h with rfl | ⟨ty, a, n', f1, E', h1, h2⟩
  · rfl
  · cases g with
    | none => cases hi.symm.trans h1
    | some g =>
      obtain ⟨e, he, -⟩ := hi
      cases he.symm.trans h1

theorem InG.flat {g : Option Grouping} {k : Nat} {E env : List EnvR} (hi : InG g k E env) :
    env = [] ∨ ∃ g E, env = .group g :: E := by
  cases g with
  | none => exact .inl hi
  | some g =>
    obtain ⟨e, he, -⟩ := hi
    exact .inr ⟨e, E, he⟩

theorem Visible.append {a b : List Event} (h : Visible a) : Visible (a ++ b) := by
  cases a with
  | nil => exact h.elim
  | cons e a => exact Visible.head h

theorem ops_ok {n : Nat} {es : List Event} (hd : Doc d (.elems (n + 1)) es)
    (he : ∀ a, a.length ≤ es.length → Doc d .elem a → ElemOk cfg d a)
    (ho : ∀ b m, b.length < es.length → Doc d (.elems (m + 1)) b → OpsOk cfg d m b) : OpsOk cfg d n es := by
  cases hd with
  | @cons _ a b ha hv hb =>
    intro L _ op f E q pk rt o st ss pv rc hq h
    have hl : 0 < a.length := List.length_pos_iff.2 ha.ne_nil
    refine he a (by simp) ha L (b.map .ok ++ q) _ _ _ _ _ _ _ _ (by simp [hq]) ?_
    rintro ⟨p1, r1, o1, b1, env1, sts1, pv1, rc1⟩ ⟨h1, h2, ⟨st1, h3⟩, -, h4, h4', t1, h5, h6⟩
    dsimp only at h1 h2 h3 h4 h4' h5
    subst h2 h3 h5
    obtain ⟨f1, rfl, hf1⟩ := h4.op
    have hf : d = true → f1 = f := fun hd' => hf1 (h4' hd' (hv hd'))
    cases n with
    | zero =>
      obtain rfl := hb.elems0
      refine h _ ⟨h1, rfl, ⟨_, rfl⟩, ⟨f1, rfl, hf⟩, t1, rfl, fun hs => ?_⟩
      obtain ⟨k, hk, hk'⟩ := h6 hs.left
      exact ⟨k, hk, fun hd' => hk' hd' (hv hd')⟩
    | succ n =>
      refine WC.count (ho b n (by simp; omega) hb L op f1 E q _ _ _ _ _ _ _ h1 ?_)
      rintro ⟨p2, r2, o2, b2, env2, sts2, pv2, rc2⟩ ⟨h1, h2, ⟨st2, h3⟩, ⟨f2, h4, hf2⟩, t2, h5, h7⟩
      dsimp only at h1 h2 h3 h4 h5
      subst h2 h3 h4 h5
      refine h _ ⟨h1, rfl, ⟨_, rfl⟩, ⟨f2, rfl, fun hd' => (hf2 hd').trans (hf hd')⟩, t1 ++ t2, by simp, fun hs => ?_⟩
      obtain ⟨k, hk, hk'⟩ := h6 hs.left
      obtain ⟨j, hj, hj'⟩ := h7 hs.right
      exact ⟨k + j, hk.append hj, fun hd' => by rw [hk' hd' (hv hd'), hj' hd']; omega⟩

theorem body_ok {g : Option Grouping} {k k' : Nat} {es : List Event} (hd : Doc d (.body g k k') es)
    (he : ∀ a, a.length ≤ es.length → Doc d .elem a → ElemOk cfg d a)
    (hb : ∀ b k, b.length < es.length → Doc d (.body g k k') b → BodyOk cfg d g k k' b) : BodyOk cfg d g k k' es := by
  intro L _ E q pk rt o env st ss pv rc hi hq h
  cases hd with
  | empty => exact h _ ⟨hq, rfl, ⟨_, rfl⟩, hi, [], by simp, fun _ => .nil⟩
  | @element _ _ _ a b ha hb' =>
    have hl : 0 < a.length := List.length_pos_iff.2 ha.ne_nil
    refine he a (by simp) ha L (b.map .ok ++ q) _ _ _ _ _ _ _ _ (by simp [hq]) ?_
    rintro ⟨p1, r1, o1, b1, env1, sts1, pv1, rc1⟩ ⟨h1, h2, ⟨st1, h3⟩, -, h4, -, t1, h5, h6⟩
    dsimp only at h1 h2 h3 h4 h5
    subst h2 h3 h5
    obtain rfl := h4.inG hi
    refine WC.flat hi.flat (hb b _ (by simp; omega) hb' L E q _ _ _ _ _ _ _ _ hi h1 ?_)
    rintro s2 ⟨h1, h2, h3, h4, t2, h5, h7⟩
    refine h _ ⟨h1, h2, h3, h4, t1 ++ t2, by simp [h5], fun hs => ?_⟩
    obtain ⟨k, hk, -⟩ := h6 hs.left
    exact (GoodIn.el hk).append (h7 hs.right)
  | @align g _ _ b hg hk hb' =>
    obtain ⟨e, rfl, hr⟩ := hi
    refine WL.step hq fun p r hp => ?_
    show wp (writeAlignment cfg) _ _
    refine wp_writeAlignment _ _ _ _ _ _ _ _ cfg hr hg hk fun pv1 e1 t1 hr1 hw => ?_
    refine ⟨len_of hp, WC.flat (.inr ⟨_, _, rfl⟩) (hb b _ (by simp) hb' L E q _ _ _ _ _ _ _ _ ⟨e1, rfl, hr1⟩ hp ?_)⟩
    rintro s2 ⟨h1, h2, h3, h4, t2, h5, h7⟩
    refine h _ ⟨h1, h2, h3, h4, t1 ++ t2, by simp [h5], fun hs => ?_⟩
    exact GoodIn.append (g := some g) (hw d) (h7 (Safe.right (a := [_]) hs))
  | @line g _ _ b sp ls hg hb' =>
    obtain ⟨e, rfl, hr⟩ := hi
    refine WL.step hq fun p r hp => ?_
    show wp (writeNewLine cfg sp ls) _ _
    refine wp_writeNewLine _ _ _ _ _ _ _ _ cfg hr hg sp ls fun pv1 e1 t1 hr1 hw => ?_
    refine ⟨len_of hp, WC.flat (.inr ⟨_, _, rfl⟩) (hb b _ (by simp) hb' L E q _ _ _ _ _ _ _ _ ⟨e1, rfl, hr1⟩ hp ?_)⟩
    rintro s2 ⟨h1, h2, h3, h4, t2, h5, h7⟩
    refine h _ ⟨h1, h2, h3, h4, t1 ++ t2, by simp [h5], fun hs => ?_⟩
    exact GoodIn.append (g := some g) (hw hs.1 d) (h7 (Safe.right (a := [_]) hs))
  | @lines g _ _ b ls hg hb' =>
    obtain ⟨e, rfl, hr⟩ := hi
    refine WL.step hq fun p r hp => ?_
    have key : wp (writeEvent cfg (.ok (.flow (.startLines ls)))) (fun _ s' => qlen s' ≤ ((b.map RItem.ok) ++ q).length ∧ WC L s')
        ⟨p, r, o, none, .group e :: E, st :: ss, pv, rc⟩ := by
      rw [writeEvent, recover, wp_modify]
      refine ⟨len_of hp, WC.flat (.inr ⟨_, _, rfl⟩) (hb b _ (by simp) hb' L E q _ _ _ _ _ _ _ _ ⟨e, rfl, hr⟩ hp ?_)⟩
      rintro s2 ⟨h1, h2, h3, h4, t2, h5, h7⟩
      exact h _ ⟨h1, h2, h3, h4, t2, h5, fun hs => h7 (Safe.right (a := [_]) hs)⟩
    exact key

/-- The three simulations by induction on the number of events. -/
theorem sim (N : Nat) : ∀ es : List Event, es.length = N →
    (Doc d .elem es → ElemOk cfg d es) ∧ (∀ n, Doc d (.elems (n + 1)) es → OpsOk cfg d n es) ∧
    (∀ g k k', Doc d (.body g k k') es → BodyOk cfg d g k k' es) := by
  induction N using Nat.strongRecOn with
  | ind N ih =>
    have E : ∀ a : List Event, a.length ≤ N → Doc d .elem a → ElemOk cfg d a := by
      intro a hl h
      rcases Nat.lt_or_ge a.length N with hl' | hl'
      · exact (ih _ hl' a rfl).1 h
      · cases h with
        | @simple e hs =>
          cases e with
          | content c => exact elem_content c
          | stateChange c => exact elem_change c
          | space w h x => exact elem_space w h x
          | _ => exact hs.elim
        | @group g b k' h1 h2 =>
          refine elem_group h1 h2 fun b' k hb hd => ?_
          simp only [List.length_cons, List.length_append] at hl
          exact (ih _ (by omega) b' rfl).2.2 _ _ _ hd
        | @script ty p ds hd =>
          simp only [List.length_cons] at hl
          have := (ih _ (by omega : ds.length < N) ds rfl).2.1
          cases ty <;> exact elem_script rfl (this _ hd)
        | @visual v ds hd =>
          simp only [List.length_cons] at hl
          have := (ih _ (by omega : ds.length < N) ds rfl).2.1
          cases v <;> exact elem_visual rfl hd (this _ hd)
    rintro es rfl
    exact ⟨E es (Nat.le_refl _), fun n h => ops_ok h E fun b m hl => (ih _ hl b rfl).2.1 m,
      fun g k k' h => body_ok h E fun b k hl => (ih _ hl b rfl).2.2 _ _ _⟩

end PL.Mathml
