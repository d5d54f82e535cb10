import Verif.Spec.Classes
import Verif.Lemmas.Render.ExactTree
set_option autoImplicit false
/-! # Classes of atoms -/
namespace PL.Mathml
open Spec

theorem texAtom_length (acc : List Atom) (a : Atom) : (texAtom acc a).length = acc.length + 1 := by
  cases a <;> simp only [texAtom] <;> (try split) <;> (try split) <;> simp

theorem tex_length (as : List Atom) : ∀ acc : List Atom, (as.foldl texAtom acc).length = acc.length + as.length := by
  induction as with
  | nil => intro acc; rfl
  | cons a as ih => intro acc; rw [List.foldl_cons, ih, texAtom_length]; simp; omega

theorem texAtom_keeps (h : Atom) (t : List Atom) (a : Atom) : ∃ x y, texAtom (h :: t) a = x :: y :: t := by
  cases a <;> simp only [texAtom] <;> (try split) <;> (try split) <;> simp_all

theorem tex_keeps (as : List Atom) : ∀ (h : Atom) (t : List Atom), ∃ f, as.foldl texAtom (h :: t) = f ++ t ∧ f ≠ [] := by
  induction as with
  | nil => intro h t; exact ⟨[h], rfl, by simp⟩
  | cons a as ih =>
    intro h t
    obtain ⟨x, y, e⟩ := texAtom_keeps h t a
    obtain ⟨f, h1, h2⟩ := ih x (y :: t)
    exact ⟨f ++ [y], by rw [List.foldl_cons, e, h1]; simp, by simp⟩

/-- The class before the next atom. -/
def running (as : List Atom) : Option Atom := (as.foldl texAtom []).head?

theorem final_get {f t : List Atom} {x : Atom} (hf : f ≠ []) :
    (match f ++ x :: t with | .bin :: r => (Atom.ord :: r).reverse | acc => acc.reverse)[t.length]? = some x := by
  obtain ⟨y, f', rfl⟩ := List.exists_cons_of_ne_nil hf
  have key : ∀ z : Atom, ((z :: (f' ++ x :: t)).reverse)[t.length]? = some x := by
    intro z
    simp
  rw [List.cons_append]
  split
  · rename_i h
    cases h
    exact key _
  · exact key _

theorem texBinary_eq (before after : List Atom) : texBinary before after = (ordLike (running before) && startsOperand after.head?) := by
  have hl : (before.foldl texAtom []).length = before.length := by rw [tex_length]; simp
  unfold texBinary texClasses running
  rw [List.foldl_append, List.foldl_cons]
  generalize before.foldl texAtom [] = acc at *
  rw [← hl]
  have hx : ∃ x, texAtom acc .bin = x :: acc ∧ (x = .bin ∨ x = .ord) ∧ (x = .bin ↔ ordLike acc.head? = true) := by
    cases acc with
    | nil => exact ⟨.ord, rfl, .inr rfl, by simp [ordLike]⟩
    | cons p r => cases p <;> simp [texAtom, ordLike]
  obtain ⟨x, e, hx1, hx2⟩ := hx
  rw [e]
  cases after with
  | nil =>
    rw [List.foldl_nil]
    rcases hx1 with rfl | rfl
    · simp [startsOperand]
    · simp [startsOperand]
  | cons b after =>
    rw [List.foldl_cons]
    have hb : ∃ y x', texAtom (x :: acc) b = y :: x' :: acc ∧ (x' = .bin ↔ x = .bin ∧ startsOperand (some b) = true) := by
      rcases hx1 with rfl | rfl <;> cases b <;>
        exact ⟨_, _, rfl, by simp [startsOperand]⟩
    obtain ⟨y, x', e', hx'⟩ := hb
    rw [e']
    obtain ⟨f, h1, h2⟩ := tex_keeps after y (x' :: acc)
    have := final_get (t := acc) (x := x') h2
    rw [h1]
    have e3 : ∀ o : Option Atom, o = some x' → decide (o = some Atom.bin) = (ordLike acc.head? && startsOperand (b :: after).head?) := by
      rintro _ rfl
      rw [List.head?_cons]
      have : (some x' = some Atom.bin) ↔ (ordLike acc.head? = true ∧ startsOperand (some b) = true) := by
        rw [Option.some.injEq, hx', hx2]
      rw [Bool.eq_iff_iff, decide_eq_true_iff, this, Bool.and_eq_true]
    exact e3 _ this

/-! ## Elements -/

section
variable (P : Printing)

theorem block_prev {n : Node} (h : n.block = true) (r : Role) (st : RState) (pv nx : Option Atom) :
    ordLike (n.markup P r st pv nx).prev = true := by
  cases n with
  | group d cs b => rcases d with _ | ⟨l, r⟩ <;> (rw [Node.markup.eq_def]; rfl)
  | table g ls rows => rw [Node.markup.eq_def]; (cases g <;> rfl)
  | visual v ops =>
    cases v with
    | squareRoot => rw [markup_visual (by simp)]; rfl
    | _ => cases h
  | _ => cases h

theorem simple_or {n : Node} (h : n.simple = true) : (∃ c, n = .content c) ∨ n.block = true := by
  cases n with
  | content c => exact .inl ⟨c, rfl⟩
  | _ => exact .inr h

theorem solid_or {n : Node} (h : n.solid = true) : (∃ c, n = .content c ∧ clearContent c = true ∧ contentClass c = .ord ∧
    ahead c = .ord ∧ ∀ r pv nx, behind r pv nx c = r.after pv .ord) ∨ n.block = true := by
  cases n with
  | content c =>
    cases c with
    | text t => exact .inl ⟨_, rfl, rfl, rfl, rfl, fun _ _ _ => rfl⟩
    | number t => exact .inl ⟨_, rfl, rfl, rfl, rfl, fun _ _ _ => rfl⟩
    | ordinary c b =>
      cases b with
      | false => exact .inl ⟨_, rfl, rfl, rfl, rfl, fun _ _ _ => rfl⟩
      | true => cases h
    | _ => cases h
  | visual v ops => cases v <;> exact .inr h
  | _ => exact .inr h

theorem behind_silent {r : Role} (hr : r.silent = true) (pv nx : Option Atom) (c : Content) : behind r pv nx c = pv := by
  unfold behind Role.after
  rw [hr]
  cases c with
  | ordinary c b => cases b <;> rfl
  | delimiter c z ty => cases ty <;> rfl
  | _ => rfl

theorem simple_prev {n : Node} (h : n.simple = true) {r : Role} (hr : r.silent = true) (st : RState) (pv nx : Option Atom)
    (hp : ordLike pv = true) : ordLike (n.markup P r st pv nx).prev = true := by
  rcases simple_or h with ⟨c, rfl⟩ | h
  · rw [Node.markup]
    show ordLike (behind r pv nx c) = true
    rw [behind_silent hr]; exact hp
  · exact block_prev P h r st pv nx

theorem content_prev {n : Node} (h : n.isContent = true) {r : Role} (hr : r.silent = true) (st : RState) (pv nx : Option Atom) :
    (n.markup P r st pv nx).prev = pv := by
  cases n with
  | content c => rw [Node.markup]; exact behind_silent hr pv nx c
  | _ => cases h

theorem solid_prev {n : Node} (h : n.solid = true) {r : Role} (hr : r.silent = false) (st : RState) (pv nx : Option Atom) :
    ordLike (n.markup P r st pv nx).prev = true := by
  rcases solid_or h with ⟨c, rfl, -, -, -, hb⟩ | h
  · rw [Node.markup]
    show ordLike (behind r pv nx c) = true
    rw [hb, Role.after, hr]; rfl
  · exact block_prev P h r st pv nx

/-- Silent operands. -/
theorem simples_prev : ∀ (ns : Nodes) (_ : ns.all Node.simple = true) (rs : List Role) (_ : ns.length ≤ rs.length)
    (_ : ∀ r ∈ rs, r.silent = true) (st : RState) (pv nx : Option Atom),
    ordLike pv = true → ordLike (ns.markup P rs st pv nx).prev = true
  | .nil, _, rs, _, _, st, pv, nx, hp => by rw [Nodes.markup]; exact hp
  | .cons n ns, h, [], hl, _, st, pv, nx, hp => by simp [Nodes.length] at hl
  | .cons n ns, h, r :: rs, hl, hr, st, pv, nx, hp => by
    rw [Nodes.all, Bool.and_eq_true] at h
    rw [Nodes.markup]
    exact simples_prev ns h.2 rs (by simpa [Nodes.length] using hl) (fun r hr' => hr r (by simp [hr'])) _ _ _
      (simple_prev P h.1 (hr r (by simp)) _ _ _ hp)

theorem contents_prev : ∀ (ns : Nodes) (_ : ns.all Node.isContent = true) (rs : List Role) (_ : ns.length ≤ rs.length)
    (_ : ∀ r ∈ rs, r.silent = true) (st : RState) (pv nx : Option Atom), (ns.markup P rs st pv nx).prev = pv
  | .nil, _, rs, _, _, st, pv, nx => by rw [Nodes.markup]
  | .cons n ns, h, [], hl, _, st, pv, nx => by simp [Nodes.length] at hl
  | .cons n ns, h, r :: rs, hl, hr, st, pv, nx => by
    rw [Nodes.all, Bool.and_eq_true] at h
    rw [Nodes.markup]
    exact (contents_prev ns h.2 rs (by simpa [Nodes.length] using hl) (fun r hr' => hr r (by simp [hr'])) _ _ _).trans
      (content_prev P h.1 (hr r (by simp)) _ _ _)

/-- The class of an element as it is seen from both sides. -/
structure Agrees (n : Node) (r : Role) : Prop where
  cls : ∃ t a, n.texClass = some t ∧ t ≠ .bin ∧ n.first = some a ∧ startsOperand (some a) = startsOperand (some t) ∧
    ∀ st pv nx, ordLike (n.markup P r st pv nx).prev = ordLike (some t)

theorem block_agrees {n : Node} (h : n.block = true) (r : Role) : Agrees P n r := by
  have hp := fun st pv nx => block_prev P h r st pv nx
  cases n with
  | group d cs b =>
    cases d with
    | none => exact ⟨.ord, .inner, by rw [Node.texClass], by simp, by rw [Node.first], rfl, hp⟩
    | some d => exact ⟨.inner, .inner, by rw [Node.texClass], by simp, by rw [Node.first], rfl, hp⟩
  | table g ls rows => exact ⟨.inner, .inner, by rw [Node.texClass], by simp, by rw [Node.first], rfl, hp⟩
  | visual v ops =>
    cases v with
    | squareRoot =>
      exact ⟨.ord, .inner, by rw [Node.texClass] <;> (intros; rename_i h; cases h), by simp,
        by rw [Node.first]; (intro h; cases h), rfl, hp⟩
    | _ => cases h
  | _ => cases h

theorem solid_agrees {n : Node} (h : n.solid = true) {r : Role} (hr : r.silent = false) : Agrees P n r := by
  rcases solid_or h with ⟨c, rfl, h1, h2, h3, h4⟩ | h'
  · exact ⟨.ord, .ord, by rw [Node.texClass, h2], by simp, by rw [Node.first, h3], rfl, fun st pv nx => solid_prev P h hr st pv nx⟩
  · exact block_agrees P h' r

theorem fixed_agrees {n : Node} (h : n.fixed = true) {r : Role} (hr : r.silent = false) : Agrees P n r := by
  have fin : ∀ c t, contentClass c = t → t ≠ .bin → startsOperand (some (ahead c)) = startsOperand (some t) →
      (∀ pv nx, ordLike (behind r pv nx c) = ordLike (some t)) → Agrees P (.content c) r := by
    intro c t h1 h2 h3 h4
    exact ⟨t, _, by rw [Node.texClass, h1], h2, by rw [Node.first], h3, fun st pv nx => by rw [Node.markup]; exact h4 pv nx⟩
  have af : ∀ pv a, r.after pv a = some a := by intro pv a; rw [Role.after, hr]; rfl
  cases n with
  | content c =>
    cases c with
    | binaryOp x s => cases h
    | delimiter x z ty =>
      cases ty with
      | fence => cases h
      | open_ => exact fin _ .open_ rfl (by simp) rfl (fun pv nx => by rw [behind, af])
      | close => exact fin _ .close rfl (by simp) rfl (fun pv nx => by rw [behind, af])
    | ordinary x b =>
      cases b with
      | true => cases h
      | false => exact fin _ .ord rfl (by simp) rfl (fun pv nx => by show ordLike (r.after pv .ord) = _; rw [af])
    | text t => exact fin _ .ord rfl (by simp) rfl (fun pv nx => by show ordLike (r.after pv .ord) = _; rw [af])
    | number t => exact fin _ .ord rfl (by simp) rfl (fun pv nx => by show ordLike (r.after pv .ord) = _; rw [af])
    | function t => exact fin _ .op rfl (by simp) rfl (fun pv nx => by rw [behind, af])
    | relation x y s => exact fin _ .rel rfl (by simp) rfl (fun pv nx => by rw [behind, af])
    | largeOp x s => exact fin _ .op rfl (by simp) rfl (fun pv nx => by rw [behind, af])
    | punctuation x => exact fin _ .punct rfl (by simp) rfl (fun pv nx => by rw [behind, af])
  | _ => cases h

theorem pair_agrees {v : Visual} {ops : Nodes} (hv : v ≠ .negation) (hvr : visualRoles v = [.main, .aside])
    (hr : (roleOf [(Op.visual v).fr 0 false]).silent = true) (h : ops.clearPair = true) (hl : ops.length = 2)
    {t : Atom} (ht : (Node.visual v ops).texClass = some t) (hto : t = .inner ∨ t = .ord)
    (hf : (Node.visual v ops).first = some .inner) : Agrees P (.visual v ops) .free := by
  cases ops with
  | nil => cases h
  | cons n ds =>
    rw [Nodes.clearPair, Bool.and_eq_true] at h
    have key : ∀ st pv nx, ordLike (Node.markup P .free st pv nx (.visual v (.cons n ds))).prev = true := by
      intro st pv nx
      rw [markup_visual hv]
      show ordLike (Role.after _ _ _) = true
      rw [Role.after, hr, if_pos rfl, hvr, Nodes.markup]
      refine simples_prev P ds h.2 [.aside] ?_ (by simp [Role.silent]) _ _ _ (solid_prev P h.1 rfl st pv _)
      rw [Nodes.length] at hl
      simp only [List.length_singleton]; omega
    rcases hto with rfl | rfl <;> exact ⟨_, _, ht, by simp, hf, rfl, key⟩

theorem script_agrees {ty : ScriptType} {p : ScriptPos} {ops : Nodes} (h : ops.clearScript = true)
    (hl : ops.length = scriptOperands ty) : Agrees P (.script ty p ops) .free := by
  cases ops with
  | nil => cases h
  | cons b ss =>
    have hl : ss.length ≤ (scriptRoles ty).tail.length := by
      rw [Nodes.length] at hl
      cases ty <;> simp [scriptOperands, scriptRoles] at hl ⊢ <;> omega
    have hs : ∀ r ∈ (scriptRoles ty).tail, r.silent = true := by cases ty <;> simp [scriptRoles, Role.silent]
    have hh : (scriptRoles ty).headD .free = .base := by cases ty <;> rfl
    have hm : ∀ st pv nx, (Node.markup P .free st pv nx (.script ty p (.cons b ss))).prev =
        (ss.markup P (scriptRoles ty).tail (b.markup P .base st pv (ss.first nx)).st (b.markup P .base st pv (ss.first nx)).prev nx).prev := by
      intro st pv nx
      rw [Node.markup, Nodes.markup, hh]
    have hf : ∀ a, b.first = some a → (Node.script ty p (.cons b ss)).first = some a := by
      intro a ha
      rw [Node.first, Nodes.first, ha]; rfl
    have ht : (Node.script ty p (.cons b ss)).texClass = b.texClass := by rw [Node.texClass, Nodes.baseClass]
    rw [Nodes.clearScript, Bool.or_eq_true, Bool.and_eq_true, Bool.and_eq_true] at h
    rcases h with h | h
    · obtain ⟨t, a, h1, h2, h3, h4, h5⟩ := (solid_agrees P h.1 (r := .base) rfl).cls
      refine ⟨t, a, by rw [ht, h1], h2, hf a h3, h4, fun st pv nx => ?_⟩
      have ho : ordLike (some t) = true := by
        rw [← h5 st pv nx]; exact solid_prev P h.1 rfl st pv nx
      rw [hm, ho]
      exact simples_prev P ss h.2 _ hl hs _ _ _ (solid_prev P h.1 rfl st pv _)
    · obtain ⟨t, a, h1, h2, h3, h4, h5⟩ := (fixed_agrees P h.1 (r := .base) rfl).cls
      refine ⟨t, a, by rw [ht, h1], h2, hf a h3, h4, fun st pv nx => ?_⟩
      rw [hm, contents_prev P ss h.2 _ hl hs]
      exact h5 _ _ _

theorem negated_agrees {ops : Nodes} (h : ops.clearNegated = true) : Agrees P (.visual .negation ops) .free := by
  cases ops with
  | nil => cases h
  | cons n ds =>
    cases ds with
    | cons m ds => cases h
    | nil =>
      have ht : (Node.visual .negation (.cons n .nil)).texClass = n.texClass := by rw [Node.texClass, Nodes.baseClass]
      have hf : ∀ a, n.first = some a → (Node.visual .negation (.cons n .nil)).first = some a := by
        intro a ha
        rw [Node.first, Nodes.first, ha]; rfl
      rw [Nodes.clearNegated, Bool.or_eq_true, Bool.and_eq_true] at h
      rcases h with h | ⟨h, hn⟩
      · obtain ⟨t, a, h1, h2, h3, h4, h5⟩ := (block_agrees P h .free).cls
        refine ⟨t, a, by rw [ht, h1], h2, hf a h3, h4, fun st pv nx => ?_⟩
        rw [← h5 st pv nx, block_prev P h]
        have : Nodes.stroked (.cons n .nil) = none := by
          cases n with
          | content c => cases h
          | _ => rfl
        rw [markup_negation this]; rfl
      · obtain ⟨t, a, h1, h2, h3, h4, h5⟩ := (fixed_agrees P h (r := .free) rfl).cls
        refine ⟨t, a, by rw [ht, h1], h2, hf a h3, h4, fun st pv nx => ?_⟩
        rw [← h5 st pv nx]
        cases n with
        | content c =>
          rw [Node.markup]
          by_cases hs : strokable c = true
          · rw [markup_stroked (c := c) (by simp [Nodes.stroked, hs])]
            cases c with
            | binaryOp x s => cases h
            | delimiter x z ty => cases ty <;> rfl
            | ordinary x b => cases b <;> rfl
            | _ => rfl
          · rw [markup_negation (by simp [Nodes.stroked, hs])]
            cases c with
            | text t => rfl
            | number t => rfl
            | function t => cases hn
            | _ => exact absurd rfl hs
        | _ => cases h

/-- How a clear element counts. -/
inductive Counts (n : Node) : Prop where
  | bin (x : Char) (s : Bool) (h : n = .content (.binaryOp x s))
  | bare (ht : n.texClass = none) (hf : n.first = none) (hp : ∀ r st pv nx, (n.markup P r st pv nx).prev = pv)
  | other (h : Agrees P n .free)

theorem clear_counts {n : Node} (h : n.clear = true) (hreg : n.regular = true) : Counts P n := by
  cases n with
  | content c =>
    cases c with
    | binaryOp x s => exact .bin x s rfl
    | delimiter x z ty => exact .other (fixed_agrees P (n := .content (.delimiter x z ty)) (by rw [Node.clear] at h; exact h) rfl)
    | ordinary x b => exact .other (fixed_agrees P (n := .content (.ordinary x b)) (by rw [Node.clear] at h; exact h) rfl)
    | _ => exact .other (fixed_agrees P rfl rfl)
  | space w h d => exact .bare (by rw [Node.texClass]) (by rw [Node.first]) (fun r st pv nx => by rw [Node.markup])
  | change sc => exact .bare (by rw [Node.texClass]) (by rw [Node.first]) (fun r st pv nx => by rw [Node.markup])
  | group d cs b => exact .other (block_agrees P rfl _)
  | table g ls rows => exact .other (block_agrees P rfl _)
  | script ty p ops =>
    rw [Node.regular, Bool.and_eq_true, beq_iff_eq] at hreg
    exact .other (script_agrees P h hreg.1)
  | visual v ops =>
    rw [Node.regular, Bool.and_eq_true, beq_iff_eq] at hreg
    cases v with
    | squareRoot => exact .other (block_agrees P rfl _)
    | fraction x =>
      exact .other (pair_agrees P (by simp) rfl rfl h hreg.1 (by rw [Node.texClass]) (.inl rfl) (by rw [Node.first]; (intro h; cases h)))
    | root =>
      exact .other (pair_agrees P (by simp) rfl rfl h hreg.1 (by rw [Node.texClass] <;> (intros; rename_i h; cases h)) (.inr rfl)
        (by rw [Node.first]; (intro h; cases h)))
    | negation => exact .other (negated_agrees P h)

include P in
/-- What comes next. -/
theorem first_class : ∀ (ns : Nodes) (_ : ns.all Node.clear = true) (_ : ns.regular = true) (nx : Option Atom) (l : List Atom),
    startsOperand nx = startsOperand l.head? → startsOperand (ns.first nx) = startsOperand (ns.texClasses ++ l).head?
  | .nil, _, _, nx, l, h => by rw [Nodes.first]; exact h
  | .cons n ns, hc, hr, nx, l, h => by
    rw [Nodes.all, Bool.and_eq_true] at hc
    rw [Nodes.regular, Bool.and_eq_true] at hr
    rw [Nodes.first, Nodes.texClasses]
    rcases clear_counts P hc.1 hr.1 with ⟨x, s, rfl⟩ | ⟨ht, hf, -⟩ | ⟨t, a, h1, h2, h3, h4, -⟩
    · rw [Node.first, Node.texClass]; rfl
    · rw [ht, hf]; exact first_class ns hc.2 hr.2 nx l h
    · rw [h1, h3]; exact h4

theorem texAtom_head (acc : List Atom) {t : Atom} (h : t ≠ .bin) : (texAtom acc t).head? = some t := by
  cases t <;> first | exact absurd rfl h | rfl | (simp only [texAtom]; split <;> rfl)

theorem texAtom_bin (acc : List Atom) : (texAtom acc .bin).head? = some (if ordLike acc.head? then .bin else .ord) := by
  cases acc with
  | nil => rfl
  | cons a acc => cases a <;> rfl

/-- What came before. -/
theorem prev_class : ∀ (ns : Nodes) (_ : ns.all Node.clear = true) (_ : ns.regular = true) (st : RState) (pv : Option Atom)
    (acc : List Atom), (startsOperand (ns.texClasses ++ [Atom.bin]).head? = true → ordLike pv = ordLike acc.head?) →
    ordLike (ns.markup P [] st pv (some .bin)).prev = ordLike (ns.texClasses.foldl texAtom acc).head?
  | .nil, _, _, st, pv, acc, h => by rw [Nodes.markup]; exact h rfl
  | .cons n ns, hc, hr, st, pv, acc, h => by
    rw [Nodes.all, Bool.and_eq_true] at hc
    rw [Nodes.regular, Bool.and_eq_true] at hr
    rw [Nodes.markup, Nodes.texClasses]
    have hfc := first_class P ns hc.2 hr.2 (some .bin) [Atom.bin] rfl
    rw [Nodes.texClasses] at h
    rcases clear_counts P hc.1 hr.1 with ⟨x, s, rfl⟩ | ⟨ht, hf, hp⟩ | ⟨t, a, h1, h2, h3, h4, h5⟩
    · rw [Node.texClass] at h ⊢
      have h0 := h rfl
      refine prev_class ns hc.2 hr.2 _ _ (texAtom acc .bin) fun hs => ?_
      rw [texAtom_bin, Node.markup, ← h0]
      show ordLike (some (if actsBinary .free pv (ns.first (some .bin)) = true then .bin else .ord)) = _
      rw [actsBinary, hfc, hs]
      cases ordLike pv <;> rfl
    · rw [ht] at h ⊢
      rw [hp]
      exact prev_class ns hc.2 hr.2 _ _ acc h
    · rw [h1] at h ⊢
      refine prev_class ns hc.2 hr.2 _ _ (texAtom acc t) fun hs => ?_
      rw [texAtom_head acc h2]
      exact h5 _ _ _
end

end PL.Mathml
