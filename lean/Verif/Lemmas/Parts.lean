import Verif.Spec.Parts
set_option autoImplicit false
/-!
# Parts of a formula: what the elements around them change
-/
namespace PL.Spec
open PL.Mathml

/-- The class before an element counts only as far as it is like an ordinary symbol. -/
structure Written.Like (a b : Written) : Prop where
  text : a.text = b.text
  st : a.st = b.st
  prev : ordLike a.prev = ordLike b.prev

theorem after_like {r : Role} {p q : Option Atom} (h : ordLike p = ordLike q) (a : Atom) : ordLike (r.after p a) = ordLike (r.after q a) := by
  unfold Role.after
  split
  · exact h
  · rfl

theorem actsBinary_like {r : Role} {p q next : Option Atom} (h : ordLike p = ordLike q) : actsBinary r p next = actsBinary r q next := by
  unfold actsBinary
  rw [h]

theorem content_prev {P : Printing} {r : Role} {st : RState} {p q next : Option Atom} (h : ordLike p = ordLike q) (b : Bool) (c : Content) :
    P.content r st p next b c = P.content r st q next b c := by
  unfold Printing.content
  rw [h, actsBinary_like h]

theorem behind_prev {r : Role} {p q next : Option Atom} (h : ordLike p = ordLike q) (c : Content) : ordLike (behind r p next c) = ordLike (behind r q next c) := by
  unfold behind
  split <;> first | exact h | exact after_like h _ | skip
  rw [actsBinary_like h]
  exact after_like h _

mutual
theorem node_prev {P : Printing} : ∀ (n : Node) (r : Role) (st : RState) (p q next : Option Atom), ordLike p = ordLike q →
    (n.markup P r st p next).Like (n.markup P r st q next)
  | .content c, r, st, p, q, next, h => ⟨content_prev h _ c, rfl, behind_prev h c⟩
  | .space _ _ _, r, st, p, q, next, h => ⟨rfl, rfl, h⟩
  | .change _, r, st, p, q, next, h => ⟨rfl, rfl, h⟩
  | .group _ _ _, r, st, p, q, next, h => ⟨rfl, rfl, rfl⟩
  | .script ty pos ops, r, st, p, q, next, h => by
    have := nodes_prev (P := P) ops (scriptRoles ty) st p q next h
    rw [Node.markup, Node.markup]
    exact ⟨by dsimp only; rw [this.text], this.st, this.prev⟩
  | .visual v ops, r, st, p, q, next, h => by
    have := nodes_prev (P := P) ops (visualRoles v) st p q next h
    cases v <;> cases hs : ops.stroked <;> simp only [Node.markup, hs] <;>
      first
      | exact ⟨content_prev h _ _, rfl, behind_prev h _⟩
      | exact ⟨by dsimp only; rw [this.text], this.st, this.prev⟩
      | exact ⟨by dsimp only; rw [this.text], this.st, rfl⟩
  | .table g ls rows, r, st, p, q, next, h => by
    cases g <;> exact ⟨rfl, rfl, rfl⟩
theorem nodes_prev {P : Printing} : ∀ (ns : Nodes) (rs : List Role) (st : RState) (p q next : Option Atom), ordLike p = ordLike q →
    (ns.markup P rs st p next).Like (ns.markup P rs st q next)
  | .nil, rs, st, p, q, next, h => ⟨rfl, rfl, h⟩
  | .cons n ns, rs, st, p, q, next, h => by
    have h1 := node_prev (P := P) n (rs.headD .free) st p q (ns.first next) h
    have h2 := nodes_prev (P := P) ns rs.tail (n.markup P (rs.headD .free) st p (ns.first next)).st _ _ next h1.prev
    simp only [Nodes.markup]
    rw [← h1.st]
    exact ⟨by dsimp only; rw [h1.text, h2.text], h2.st, h2.prev⟩
end

mutual
theorem node_steady {P : Printing} : ∀ (n : Node) (r : Role) (st : RState) (p next : Option Atom), n.steady = true → (n.markup P r st p next).st = st
  | .content c, r, st, p, next, h => rfl
  | .space _ _ _, r, st, p, next, h => rfl
  | .change _, r, st, p, next, h => by cases h
  | .group _ _ _, r, st, p, next, h => rfl
  | .script ty pos ops, r, st, p, next, h => by
    rw [Node.markup]
    exact nodes_steady ops _ st p next h
  | .visual v ops, r, st, p, next, h => by
    cases v <;> cases hs : ops.stroked <;> simp only [Node.markup, hs] <;> exact nodes_steady ops _ st p next h
  | .table g ls rows, r, st, p, next, h => by
    cases g <;> rfl
theorem nodes_steady {P : Printing} : ∀ (ns : Nodes) (rs : List Role) (st : RState) (p next : Option Atom), ns.steady = true → (ns.markup P rs st p next).st = st
  | .nil, rs, st, p, next, h => rfl
  | .cons n ns, rs, st, p, next, h => by
    rw [Nodes.steady, Bool.and_eq_true] at h
    rw [Nodes.markup]
    dsimp only
    rw [node_steady n _ st p _ h.1]
    exact nodes_steady ns _ st _ next h.2
end

theorem first_some : ∀ (ns : Nodes) (a : Option Atom) (x : Atom), ns.first none = some x → ns.first a = some x
  | .nil, _, _, h => by cases h
  | .cons n ns, a, x, h => by
    rw [Nodes.first] at h ⊢
    cases hn : n.first with
    | some y => rw [hn] at h; exact h
    | none => rw [hn] at h; exact first_some ns a x h

theorem first_none : ∀ (ns : Nodes) (a : Option Atom), ns.first none = none → ns.first a = a
  | .nil, _, _ => rfl
  | .cons n ns, a, h => by
    rw [Nodes.first] at h ⊢
    cases hn : n.first with
    | some y => rw [hn] at h; cases h
    | none => rw [hn] at h; exact first_none ns a h

/-- What comes after elements that await nothing counts only as far as it can be an operand. -/
theorem first_like (ns : Nodes) {a b : Option Atom} (h : startsOperand a = startsOperand b) : startsOperand (ns.first a) = startsOperand (ns.first b) := by
  cases hn : ns.first none with
  | none => rw [first_none ns a hn, first_none ns b hn]; exact h
  | some x => rw [first_some ns a x hn, first_some ns b x hn]

theorem actsBinary_next {r : Role} {p a b : Option Atom} (h : startsOperand a = startsOperand b) : actsBinary r p a = actsBinary r p b := by
  unfold actsBinary
  rw [h]

theorem content_next {P : Printing} {r : Role} {st : RState} {p a b : Option Atom} (h : startsOperand a = startsOperand b) (ng : Bool) (c : Content)
    (hc : ∀ t, c ≠ .function t) : P.content r st p a ng c = P.content r st p b ng c := by
  cases c <;> first | exact absurd rfl (hc _) | skip
  case binaryOp => unfold Printing.content; dsimp only; rw [actsBinary_next h]
  case ordinary c b => cases b <;> rfl
  case delimiter c z t => cases z <;> rfl
  all_goals rfl

theorem behind_next {r : Role} {p a b : Option Atom} (h : startsOperand a = startsOperand b) (c : Content) : behind r p a c = behind r p b c := by
  cases c <;> first | rfl | (unfold behind; rw [actsBinary_next h])

theorem stroked_strokable {ns : Nodes} {c : Content} (h : ns.stroked = some c) : strokable c = true := by
  unfold Nodes.stroked at h
  split at h
  · split at h
    · rename_i h2
      injection h with h
      rw [← h]
      exact h2
    · cases h
  · cases h

mutual
theorem node_next {P : Printing} : ∀ (n : Node) (r : Role) (st : RState) (p a b : Option Atom), startsOperand a = startsOperand b → n.awaits = false ∨ a = b →
    n.markup P r st p a = n.markup P r st p b
  | n, r, st, p, a, b, h, .inr e => by rw [e]
  | .content c, r, st, p, a, b, h, .inl hw => by
    have hc : ∀ t, c ≠ .function t := by rintro t rfl; cases hw
    rw [Node.markup, Node.markup, content_next h _ c hc, behind_next h c]
  | .space _ _ _, r, st, p, a, b, h, .inl hw => rfl
  | .change _, r, st, p, a, b, h, .inl hw => rfl
  | .group _ _ _, r, st, p, a, b, h, .inl hw => rfl
  | .script ty pos ops, r, st, p, a, b, h, .inl hw => by
    rw [Node.awaits, Bool.or_eq_false_iff] at hw
    rw [Node.markup, Node.markup, nodes_next ops _ st p a b h (.inl hw.2), hw.1]
    rfl
  | .visual v ops, r, st, p, a, b, h, .inl hw => by
    rw [Node.awaits] at hw
    have h1 := fun rs => nodes_next (P := P) ops rs st p a b h (.inl hw)
    cases hs : ops.stroked with
    | none => cases v <;> simp only [Node.markup, hs, h1]
    | some c =>
      cases v <;> simp only [Node.markup, hs, h1]
      have hc : ∀ t, c ≠ .function t := by
        rintro t rfl
        exact absurd (stroked_strokable hs) (by simp [strokable])
      have h' : startsOperand (if P.flawed then some (ahead c) else a) = startsOperand (if P.flawed then some (ahead c) else b) := by
        split
        · rfl
        · exact h
      rw [content_next h' _ c hc, behind_next h' c]
  | .table g ls rows, r, st, p, a, b, h, .inl hw => by
    cases g <;> rfl
theorem nodes_next {P : Printing} : ∀ (ns : Nodes) (rs : List Role) (st : RState) (p a b : Option Atom), startsOperand a = startsOperand b → ns.awaits = false ∨ a = b →
    ns.markup P rs st p a = ns.markup P rs st p b
  | ns, rs, st, p, a, b, h, .inr e => by rw [e]
  | .nil, rs, st, p, a, b, h, .inl hw => rfl
  | .cons n ns, rs, st, p, a, b, h, .inl hw => by
    rw [Nodes.awaits, Bool.or_eq_false_iff] at hw
    have h1 : n.markup P (rs.headD .free) st p (ns.first a) = n.markup P (rs.headD .free) st p (ns.first b) := by
      cases hn : ns.first none with
      | none =>
        rw [hn] at hw
        exact node_next n _ st p _ _ (first_like ns h) (.inl (by simpa using hw.2))
      | some x => rw [first_some ns a x hn, first_some ns b x hn]
    rw [Nodes.markup, Nodes.markup, h1]
    rw [nodes_next ns _ _ _ a b h (.inl hw.1)]
end

theorem first_append : ∀ (A B : Nodes) (next : Option Atom), (A.append B).first next = A.first (B.first next)
  | .nil, _, _ => rfl
  | .cons n A, B, next => by
    rw [Nodes.append, Nodes.first, Nodes.first, first_append A B next]

/-- One sequence after the other, where they see each other. -/
theorem markup_append {P : Printing} : ∀ (A B : Nodes) (st : RState) (p next : Option Atom),
    (A.append B).markup P [] st p next =
      ⟨(A.markup P [] st p (B.first next)).text ++ (B.markup P [] (A.markup P [] st p (B.first next)).st (A.markup P [] st p (B.first next)).prev next).text,
        (B.markup P [] (A.markup P [] st p (B.first next)).st (A.markup P [] st p (B.first next)).prev next).st,
        (B.markup P [] (A.markup P [] st p (B.first next)).st (A.markup P [] st p (B.first next)).prev next).prev⟩
  | .nil, B, st, p, next => by
    rw [Nodes.append, Nodes.markup]
    rfl
  | .cons n A, B, st, p, next => by
    rw [Nodes.append, Nodes.markup, first_append]
    have := markup_append (P := P) A B (n.markup P .free st p (A.first (B.first next))).st (n.markup P .free st p (A.first (B.first next))).prev next
    simp only [List.headD_nil, List.tail_nil] at this ⊢
    rw [this]
    simp only [Nodes.markup, List.headD_nil, List.tail_nil, List.append_assoc]

end PL.Spec
