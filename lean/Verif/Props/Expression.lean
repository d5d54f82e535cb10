import Verif.Lemmas.ExpressionReads
import Verif.Props.Fonts
set_option autoImplicit false
set_option linter.unusedSectionVars false
/-!
# C78: expressions in LaTeX become the same expressions in MathML
-/
namespace PL.Props
open PL PL.Lex PL.Mathml Spec

/-! ## The tree is written as MathML -/

theorem look_nothing (r : Role) : lookAttributes r {} = [] := no_look r

/-- The text, with the state as before; a binary operator can follow. -/
def Shows (w : Written) (text : Str) : Prop := w.text = text ∧ w.st = {} ∧ ordLike w.prev = true

theorem letter_kind {c : Char} (hc : isLetter c = true) : ∃ k : LetterKind, k.Has c.toNat ∧ ∀ style, setUpright style c = documented style k := by
  have hc' : c.toNat < 128 := by
    unfold isLetter at hc
    simp at hc
    omega
  have key : ∀ n < 128, isLetter (Char.ofNat n) = true → (97 ≤ n ∧ n ≤ 122 ∧ setUpright .tex (Char.ofNat n) = false ∧ setUpright .french (Char.ofNat n) = false) ∨
      (65 ≤ n ∧ n ≤ 90 ∧ setUpright .tex (Char.ofNat n) = false ∧ setUpright .french (Char.ofNat n) = true) := by decide +kernel
  have := key c.toNat hc'
  rw [Char.ofNat_toNat] at this
  rcases this hc with ⟨h1, h2, h3, h4⟩ | ⟨h1, h2, h3, h4⟩
  · exact ⟨.lowerLatin, ⟨h1, h2⟩, fun style => by cases style <;> first | exact h3 | exact h4 | rfl⟩
  · exact ⟨.upperLatin, ⟨h1, h2⟩, fun style => by cases style <;> first | exact h3 | exact h4 | rfl⟩

/-- `isUpper` tells capitals from small letters, and says of no symbol or accent that it is a capital, as `char::is_uppercase` does. -/
structure TellsCapitals (isUpper : Char → Bool) : Prop where
  letters : TellsCase isUpper
  symbols : ∀ p ∈ ordinarySymbols, isUpper p.2 = false
  accents : ∀ a : Accent, isUpper a.sign = false

/-- There is such a function. -/
example : TellsCapitals fun c => (65 ≤ c.toNat && c.toNat ≤ 90) || (0x391 ≤ c.toNat && c.toNat ≤ 0x3A9) where
  letters := by
    intro c k h
    cases k <;> simp only [LetterKind.Has] at h <;> simp <;> omega
  symbols := by decide
  accents := by intro a; cases a <;> decide

theorem greek_kind : ∀ p ∈ greekLetters, ∃ k : LetterKind, k.Has p.2.toNat ∧ ∀ style, setUpright style p.2 = documented style k := by
  have key : ∀ p ∈ greekLetters, setUpright .french p.2 = true ∧
      ((0x3B1 ≤ p.2.toNat ∧ p.2.toNat ≤ 0x3C9 ∧ setUpright .tex p.2 = false) ∨ (0x391 ≤ p.2.toNat ∧ p.2.toNat ≤ 0x3A9 ∧ p.2.toNat ≠ 0x3A2 ∧ setUpright .tex p.2 = true)) := by
    decide +kernel
  intro p hp
  obtain ⟨h0, ⟨h1, h2, h3⟩ | ⟨h1, h2, h3, h4⟩⟩ := key p hp
  · exact ⟨.lowerGreek, ⟨h1, h2⟩, fun style => by cases style <;> first | exact h3 | exact h0 | rfl⟩
  · exact ⟨.upperGreek, ⟨h1, h2, h3⟩, fun style => by cases style <;> first | exact h4 | exact h0 | rfl⟩

theorem letter_upright {style : MathStyle} {isUpper : Char → Bool} (h : TellsCapitals isUpper) {c : Char} (hc : isLetter c = true) : shouldBeUpright isUpper style c = setUpright style c := by
  obtain ⟨k, h1, h2⟩ := letter_kind hc
  rw [h2, C38_table isUpper h.letters style k c h1]

theorem named_upright {style : MathStyle} {isUpper : Char → Bool} (h : TellsCapitals isUpper) {name : Str} {c : Char} (hc : (name, c) ∈ namedLetters) :
    shouldBeUpright isUpper style c = setUpright style c := by
  rcases List.mem_append.1 hc with hc | hc
  · obtain ⟨k, h1, h2⟩ := greek_kind _ hc
    rw [h2, C38_table isUpper h.letters style k c h1]
  · have key : ∀ p ∈ ordinarySymbols, setUpright .french p.2 = !(97 ≤ p.2.toNat && p.2.toNat ≤ 122) ∧ setUpright .tex p.2 = false := by decide +kernel
    cases style with
    | tex => rw [(key _ hc).2]; simp [shouldBeUpright, h.symbols _ hc]
    | french => exact (key _ hc).1.symm
    | _ => rfl

theorem accent_upright {style : MathStyle} {isUpper : Char → Bool} (h : TellsCapitals isUpper) (a : Accent) : shouldBeUpright isUpper style a.sign = setUpright style a.sign := by
  have key : setUpright .french a.sign = !(97 ≤ a.sign.toNat && a.sign.toNat ≤ 122) ∧ setUpright .tex a.sign = false := by cases a <;> decide +kernel
  cases style with
  | tex => rw [key.2]; simp [shouldBeUpright, h.accents a]
  | french => exact key.1.symm
  | _ => rfl

theorem digits_same (P : Printing) (ds : Str) : ds.map (P.digit none) = ds := List.map_id ds

theorem after_ord {r : Role} {prev : Option Atom} (hr : r.silent = true → ordLike prev = true) : ordLike (r.after prev .ord) = true := by
  unfold Role.after
  split
  · exact hr ‹_›
  · rfl

theorem word_text (P : Printing) {t : Str} (h : t.head?.any isLetter = true ∧ t.getLast?.any isLetter = true ∧ ∀ c ∈ t, inWords c = true) :
    spaceAt t.head? ++ (trimmed t).flatMap (fun c => escaped (P.textual none c)) ++ spaceAt t.getLast? = t := by
  have key : ∀ c ∈ t, escaped c = [c] := by
    intro c hc
    have hl := h.2.2 c hc
    unfold escaped
    split <;> first | rfl | cases hl
  have trim : ∀ u : Str, u.head?.any isLetter = true → u.dropWhile isWs = u ∧ spaceAt u.head? = [] := by
    intro u hu
    cases u with
    | nil => cases hu
    | cons c u => simp [List.dropWhile, spaceAt, (letter_content hu).2.2.2.2.1]
  have hr : t.reverse.head?.any isLetter = true := by rw [List.head?_reverse]; exact h.2.1
  have h1 : trimmed t = t := by
    unfold trimmed
    rw [(trim t h.1).1, (trim t.reverse hr).1, List.reverse_reverse]
  have h2 : spaceAt t.head? = [] := (trim t h.1).2
  have h3 : spaceAt t.getLast? = [] := by rw [← List.head?_reverse]; exact (trim t.reverse hr).2
  have h4 : t.flatMap (fun c => escaped (P.textual none c)) = t := by
    have : ∀ u : Str, (∀ c ∈ u, escaped c = [c]) → u.flatMap (fun c => escaped (P.textual none c)) = u := by
      intro u hu
      induction u with
      | nil => rfl
      | cons c u ih =>
        rw [List.flatMap_cons, ih fun c hc => hu c (by simp [hc])]
        exact congrArg (· ++ u) (hu c (by simp))
    exact this t key
  rw [h1, h2, h3, h4, List.nil_append, List.append_nil]

section
variable {cfg : RCfg} (hu : TellsCapitals cfg.isUpper)

theorem identifier_shows {c : Char} (h : shouldBeUpright cfg.isUpper cfg.style c = setUpright cfg.style c) (r : Role) (prev next : Option Atom) (hr : r.silent = true → ordLike prev = true) :
    Shows ((Node.content (.ordinary c false)).markup (printing cfg) r {} prev next) (identifier cfg.style c) := by
  refine ⟨?_, rfl, ?_⟩
  · simp only [Node.markup, Printing.content, look_nothing, Printing.letter, identifier, printing, h]
    rfl
  · exact after_ord hr

theorem variant_char (cfg : RCfg) {a : Alphabet} {l c : Char} (h : (a, l, c) ∈ variants) : (printing cfg).mapped a.font l = c := by
  have key : ∀ p ∈ variants, (printing rc0).mapped p.1.font p.2.1 = p.2.2 := by decide +kernel
  exact key _ h

theorem group_shows {ns : Nodes} {text : Str} (h : Shows (ns.markup (printing cfg) [] {} none none) text) (r : Role) (prev next : Option Atom) :
    Shows ((Node.group none [] ns).markup (printing cfg) r {} prev next) (tag c!"mrow" [] text) := by
  refine ⟨?_, rfl, rfl⟩
  simp only [Node.markup, List.foldl_nil, look_nothing]
  exact congrArg (tag c!"mrow" []) h.1

theorem nil_shows (rs : List Role) {p : Option Atom} (h : ordLike p = true) (next : Option Atom) : Shows (Nodes.nil.markup (printing cfg) rs {} p next) [] := ⟨rfl, rfl, h⟩

theorem cons_shows {n : Node} {ns : Nodes} {rs : List Role} {prev next : Option Atom} {a b : Str} (h1 : Shows (n.markup (printing cfg) (rs.headD .free) {} prev (ns.first next)) a)
    (h2 : ∀ p, ordLike p = true → Shows (ns.markup (printing cfg) rs.tail {} p next) b) : Shows ((Nodes.cons n ns).markup (printing cfg) rs {} prev next) (a ++ b) := by
  rw [Nodes.markup]
  generalize n.markup (printing cfg) (rs.headD .free) {} prev (ns.first next) = w at *
  obtain ⟨t, st, p⟩ := w
  obtain ⟨rfl, rfl, hp⟩ := h1
  have h3 := h2 p hp
  exact ⟨by rw [← h3.1], h3.2.1, h3.2.2⟩

/-- The same when nothing is known of the class of the first element. -/
theorem any_shows {n : Node} {ns : Nodes} {rs : List Role} {prev next : Option Atom} {a b : Str} (h1 : (n.markup (printing cfg) (rs.headD .free) {} prev (ns.first next)).text = a)
    (h1' : (n.markup (printing cfg) (rs.headD .free) {} prev (ns.first next)).st = {}) 
    (h2 : Shows (ns.markup (printing cfg) rs.tail {} (n.markup (printing cfg) (rs.headD .free) {} prev (ns.first next)).prev next) b) :
    Shows ((Nodes.cons n ns).markup (printing cfg) rs {} prev next) (a ++ b) := by
  rw [Nodes.markup]
  generalize n.markup (printing cfg) (rs.headD .free) {} prev (ns.first next) = w at *
  obtain ⟨t, st, p⟩ := w
  subst h1
  subst h1'
  exact ⟨by rw [← h2.1], h2.2.1, h2.2.2⟩

/-- The same with any class of the last element. -/
def Leaves (w : Written) (text : Str) (q : Bool) : Prop := w.text = text ∧ w.st = {} ∧ ordLike w.prev = q

theorem cons_leaves {n : Node} {ns : Nodes} {rs : List Role} {prev next : Option Atom} {a b : Str} {p q : Bool} (h1 : Leaves (n.markup (printing cfg) (rs.headD .free) {} prev (ns.first next)) a p)
    (h2 : ∀ v, ordLike v = p → Leaves (ns.markup (printing cfg) rs.tail {} v next) b q) :
    Leaves ((Nodes.cons n ns).markup (printing cfg) rs {} prev next) (a ++ b) q := by
  rw [Nodes.markup]
  generalize n.markup (printing cfg) (rs.headD .free) {} prev (ns.first next) = w at *
  obtain ⟨t, st, v⟩ := w
  obtain ⟨rfl, rfl, hp⟩ := h1
  have h3 := h2 v hp
  exact ⟨by rw [← h3.1], h3.2.1, h3.2.2⟩

theorem script_shows {ty : ScriptType} {ops : Nodes} {prev next : Option Atom} {text : Str} (hf : ops.function = false) (h : Shows (ops.markup (printing cfg) (scriptRoles ty) {} prev next) text) :
    Shows ((Node.script ty .right ops).markup (printing cfg) .free {} prev next) (tag (scriptElement ty false) [] text) := by
  refine ⟨?_, h.2.1, h.2.2⟩
  simp only [Node.markup, hf, look_nothing, h.1, Printing.above]
  exact List.append_nil _

theorem operand_function (b : Operand) (ns : Nodes) : (Nodes.cons b.node ns).function = ns.function := by
  cases b <;> rfl

theorem index_function (s : Index) (ns : Nodes) : (Nodes.cons s.node ns).function = ns.function := by
  cases s <;> rfl

/-- The classes that an expression can start with. -/
def Leads (o : Option Atom) : Prop := o = some .inner ∨ o = some .bin ∨ o = some .op ∨ o = some .ord

theorem operand_first (b : Operand) : Leads b.node.first := by
  cases b <;> first | exact .inl rfl | exact .inr (.inr (.inr rfl))

theorem first_or {o p : Option Atom} (h : Leads o) : Leads (o <|> p) := by
  rcases h with rfl | rfl | rfl | rfl
  · exact .inl rfl
  · exact .inr (.inl rfl)
  · exact .inr (.inr (.inl rfl))
  · exact .inr (.inr (.inr rfl))

theorem piece_first (i : Scripted) : Leads i.node.first := by
  cases i with
  | plain b => exact operand_first b
  | sup b e => exact first_or (operand_first b)
  | sub b e => exact first_or (operand_first b)
  | subSup b l u => exact first_or (operand_first b)

theorem expr_opens (e : Expr) : Leads (e.nodes.first none) := by
  cases e with
  | one i => exact first_or (piece_first i)
  | next i e => exact first_or (piece_first i)
  | «infix» i o e => exact first_or (piece_first i)
  | signed s e => cases s <;> exact .inr (.inl rfl)
  | apply f e => exact .inr (.inr (.inr rfl))
  | big op l u e => exact .inr (.inr (.inl rfl))
  | ranged op l e => exact .inr (.inr (.inl rfl))

theorem Leads.starts {o : Option Atom} (h : Leads o) : startsOperand o = true := by
  rcases h with rfl | rfl | rfl | rfl <;> rfl

theorem Leads.applied {o : Option Atom} (h : Leads o) : application o = tag c!"mo" [] ['⁡'] ++ thinSpace := by
  rcases h with rfl | rfl | rfl | rfl <;> rfl

theorem expr_first (e : Expr) : startsOperand (e.nodes.first none) = true := (expr_opens e).starts

/-- The sign, and what comes after it. -/
theorem infix_shows (o : Infix) {ns : Nodes} {prev : Option Atom} {b : Str} (hp : ordLike prev = true) (hn : startsOperand (ns.first none) = true)
    (h : ∀ p, ordLike p = false → Shows (ns.markup (printing cfg) [] {} p none) b) :
    Shows ((Nodes.cons (.content o.content) ns).markup (printing cfg) [] {} prev none) (tag c!"mo" [] [o.sign] ++ b) := by
  have e : ((Node.content o.content).markup (printing cfg) .free {} prev (ns.first none)).text = tag c!"mo" [] [o.sign] := by
    cases o <;> simp only [Node.markup, Infix.content, Printing.content, look_nothing, actsBinary, hp, hn] <;> rfl
  have e2 : ordLike ((Node.content o.content).markup (printing cfg) .free {} prev (ns.first none)).prev = false := by
    cases o <;> simp only [Node.markup, Infix.content, behind, Role.after, Role.silent, actsBinary, hp, hn] <;> rfl
  exact any_shows e rfl (h _ e2)

theorem sign_shows (s : Sign) {ns : Nodes} {prev : Option Atom} {b : Str} (hn : startsOperand (ns.first none) = true)
    (h : ∀ p, ordLike p = (!ordLike prev) → Shows (ns.markup (printing cfg) [] {} p none) b) :
    Shows ((Nodes.cons (.content s.content) ns).markup (printing cfg) [] {} prev none) (tag (if ordLike prev then c!"mo" else c!"mi") [] [s.sign] ++ b) := by
  have e : ((Node.content s.content).markup (printing cfg) .free {} prev (ns.first none)).text = tag (if ordLike prev then c!"mo" else c!"mi") [] [s.sign] := by
    cases hp : ordLike prev <;> cases s <;> simp only [Node.markup, Sign.content, Printing.content, look_nothing, actsBinary, hp, hn] <;> rfl
  have e2 : ordLike ((Node.content s.content).markup (printing cfg) .free {} prev (ns.first none)).prev = !ordLike prev := by
    cases hp : ordLike prev <;> cases s <;> simp only [Node.markup, Sign.content, behind, Role.after, Role.silent, actsBinary, hp, hn] <;> rfl
  exact any_shows e rfl (h _ e2)

theorem func_shows (f : Func) {ns : Nodes} {prev : Option Atom} {b : Str} (hn : Leads (ns.first none)) (h : ∀ p, ordLike p = false → Shows (ns.markup (printing cfg) [] {} p none) b) :
    Shows ((Nodes.cons (.content (.function f.name)) ns).markup (printing cfg) [] {} prev none)
      ((if ordLike prev then thinSpace else []) ++ tag c!"mi" [] f.name ++ tag c!"mo" [] ['⁡'] ++ thinSpace ++ b) := by
  have e : ((Node.content (.function f.name)).markup (printing cfg) .free {} prev (ns.first none)).text =
      (if ordLike prev then thinSpace else []) ++ tag c!"mi" [] f.name ++ tag c!"mo" [] ['⁡'] ++ thinSpace := by
    have hl : f.name.length ≠ 1 := by cases f <;> decide
    simp only [Node.markup, Printing.content, look_nothing, hn.applied, if_neg hl]
    simp [Role.scripted, List.append_assoc]
  exact any_shows e rfl (h _ rfl)

include hu

theorem mark_shows (a : Accent) {p : Option Atom} (hp : ordLike p = true) (next : Option Atom) :
    Shows ((Nodes.one (.content (.ordinary a.sign a.wide))).markup (printing cfg) [.script] {} p next) (a.mark cfg.style) := by
  cases hw : a.wide
  · have h := cons_shows (rs := [.script]) (identifier_shows (accent_upright hu a) .script p next fun _ => hp) fun p hp => nil_shows [] hp next
    rw [Accent.mark, hw, if_neg (by decide)]
    rwa [List.append_nil] at h
  · rw [Accent.mark, hw, if_pos rfl]
    exact ⟨rfl, rfl, hp⟩

mutual
theorem operand_shows : ∀ (b : Operand) (r : Role) (prev next : Option Atom), (r.silent = true → ordLike prev = true) → Shows (b.node.markup (printing cfg) r {} prev next) (b.mathml cfg.block cfg.style)
  | .letter c h, r, prev, next, hr => identifier_shows (letter_upright hu h) r prev next hr
  | .named name c h, r, prev, next, hr => identifier_shows (named_upright hu h) r prev next hr
  | .number ds h, r, prev, next, hr => by
    refine ⟨?_, rfl, ?_⟩
    · simp only [Operand.node, Node.markup, Printing.content, look_nothing, Operand.mathml, digits_same]
      rfl
    · exact after_ord hr
  | .word t h, r, prev, next, hr => by
    refine ⟨?_, rfl, after_ord hr⟩
    simp only [Operand.node, Node.markup, Printing.content, look_nothing, Operand.mathml, List.nil_append]
    exact congrArg (tag c!"mtext" []) (word_text _ h)
  | .styled a l c h, r, prev, next, _ => by
    refine ⟨?_, rfl, rfl⟩
    simp only [Operand.node, Node.markup, Nodes.markup, Nodes.one, List.foldl_cons, List.foldl_nil, changed, Operand.mathml, Printing.content]
    have e := variant_char cfg h
    have e2 : ∀ r, lookAttributes r { font := some a.font } = [] := fun r => by unfold lookAttributes; split <;> rfl
    rw [e2, e2]
    cases a <;> simp only [Printing.letter, Alphabet.font] at e ⊢ <;> rw [e] <;> rfl
  | .group e, r, prev, next, _ => group_shows (expr_shows e none false rfl) r prev next
  | .fraction n d, r, prev, next, _ => by
    have h := cons_shows (rs := [.main, .aside]) (group_shows (expr_shows n none false rfl) .main prev _) fun p hp =>
      cons_shows (rs := [.aside]) (prev := p) (next := next) (group_shows (expr_shows d none false rfl) .aside p _) fun p hp => nil_shows [] hp next
    rw [List.append_nil] at h
    refine ⟨?_, h.2.1, h.2.2⟩
    rw [Operand.mathml, ← h.1]
    rfl
  | .root e, r, prev, next, _ => by
    have h := cons_shows (rs := [.main]) (prev := prev) (next := next) (group_shows (expr_shows e none false rfl) .main prev _) fun p hp => nil_shows [] hp next
    rw [List.append_nil] at h
    refine ⟨?_, h.2.1, rfl⟩
    rw [Operand.mathml, ← h.1]
    rfl
  | .nthRoot i e, r, prev, next, _ => by
    have h := cons_shows (rs := [.main, .aside]) (group_shows (expr_shows e none false rfl) .main prev _) fun p hp =>
      cons_shows (rs := [.aside]) (prev := p) (next := next) (operand_shows i .aside p _ fun _ => hp) fun p hp => nil_shows [] hp next
    rw [List.append_nil] at h
    refine ⟨?_, h.2.1, h.2.2⟩
    rw [Operand.mathml]
    refine Eq.trans ?_ (congrArg (tag c!"mroot" []) h.1)
    rfl
  | .accented a e, r, prev, next, _ => by
    have h := cons_shows (rs := [.base, .script]) (group_shows (expr_shows e none false rfl) .base prev _) fun p hp =>
      mark_shows hu a hp next
    refine ⟨?_, h.2.1, h.2.2⟩
    rw [Operand.mathml, ← h.1]
    exact List.append_nil _
  | .fenced f e, r, prev, next, _ => by
    refine ⟨?_, rfl, rfl⟩
    simp only [Operand.node, Operand.mathml, Node.markup, List.foldl_nil, look_nothing, stretched, List.nil_append]
    rw [← (expr_shows e (some .open_) false rfl).1]
    rfl
  | .matrix g, r, prev, next, _ => by
    refine ⟨?_, rfl, rfl⟩
    simp only [Operand.node, Operand.mathml, Node.markup, Option.getD_none]
    rw [← grid_shows g (.inl rfl)]
    rfl
  | .choice g, r, prev, next, _ => by
    refine ⟨?_, rfl, rfl⟩
    simp only [Operand.node, Operand.mathml, Node.markup, Option.getD_none]
    rw [← grid_shows g (.inr rfl)]
    simp [tableElement, tableClasses, classes, joined]
theorem piece_shows : ∀ (i : Scripted) (prev next : Option Atom), Shows (i.node.markup (printing cfg) .free {} prev next) (i.mathml cfg.block cfg.style)
  | .plain b, prev, next => operand_shows b .free prev next nofun
  | .sup b e, prev, next => by
    have h := cons_shows (rs := [.base, .script]) (operand_shows b .base prev _ nofun) fun p hp =>
      cons_shows (rs := [.script]) (prev := p) (next := next) (index_shows e p _ hp) fun p hp => nil_shows [] hp next
    rw [List.append_nil] at h
    exact script_shows (ty := .sup) (by rw [Nodes.two, operand_function, Nodes.one, index_function]; rfl) h
  | .sub b e, prev, next => by
    have h := cons_shows (rs := [.base, .script]) (operand_shows b .base prev _ nofun) fun p hp =>
      cons_shows (rs := [.script]) (prev := p) (next := next) (index_shows e p _ hp) fun p hp => nil_shows [] hp next
    rw [List.append_nil] at h
    exact script_shows (ty := .sub) (by rw [Nodes.two, operand_function, Nodes.one, index_function]; rfl) h
  | .subSup b l u, prev, next => by
    have h := cons_shows (rs := [.base, .script, .script]) (operand_shows b .base prev _ nofun) fun p hp =>
      cons_shows (rs := [.script, .script]) (prev := p) (index_shows l p _ hp) fun p hp =>
      cons_shows (rs := [.script]) (prev := p) (next := next) (index_shows u p _ hp) fun p hp => nil_shows [] hp next
    rw [List.append_nil, ← List.append_assoc] at h
    exact script_shows (ty := .subSup) (by rw [Nodes.three, operand_function, Nodes.two, index_function, Nodes.one, index_function]; rfl) h
theorem index_text : ∀ (s : Index) (prev next : Option Atom), Leaves (s.node.markup (printing cfg) .script {} prev next) (s.mathml cfg.block cfg.style) (s.grouped || ordLike prev)
  | .braced e, prev, next => group_shows (expr_shows e none false rfl) .script prev next
  | .letter c h, prev, next => ⟨by
      simp only [Index.node, Node.markup, Printing.content, look_nothing, Printing.letter, identifier, printing, letter_upright hu h, Index.mathml]
      rfl, rfl, rfl⟩
  | .digit c h, prev, next => ⟨by
      simp only [Index.node, Node.markup, Printing.content, look_nothing, Index.mathml, digits_same]
      rfl, rfl, rfl⟩
theorem index_shows (s : Index) (prev next : Option Atom) (h : ordLike prev = true) : Shows (s.node.markup (printing cfg) .script {} prev next) (s.mathml cfg.block cfg.style) := by
  obtain ⟨h1, h2, h3⟩ := index_text s prev next
  exact ⟨h1, h2, by rw [h3, h, Bool.or_true]⟩
theorem expr_shows : ∀ (e : Expr) (prev : Option Atom) (after : Bool), ordLike prev = after → Shows (e.nodes.markup (printing cfg) [] {} prev none) (e.mathml cfg.block cfg.style after)
  | .one i, prev, after, ha => by
    have h := cons_shows (rs := []) (prev := prev) (next := none) (piece_shows i prev _) fun p hp => nil_shows [] hp none
    rw [List.append_nil] at h
    exact h
  | .next i e, prev, after, ha => cons_shows (rs := []) (piece_shows i prev _) fun p hp => expr_shows e p _ hp
  | .infix i o e, prev, after, ha => by
    have h := cons_shows (rs := []) (piece_shows i prev _) fun p hp => infix_shows o hp (expr_first e) fun q hq => expr_shows e q _ hq
    rw [← List.append_assoc] at h
    exact h
  | .signed s e, prev, after, ha => ha ▸ sign_shows s (expr_first e) fun p hp => expr_shows e p _ hp
  | .apply f e, prev, after, ha => ha ▸ func_shows f (expr_opens e) fun p hp => expr_shows e p _ hp
  | .big op l u e, prev, after, ha => by
    have h := cons_leaves (n := .content (.largeOp op.sign false)) (rs := [.base, .script, .script]) (prev := prev) (next := e.nodes.first none) (p := false)
      (a := tag c!"mo" [(c!"movablelimits", c!"false")] [op.sign]) ⟨rfl, rfl, rfl⟩ fun v hv =>
      cons_leaves (rs := [.script, .script]) (index_text l v _) fun v' hv' =>
      cons_leaves (rs := [.script]) (prev := v') (next := e.nodes.first none) (q := l.grouped || u.grouped) (index_text u v' _) fun v'' hv'' =>
        (⟨rfl, rfl, (by rw [hv'', hv', hv, Bool.or_false, Bool.or_comm] : ordLike v'' = _)⟩ : Leaves (Nodes.nil.markup (printing cfg) [] {} v'' _) [] _)
    rw [List.append_nil, ← List.append_assoc] at h
    refine any_shows (rs := []) ?_ h.2.1 (expr_shows e _ _ h.2.2)
    have e1 : scriptElement .subSup ((printing cfg).above {} op.position) = if op.stacked cfg.block then c!"munderover" else c!"msubsup" := by cases op <;> rfl
    have e2 : (Nodes.three (.content (.largeOp op.sign false)) l.node u.node).function = false := by
      show (Nodes.cons l.node (.cons u.node .nil)).function = false
      rw [index_function, index_function]
      rfl
    rw [List.headD_nil, Node.markup, e1, look_nothing, e2, ← h.1]
    exact List.append_nil _
  | .ranged op l e, prev, after, ha => by
    have h := cons_leaves (n := .content (.largeOp op.sign false)) (rs := [.base, .script]) (prev := prev) (next := e.nodes.first none) (p := false)
      (a := tag c!"mo" [(c!"movablelimits", c!"false")] [op.sign]) ⟨rfl, rfl, rfl⟩ fun v hv =>
      cons_leaves (rs := [.script]) (prev := v) (next := e.nodes.first none) (q := l.grouped) (index_text l v _) fun v' hv' =>
        (⟨rfl, rfl, (by rw [hv', hv, Bool.or_false] : ordLike v' = _)⟩ : Leaves (Nodes.nil.markup (printing cfg) [] {} v' _) [] _)
    rw [List.append_nil] at h
    refine any_shows (rs := []) ?_ h.2.1 (expr_shows e _ _ h.2.2)
    have e1 : scriptElement .sub ((printing cfg).above {} op.position) = if op.stacked cfg.block then c!"munder" else c!"msub" := by cases op <;> rfl
    have e2 : (Nodes.two (.content (.largeOp op.sign false)) l.node).function = false := by
      show (Nodes.cons l.node .nil).function = false
      rw [index_function]
      rfl
    rw [List.headD_nil, Node.markup, e1, look_nothing, e2, ← h.1]
    exact List.append_nil _
theorem entries_shows : ∀ (es : Entries) {gr : Grouping} (_ : gr = .matrix .center ∨ gr = .cases true) (i : Nat), es.cells.markup (printing cfg) gr i [] {} none = es.mathml cfg.block cfg.style
  | .last e, _, hr, i => by
    rw [Entries.mathml, ← (expr_shows e none false rfl).1]
    rcases hr with rfl | rfl <;> rfl
  | .cons e es, _, hr, i => by
    rw [Entries.mathml, ← (expr_shows e none false rfl).1, ← entries_shows es hr (i + 1)]
    rcases hr with rfl | rfl <;> rfl
theorem grid_shows : ∀ (g : Grid) {gr : Grouping} (_ : gr = .matrix .center ∨ gr = .cases true), g.rows.markup (printing cfg) gr [] = g.mathml cfg.block cfg.style
  | .last es, _, hr => by
    rw [Grid.mathml, ← entries_shows es hr 0]
    rcases hr with rfl | rfl <;> rfl
  | .cons es g, _, hr => by
    rw [Grid.mathml, ← entries_shows es hr 0, ← grid_shows g hr, Grid.rows, Rows.markup, spacingRow, List.append_nil]
    rcases hr with rfl | rfl <;> rfl
end
end

/-! ## The tree is well-formed -/

mutual
theorem operand_regular : ∀ b : Operand, b.proper = true → b.node.regular = true
  | .letter _ _, _ => rfl
  | .number _ _, _ => rfl
  | .word _ _, _ => rfl
  | .styled _ _ _ _, _ => rfl
  | .nthRoot i e, h => by
    rw [Operand.proper, Bool.and_eq_true] at h
    simp only [Operand.node, Node.regular, Nodes.regular, Nodes.two, Nodes.one, (expr_nodes _).2.2, operand_regular i h.1, expr_regular e h.2]
    rfl
  | .accented a e, h => by
    simp only [Operand.node, Node.regular, Nodes.regular, Nodes.two, Nodes.one, (expr_nodes _).2.2, expr_regular e h]
    rfl
  | .named _ _ _, _ => rfl
  | .group e, h => by simp only [Operand.node, Node.regular, (expr_nodes e).2.2, expr_regular e h]; rfl
  | .fraction n d, h => by
    rw [Operand.proper, Bool.and_eq_true] at h
    simp only [Operand.node, Node.regular, Nodes.regular, Nodes.two, Nodes.one, (expr_nodes _).2.2, expr_regular n h.1, expr_regular d h.2]
    rfl
  | .root e, h => by
    simp only [Operand.node, Node.regular, Nodes.regular, Nodes.one, (expr_nodes _).2.2, expr_regular e h]
    rfl
  | .fenced f e, h => by simp only [Operand.node, Node.regular, (expr_nodes e).2.2, expr_regular e h]; rfl
  | .matrix g, h => by
    have h1 := grid_regular g h
    have h2 : g.rows.lined = false := by
      cases g with
      | last es => cases es <;> rfl
      | cons es g => cases es <;> rfl
    simp only [Operand.node, Node.regular, h2]
    exact h1
  | .choice g, h => by
    have h1 := grid_regular g h
    have h2 : g.rows.lined = false := by
      cases g with
      | last es => cases es <;> rfl
      | cons es g => cases es <;> rfl
    simp only [Operand.node, Node.regular, h2]
    exact h1
theorem piece_regular : ∀ i : Scripted, i.proper = true → i.node.regular = true
  | .plain b, h => operand_regular b h
  | .sup b e, h => by
    rw [Scripted.proper, Bool.and_eq_true] at h
    simp only [Scripted.node, Node.regular, Nodes.regular, Nodes.two, Nodes.one, operand_regular b h.1, index_regular e h.2]
    rfl
  | .sub b e, h => by
    rw [Scripted.proper, Bool.and_eq_true] at h
    simp only [Scripted.node, Node.regular, Nodes.regular, Nodes.two, Nodes.one, operand_regular b h.1, index_regular e h.2]
    rfl
  | .subSup b l u, h => by
    rw [Scripted.proper, Bool.and_eq_true, Bool.and_eq_true] at h
    simp only [Scripted.node, Node.regular, Nodes.regular, Nodes.three, Nodes.two, Nodes.one, operand_regular b h.1.1, index_regular l h.1.2, index_regular u h.2]
    rfl
theorem index_regular : ∀ s : Index, s.proper = true → s.node.regular = true
  | .braced e, h => by simp only [Index.node, Node.regular, (expr_nodes e).2.2, expr_regular e h]; rfl
  | .letter _ _, _ => rfl
  | .digit _ _, _ => rfl
theorem expr_regular : ∀ e : Expr, e.proper = true → e.nodes.regular = true
  | .one i, h => regular_cons (piece_regular i h) rfl
  | .next i e, h => by
    rw [Expr.proper, Bool.and_eq_true] at h
    exact regular_cons (piece_regular i h.1) (expr_regular e h.2)
  | .infix i o e, h => by
    rw [Expr.proper, Bool.and_eq_true] at h
    exact regular_cons (piece_regular i h.1) (regular_cons rfl (expr_regular e h.2))
  | .signed s e, h => regular_cons (by cases s <;> rfl) (expr_regular e h)
  | .apply f e, h => regular_cons rfl (expr_regular e h)
  | .big op l u e, h => by
    rw [Expr.proper, Bool.and_eq_true, Bool.and_eq_true, Bool.and_eq_true] at h
    replace h := h.1
    refine regular_cons ?_ (expr_regular e h.2)
    simp only [Node.regular, Nodes.regular, Nodes.three, Nodes.two, Nodes.one, index_regular l h.1.1, index_regular u h.1.2]
    rfl
  | .ranged op l e, h => by
    rw [Expr.proper, Bool.and_eq_true, Bool.and_eq_true] at h
    replace h := h.1
    refine regular_cons ?_ (expr_regular e h.2)
    simp only [Node.regular, Nodes.regular, Nodes.two, Nodes.one, index_regular l h.1]
    rfl
theorem entries_regular : ∀ es : Entries, es.proper = true → es.cells.regular = true
  | .last e, h => expr_regular e h
  | .cons e es, h => by
    rw [Entries.proper, Bool.and_eq_true] at h
    rw [Entries.cells, Cells.regular, expr_regular e h.1, entries_regular es h.2]
    rfl
theorem grid_regular : ∀ (g : Grid) {m : Nat}, g.proper m = true → g.rows.regular (m + 1) = true
  | .last es, m, h => by
    rw [Grid.proper, Bool.and_eq_true] at h
    rw [Grid.rows, Rows.regular, entries_length, h.1, entries_regular es h.2]
    rfl
  | .cons es g, m, h => by
    rw [Grid.proper, Bool.and_eq_true, Bool.and_eq_true] at h
    rw [Grid.rows, Rows.regular, entries_length, h.1.1, entries_regular es h.1.2, grid_regular g h.2]
    rfl
theorem entries_length : ∀ es : Entries, es.cells.length = es.width
  | .last _ => rfl
  | .cons _ es => congrArg (· + 1) (entries_length es)
end

/-- **C78.** The LaTeX of an expression is parsed without error, and rendering the events gives the MathML of the expression. -/
theorem C78_expression (cf : Cfg) (cfg : RCfg) (hu : TellsCapitals cfg.isUpper) (e : Expr) (hn : e.proper = true) :
    ∃ es, Yields cf e.source (es.map .ok) ∧ Displays cfg es (e.mathml cfg.block cfg.style false) := by
  refine ⟨e.nodes.events, C55_meaning cf _ _ (expr_read e hn).formula, ?_⟩
  rw [← (expr_shows hu e none false rfl).1]
  exact displays_body cfg (expr_regular e hn)

/-! ### Cases -/

def var (c : Char) (h : isLetter c = true := by decide) : Scripted := .plain (.letter c h)
def num (ds : Str) (h : ds.head?.any isDigit = true ∧ ds.getLast?.any isDigit = true ∧ ∀ c ∈ ds, inNumber c = true := by decide) : Operand := .number ds h

/-- The larger solution of an equation. -/
def solution : Expr :=
  .infix (var 'x') .equals (.one (.plain (.fraction
    (.infix (var 'b') .plus (.one (.plain (.root (.infix (.sup (.letter 'b' (by decide)) (.digit '2' (by decide))) .minus (.next (.plain (num c!"4")) (.next (var 'a') (.one (var 'c')))))))))
    (.next (.plain (num c!"2")) (.one (var 'a'))))))

example : solution.source = c!"x=\\frac{b+\\sqrt{b^2-4 ac}}{2 a}" := by decide +kernel
example : solution.mathml true .tex false = c!"<mi>x</mi><mo>=</mo><mfrac><mrow><mi>b</mi><mo>+</mo><msqrt><mrow><msup><mi>b</mi><mn>2</mn></msup><mo>−</mo><mn>4</mn><mi>a</mi><mi>c</mi></mrow></msqrt></mrow><mrow><mn>2</mn><mi>a</mi></mrow></mfrac>" := by
  decide +kernel
example : solution.proper = true := by decide +kernel

/-- A sum of products and a determinant. -/
def determinant : Expr :=
  .infix (.plain (.fenced .bar (.one (.plain (.matrix (.cons (.cons (.one (var 'a')) (.last (.one (var 'b')))) (.last (.cons (.one (var 'c')) (.last (.one (var 'd'))))))))))) (.relation c!"le" '≤' (by decide))
    (.big .sum (.braced (.infix (var 'i') .equals (.one (.plain (num c!"1"))))) (.letter 'n' (by decide))
      (.infix (.subSup (.named c!"lambda" 'λ' (by decide)) (.letter 'i' (by decide)) (.braced (.one (.plain (num c!"2"))))) (.operation c!"times" '×' (by decide)) (.one (.plain (.named c!"Omega" 'Ω' (by decide))))))

example : determinant.source = c!"\\left|\\begin{matrix}a&b\\\\c&d\\end{matrix}\\right|\\le \\sum_{i=1 }^n\\lambda _i^{2 }\\times \\Omega " := by decide +kernel
example : determinant.mathml true .tex false =
    c!"<mrow><mo stretchy=\"true\">|</mo><mtable class=\"menv-arraylike\"><mtr><mtd><mi>a</mi></mtd><mtd><mi>b</mi></mtd></mtr><mtr><mtd><mi>c</mi></mtd><mtd><mi>d</mi></mtd></mtr></mtable><mo stretchy=\"true\">|</mo></mrow><mo>≤</mo>" ++
    c!"<munderover><mo movablelimits=\"false\">∑</mo><mrow><mi>i</mi><mo>=</mo><mn>1</mn></mrow><mi>n</mi></munderover>" ++
    c!"<msubsup><mi>λ</mi><mi>i</mi><mrow><mn>2</mn></mrow></msubsup><mo>×</mo><mi mathvariant=\"normal\">Ω</mi>" := by
  decide +kernel
example (cfg : RCfg) (hu : TellsCapitals cfg.isUpper) : ∃ es, Yields cf0 determinant.source (es.map .ok) ∧ Displays cfg es (determinant.mathml cfg.block cfg.style false) :=
  C78_expression cf0 cfg hu determinant (by decide +kernel)

/-- A series. -/
def series : Expr :=
  .big .sum (.braced (.infix (var 'k') .equals (.one (.plain (num c!"1"))))) (.braced (.one (.plain (.named c!"infty" '∞' (by decide)))))
    (.infix (.plain (.fraction (.one (.plain (num c!"1"))) (.one (.sup (.letter 'k' (by decide)) (.digit '2' (by decide)))))) (.relation c!"le" '≤' (by decide)) (.one (.plain (num c!"1.65"))))

example : series.source = c!"\\sum_{k=1 }^{\\infty }\\frac{1 }{k^2}\\le 1.65 " := by decide +kernel
example : series.mathml false .iso false =
    c!"<msubsup><mo movablelimits=\"false\">∑</mo><mrow><mi>k</mi><mo>=</mo><mn>1</mn></mrow><mrow><mi>∞</mi></mrow></msubsup>" ++
    c!"<mfrac><mrow><mn>1</mn></mrow><mrow><msup><mi>k</mi><mn>2</mn></msup></mrow></mfrac><mo>≤</mo><mn>1.65</mn>" := by
  decide +kernel
example : series.proper = true := by decide +kernel

/-- A map between vectors and numbers. -/
def functional : Expr :=
  .infix (.sub (.styled .bold 'v' '𝐯' (by decide +kernel)) (.digit '1' (by decide))) (.operation c!"cdot" '⋅' (by decide))
    (.infix (.plain (.styled .bold 'w' '𝐰' (by decide +kernel))) (.relation c!"in" '∈' (by decide)) (.one (.sup (.styled .doubleStruck 'R' 'ℝ' (by decide +kernel)) (.letter 'n' (by decide)))))

example : functional.source = c!"\\mathbf{v}_1\\cdot \\mathbf{w}\\in \\mathbb{R}^n" := by decide +kernel
example : functional.mathml true .tex false =
    c!"<msub><mrow><mi>𝐯</mi></mrow><mn>1</mn></msub><mo>⋅</mo><mrow><mi>𝐰</mi></mrow><mo>∈</mo><msup><mrow><mi>ℝ</mi></mrow><mi>n</mi></msup>" := by
  decide +kernel
example : functional.proper = true := by decide +kernel

/-- A definite integral of a product with signs, functions, a root and an accent. -/
def integral : Expr :=
  .signed .minus (.big .integral (.digit '0' (by decide)) (.braced (.one (.plain (.named c!"pi" 'π' (by decide)))))
    (.next (.plain (.nthRoot (num c!"3") (.one (.plain (.accented .arrow (.one (var 'v')))))))
      (.apply .sin (.infix (.sup (.letter 'e' (by decide)) (.braced (.signed .minus (.one (var 't'))))) .comma (.one (.plain (.word c!"where" (by decide))))))))

example : integral.source = c!"-\\int_0^{\\pi }\\sqrt[3 ]{\\overrightarrow{v}}\\sin e^{-t},\\text{where}" := by decide +kernel
example : integral.mathml true .tex false =
    c!"<mi>−</mi><msubsup><mo movablelimits=\"false\">∫</mo><mn>0</mn><mrow><mi>π</mi></mrow></msubsup>" ++
    c!"<mroot><mrow><mover><mrow><mi>v</mi></mrow><mo stretchy=\"true\">→</mo></mover></mrow><mn>3</mn></mroot>" ++
    c!"<mspace width=\"0.1667em\" /><mi>sin</mi><mo>⁡</mo><mspace width=\"0.1667em\" /><msup><mi>e</mi><mrow><mi>−</mi><mi>t</mi></mrow></msup><mo>,</mo><mtext>where</mtext>" := by
  decide +kernel
example (cfg : RCfg) (hu : TellsCapitals cfg.isUpper) : ∃ es, Yields cf0 integral.source (es.map .ok) ∧ Displays cfg es (integral.mathml cfg.block cfg.style false) :=
  C78_expression cf0 cfg hu integral (by decide +kernel)

/-- A law of motion. In the style of TeX the accent is like a letter, in French it is set upright. -/
def motion : Expr :=
  .infix (.plain (.accented .vector (.one (var 'F')))) .slash (.infix (var 'm') .equals (.infix (.plain (.accented .dots (.one (.plain (.styled .sansSerif 'x' '𝗑' (by decide +kernel)))))) .semicolon
    (.infix (var 'm') .greater (.one (.plain (num c!"0"))))))

example : motion.source = c!"\\vec{F}/m=\\ddot{\\mathsf{x}};m>0 " := by decide +kernel
example : motion.mathml true .tex false =
    c!"<mover><mrow><mi>F</mi></mrow><mi>→</mi></mover><mo>/</mo><mi>m</mi><mo>=</mo><mover><mrow><mrow><mi>𝗑</mi></mrow></mrow><mi>¨</mi></mover><mo>;</mo><mi>m</mi><mo>></mo><mn>0</mn>" := by
  decide +kernel
example : motion.mathml true .french false =
    c!"<mover><mrow><mi mathvariant=\"normal\">F</mi></mrow><mi mathvariant=\"normal\">→</mi></mover><mo>/</mo><mi>m</mi><mo>=</mo><mover><mrow><mrow><mi>𝗑</mi></mrow></mrow><mi mathvariant=\"normal\">¨</mi></mover><mo>;</mo><mi>m</mi><mo>></mo><mn>0</mn>" := by
  decide +kernel
example (cfg : RCfg) (hu : TellsCapitals cfg.isUpper) : ∃ es, Yields cf0 motion.source (es.map .ok) ∧ Displays cfg es (motion.mathml cfg.block cfg.style false) :=
  C78_expression cf0 cfg hu motion (by decide +kernel)

/-- A sum over a set of indices. -/
def indexSum : Expr :=
  .ranged .sum (.braced (.infix (var 'i') (.relation c!"in" '∈' (by decide)) (.one (var 'I')))) (.one (.sub (.letter 'x' (by decide)) (.letter 'i' (by decide))))

example : indexSum.source = c!"\\sum_{i\\in I}x_i" := by decide +kernel
example : indexSum.mathml true .tex false =
    c!"<munder><mo movablelimits=\"false\">∑</mo><mrow><mi>i</mi><mo>∈</mo><mi>I</mi></mrow></munder><msub><mi>x</mi><mi>i</mi></msub>" := by
  decide +kernel
example : indexSum.mathml false .tex false =
    c!"<msub><mo movablelimits=\"false\">∑</mo><mrow><mi>i</mi><mo>∈</mo><mi>I</mi></mrow></msub><msub><mi>x</mi><mi>i</mi></msub>" := by
  decide +kernel
example (cfg : RCfg) (hu : TellsCapitals cfg.isUpper) : ∃ es, Yields cf0 indexSum.source (es.map .ok) ∧ Displays cfg es (indexSum.mathml cfg.block cfg.style false) :=
  C78_expression cf0 cfg hu indexSum (by decide +kernel)

/-- The absolute value, by cases. -/
def absolute : Expr :=
  .infix (.plain (.fenced .bar (.one (var 'x')))) .equals (.one (.plain (.choice
    (.cons (.cons (.one (var 'x')) (.last (.infix (var 'x') (.relation c!"ge" '≥' (by decide)) (.one (.plain (num c!"0.0"))))))
      (.last (.cons (.signed .minus (.one (var 'x'))) (.last (.one (.plain (.word c!"in all other cases" (by decide)))))))))))

example : absolute.source = c!"\\left|x\\right|=\\begin{cases}x&x\\ge 0.0 \\\\-x&\\text{in all other cases}\\end{cases}" := by decide +kernel
example : absolute.mathml true .tex false =
    c!"<mrow><mo stretchy=\"true\">|</mo><mi>x</mi><mo stretchy=\"true\">|</mo></mrow><mo>=</mo><mrow><mo stretchy=\"true\">{</mo><mtable class=\"menv-cells-left menv-cases\">" ++
    c!"<mtr><mtd><mi>x</mi></mtd><mtd><mi>x</mi><mo>≥</mo><mn>0.0</mn></mtd></mtr><mtr><mtd><mi>−</mi><mi>x</mi></mtd><mtd><mtext>in all other cases</mtext></mtd></mtr></mtable></mrow>" := by
  decide +kernel
example (cfg : RCfg) (hu : TellsCapitals cfg.isUpper) : ∃ es, Yields cf0 absolute.source (es.map .ok) ∧ Displays cfg es (absolute.mathml cfg.block cfg.style false) :=
  C78_expression cf0 cfg hu absolute (by decide +kernel)

end PL.Props
