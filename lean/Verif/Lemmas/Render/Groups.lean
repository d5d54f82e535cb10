import Verif.Lemmas.Render.Array
import Verif.Lemmas.Render.Doc
set_option autoImplicit false
/-! # Groups in the renderer -/
namespace PL.Mathml
open Spec

/-- Text that consists of `k` elements, where children are counted if `d`. -/
def El (d : Bool) (k : Nat) (t : Str) : Prop := ∀ S, Sc d .text S t .text (addN k S)

theorem Elems.el {k : Nat} {t : Str} (h : Elems k t) (d : Bool) : El d k t := h.sc d

theorem El.append {d : Bool} {j k : Nat} {a b : Str} (h : El d j a) (h' : El d k b) : El d (j + k) (a ++ b) := by
  intro S
  have := (h S).append (h' _)
  rwa [addN_add] at this

section
variable (pk rt : List RItem) (o : Str) (env : List EnvR) (st : RState) (ss : List RState) (pv : Option Atom) (rc : Bool)

theorem wp_next {Q : Option RItem → RSt → Prop} {i : RItem} {q : List RItem} (hq : pk ++ rt = i :: q)
    (h : ∀ p r, p ++ r = q → Q (some i) ⟨p, r, o, none, env, ss, pv, rc⟩) : wp next Q ⟨pk, rt, o, none, env, ss, pv, rc⟩ := by
  cases pk with
  | cons j p => cases hq; exact ⟨_, _, rfl, h _ _ rfl⟩
  | nil =>
    cases rt with
    | nil => cases hq
    | cons j r => cases hq; exact ⟨_, _, rfl, h _ _ rfl⟩

theorem wp_peekFirst {Q : Option RItem → RSt → Prop}
    (h : ∀ p r, p ++ r = pk ++ rt → Q (pk ++ rt).head? ⟨p, r, o, none, env, ss, pv, rc⟩) :
    wp peekFirst Q ⟨pk, rt, o, none, env, ss, pv, rc⟩ := by
  rw [peekFirst, wp_bind, wp_get]
  cases pk with
  | cons j p => exact (wp_pure _ _ _).2 (h _ _ rfl)
  | nil =>
    cases rt with
    | nil => exact ⟨_, _, rfl, h _ _ rfl⟩
    | cons j r => exact ⟨_, _, rfl, h _ _ rfl⟩

/-- The loop over the state changes at the start of a group. -/
theorem wp_groupChanges {Q : PUnit → RSt → Prop} {q : List RItem} (hq : ∀ c r, q ≠ .ok (.stateChange c) :: r) :
    ∀ (cs : List StateChange) (pk rt : List RItem) (st : RState) (n : Nat), cs.length < n →
    pk ++ rt = cs.map (fun c => RItem.ok (.stateChange c)) ++ q →
    (∀ p r st', p ++ r = q → Q ⟨⟩ ⟨p, r, o, none, env, st' :: ss, pv, rc⟩) →
    wp (groupChanges n) Q ⟨pk, rt, o, none, env, st :: ss, pv, rc⟩
  | _, _, _, _, 0, hn, _, _ => by omega
  | [], pk, rt, st, n + 1, _, he, h => by
    rw [groupChanges, wp_bind]
    apply wp_peekFirst
    intro p r hp
    simp only [List.map_nil, List.nil_append] at he
    split
    · rename_i sc hh
      rw [he] at hh
      cases hc : q with
      | nil => rw [hc] at hh; cases hh
      | cons x r => rw [hc] at hh; cases hh; exact absurd hc (hq _ _)
    · exact (wp_pure _ _ _).2 (h _ _ _ (by rw [hp, he]))
  | c :: cs, pk, rt, st, n + 1, hn, he, h => by
    rw [groupChanges, wp_bind]
    apply wp_peekFirst
    intro p r hp
    rw [he]
    show wp (do handleStateChange c; let _ ← next; groupChanges n) Q _
    rw [wp_bind, handleStateChange, wp_updState, wp_bind]
    refine wp_next _ _ _ _ _ _ _ (hp.trans he) fun p r hp => ?_
    exact wp_groupChanges hq cs p r _ n (by simp at hn; omega) hp h

end

/-- The elements that are open inside a group. -/
def frames : Grouping → List Str
  | .normal => [c!"mrow"]
  | .leftRight _ _ => [c!"mrow"]
  | .cases _ => [c!"mtd", c!"mtr", c!"mtable", c!"mrow"]
  | _ => [c!"mtd", c!"mtr", c!"mtable"]

/-- The entry on the stack for a group with `k` alignments in its current line. -/
def RG (g : Grouping) (k : Nat) (e : EnvG) : Prop :=
  match g with
  | .normal => e = .normal
  | .leftRight _ r => e = .leftRight r
  | .array cols => ∃ i, e = .array cols i ∧ At cols k i ∧ cols.any isColumn = true
  | .matrix _ => e = .matrix
  | .cases l => e = .cases false l
  | .align _ => e = .align
  | .aligned => e = .align
  | .alignat p _ => e = .alignat p k
  | .alignedat p => e = .alignat p k
  | .subArray _ => e = .subArray
  | .gather _ => e = .gather
  | .gathered => e = .gather
  | .multline => e = .multline
  | .split => e = .split false
  | .equation _ => e = .equation

/-- From the start of a table row, the lines lead to the same place. -/
theorem hlines_sc (d : Bool) (S : Open) : ∀ (ls : List Line) (z : Nat), ∃ m z', InTag c!"mtr" m ∧
    Sc d (.name c!"rtm") ((c!"mtable", z) :: S) (hlinesStr ls) m ((c!"mtable", z') :: S)
  | [], z => ⟨_, z, ⟨by decide, .inl rfl⟩, rfl⟩
  | [l], z => ⟨.attrs c!"mtr" false, z, .attrs (by decide), by cases l <;> rfl⟩
  | l :: l' :: ls, z => by
    obtain ⟨m, z', hm, h⟩ := hlines_sc d S (l' :: ls) (z + 1)
    refine ⟨m, z', hm, ?_⟩
    rw [hlinesStr]
    · refine Sc.append (m' := .name c!"rtm") (S' := (c!"mtable", z + 1) :: S) ?_ h
      cases l <;> rfl
    · simp

section
variable (pk rt : List RItem) (o : Str) (env : List EnvR) (st : RState) (ss : List RState) (pv : Option Atom) (rc : Bool)

/-- The lines at the start of a table. -/
theorem wp_envLines {Q : PUnit → RSt → Prop} {d : Bool} {g : Grouping} {k' : Nat} {b : List Event} {q : List RItem}
    (hd : Doc d (.body (some g) 0 k') b) (hq : pk ++ rt = b.map .ok ++ .ok .end_ :: q)
    (h : ∀ p r x b' t, b = x ++ b' → Doc d (.body (some g) 0 k') b' → p ++ r = b'.map .ok ++ .ok .end_ :: q →
      (∀ d S z, ∃ m z', InTag c!"mtr" m ∧ Sc d (.name c!"rtm") ((c!"mtable", z) :: S) t m ((c!"mtable", z') :: S)) →
      Q ⟨⟩ ⟨p, r, o ++ t, none, env, ss, pv, rc⟩) :
    wp envLines Q ⟨pk, rt, o, none, env, ss, pv, rc⟩ := by
  rw [envLines, wp_bind]
  apply wp_peekFirst
  intro p r hp
  split
  · rename_i ls hh
    rw [hq] at hh
    cases hb : b with
    | nil => rw [hb] at hh; cases hh
    | cons e b' =>
      rw [hb] at hh
      cases hh
      rw [wp_bind, wp_out', wp_bind]
      refine wp_next _ _ _ _ _ _ _ (hp.trans (hq.trans (by rw [hb]; rfl))) fun p r hp => ?_
      rw [hb] at hd
      exact (wp_pure _ _ _).2 (h p r [_] b' _ (by rw [hb]; rfl) hd.startLines hp fun d S z => hlines_sc d S ls z)
  · have := h p r [] b [] rfl hd (hp.trans hq) fun d S z => ⟨_, z, ⟨by decide, .inl rfl⟩, rfl⟩
    rw [List.append_nil] at this
    exact (wp_pure _ _ _).2 this

/-- After a group has been opened. -/
structure Opened (d : Bool) (o : Str) (env : List EnvR) (ss : List RState) (g : Grouping) (k' : Nat) (b : List Event)
    (q : List RItem) (s' : RSt) : Prop where
  budget : s'.budget = none
  env : ∃ e, s'.env = .group e :: env ∧ RG g 0 e
  sts : ∃ st', s'.sts = st' :: ss
  body : ∃ x b', b = x ++ b' ∧ Doc d (.body (some g) 0 k') b' ∧ s'.peeked ++ s'.rest = b'.map .ok ++ .ok .end_ :: q
  out : ∃ t, s'.out = o ++ t ∧ (SafeEvent (.begin_ g) → ∀ d S, ∃ F, F.map Prod.fst = frames g ∧
    Sc d .text S t .text (F ++ S))

theorem wp_tableOpen {Q : PUnit → RSt → Prop} {d : Bool} {g : Grouping} {k' : Nat} {b : List Event} {q : List RItem}
    (hd : Doc d (.body (some g) 0 k') b) (hq : pk ++ rt = b.map .ok ++ .ok .end_ :: q) (op : Str) (e : EnvG)
    (pre : List Str) (hf : frames g = [c!"mtd", c!"mtr", c!"mtable"] ++ pre)
    (hop : ∀ d S, ∃ F, F.map Prod.fst = pre ∧ Sc d .text S op (.name c!"rtm") ((c!"mtable", 0) :: (F ++ S)))
    (hr : RG g 0 e) (h : ∀ s', Opened d o env ss g k' b q s' → Q ⟨⟩ s') :
    wp (do
      let e ← tableOpen op e
      W.modify fun s => { s with env := .group e :: s.env }) Q ⟨pk, rt, o, none, env, st :: ss, pv, rc⟩ := by
  rw [tableOpen, wp_bind, wp_bind, wp_out', wp_bind]
  refine wp_envLines _ _ _ _ _ _ _ hd hq fun p r x b' t hb hd' hp ht => ?_
  wps
  refine h _ ⟨rfl, ⟨_, rfl, hr⟩, ⟨_, rfl⟩, ⟨x, b', hb, hd', hp⟩, op ++ t ++ c!"><mtd>", by simp, fun _ d S => ?_⟩
  obtain ⟨F, hF, h1⟩ := hop d S
  obtain ⟨m, z, hm, h2⟩ := ht d (F ++ S) 0
  refine ⟨(c!"mtd", 0) :: (c!"mtr", 0) :: (c!"mtable", z) :: F, by rw [hf]; simp [hF], ?_⟩
  exact (h1.append h2).append (Sc.append (a := c!">") hm.close rfl)

theorem writeDelim_sc {c : Option Char} (hc : c ≠ some '<') (o : Str) (env : List EnvR) (st : RState) (ss : List RState) :
    ∃ k t, Elems k t ∧ ∀ pk rt pv rc Q, wp (writeDelim c) Q ⟨pk, rt, o, none, env, st :: ss, pv, rc⟩ ↔
      Q ⟨⟩ ⟨pk, rt, o ++ t, none, env, st :: ss, pv, rc⟩ := by
  cases c with
  | none => exact ⟨0, [], .nil, fun pk rt pv rc Q => by rw [writeDelim, wp_pure, List.append_nil]⟩
  | some c =>
    refine ⟨1, openTagStr st env c!"mo" none ++ (c!" stretchy=\"true\">" ++ ([c] ++ c!"</mo>")), ?_, fun pk rt pv rc Q => ?_⟩
    · refine .of ⟨_, rfl⟩ fun d S => ?_
      obtain ⟨m, hm, h4⟩ := openTag_sc (d := d) (S := S) (tag := c!"mo") (by decide) classOk_none st env
      have hs := not_mem_single (c := c) (by rintro rfl; exact hc rfl)
      have h5 : Sc d m S c!" stretchy=\"true\">" .text ((c!"mo", 0) :: S) := hm.attr rfl
      sc [h4, h5, Sc.plain hs]
    · rw [writeDelim]
      wps
      simp only [List.append_assoc]

theorem writeDelim_wp {c : Option Char} (o : Str) (env : List EnvR) (st : RState) (ss : List RState) :
    ∃ t, (c ≠ some '<' → ∃ k, Elems k t) ∧ ∀ pk rt pv rc Q, wp (writeDelim c) Q ⟨pk, rt, o, none, env, st :: ss, pv, rc⟩ ↔
      Q ⟨⟩ ⟨pk, rt, o ++ t, none, env, st :: ss, pv, rc⟩ := by
  by_cases hc : c = some '<'
  · subst hc
    refine ⟨openTagStr st env c!"mo" none ++ (c!" stretchy=\"true\">" ++ (['<'] ++ c!"</mo>")), fun h => absurd rfl h, ?_⟩
    intro pk rt pv rc Q
    rw [writeDelim]
    wps
    simp only [List.append_assoc]
  · obtain ⟨k, t, h1, h2⟩ := writeDelim_sc hc o env st ss
    exact ⟨t, fun _ => ⟨k, h1⟩, h2⟩

end
end PL.Mathml
