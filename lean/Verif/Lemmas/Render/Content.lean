import Verif.Lemmas.Render.Pieces
set_option autoImplicit false
/-! # What the renderer writes for contents -/
namespace PL.Mathml
open Spec

/-- `k` more children. -/
def addN : Nat → Open → Open
  | 0, S => S
  | k + 1, S => addN k (addChild S)

theorem addN_add (j k : Nat) (S : Open) : addN k (addN j S) = addN (j + k) S := by
  induction j generalizing S with
  | zero => rw [Nat.zero_add]; rfl
  | succ j ih => rw [Nat.succ_add]; exact ih _

section
variable (pk rt : List RItem) (o : Str) (env : List EnvR) (st : RState) (ss : List RState) (pv : Option Atom) (rc : Bool)

theorem wp_nextAtomLoop (Q : Option Atom → RSt → Prop) : ∀ (n i : Nat) (pk rt : List RItem),
    i ≤ pk.length → pk.length + 2 * rt.length < n + i →
    (∀ a p r, p ++ r = pk ++ rt → Q a ⟨p, r, o, none, env, ss, pv, rc⟩) →
    wp (nextAtomLoop n i) Q ⟨pk, rt, o, none, env, ss, pv, rc⟩
  | 0, i, pk, rt, hi, hn, h => by omega
  | n + 1, i, pk, rt, hi, hn, h => by
    rw [nextAtomLoop, wp_bind, wp_get]
    dsimp only
    by_cases hl : i < pk.length
    · rw [List.getElem?_eq_getElem hl]
      dsimp only
      cases atomOf pk[i] with
      | none => exact wp_nextAtomLoop Q n (i + 1) pk rt (by omega) (by omega) h
      | some r => exact (wp_pure _ _ _).2 (h _ _ _ rfl)
    · rw [List.getElem?_eq_none (by omega)]
      dsimp only
      rw [wp_bind]
      cases rt with
      | nil => exact ⟨_, _, rfl, (wp_pure _ _ _).2 (h _ _ _ rfl)⟩
      | cons x rt =>
        refine ⟨_, _, rfl, ?_⟩
        dsimp only
        cases atomOf x with
        | none =>
          refine wp_nextAtomLoop Q n i (pk ++ [x]) rt (by simp; omega) (by simp at *; omega) fun a p r he => ?_
          exact h a p r (by rw [he]; simp)
        | some r => exact (wp_pure _ _ _).2 (h _ _ _ (by simp))

theorem wp_nextAtom {Q : Option Atom → RSt → Prop}
    (h : ∀ a p r, p ++ r = pk ++ rt → Q a ⟨p, r, o, none, env, ss, pv, rc⟩) :
    wp nextAtom Q ⟨pk, rt, o, none, env, ss, pv, rc⟩ := by
  rw [nextAtom, wp_bind, wp_get]
  exact wp_nextAtomLoop _ _ _ _ _ _ _ _ _ _ (Nat.zero_le _) (by dsimp only; omega) h

/-- Text that consists of some elements. -/
structure Elems (k : Nat) (t : Str) : Prop where
  sc : ∀ d S, Sc d .text S t .text (addN k S)
  begins : t = [] ∨ ∃ r, t = '<' :: r

theorem Elems.append {j k : Nat} {a b : Str} (h : Elems j a) (h' : Elems k b) : Elems (j + k) (a ++ b) := by
  refine ⟨fun d S => ?_, ?_⟩
  · have := (h.sc d S).append (h'.sc d _)
    rwa [addN_add] at this
  · rcases h.begins with rfl | ⟨r, rfl⟩
    · exact h'.begins
    · exact .inr ⟨_, rfl⟩

theorem Elems.nil : Elems 0 [] := ⟨fun _ _ => rfl, .inl rfl⟩

theorem Elems.of {k : Nat} {t : Str} (hb : ∃ r, t = '<' :: r) (h : ∀ d S, Sc d .text S t .text (addN k S)) : Elems k t := ⟨h, .inr hb⟩

theorem wp_applyFunction {Q : PUnit → RSt → Prop}
    (h : ∀ p r t k, p ++ r = pk ++ rt → Elems k t → Q ⟨⟩ ⟨p, r, o ++ t, none, env, ss, pv, rc⟩) :
    wp applyFunction Q ⟨pk, rt, o, none, env, ss, pv, rc⟩ := by
  rw [applyFunction, wp_bind]
  apply wp_nextAtom
  intro a p r he
  cases a with
  | none =>
    dsimp only; wps
    have := h p r [] 0 he .nil
    rwa [List.append_nil] at this
  | some a =>
    dsimp only
    rw [wp_bind, wp_out']
    split
    · wps
      exact h p r _ 1 he (.of ⟨_, rfl⟩ fun _ _ => rfl)
    · wps
      rw [List.append_assoc]
      exact h p r _ 2 he (.of ⟨_, rfl⟩ fun _ _ => rfl)

/-- The flag of a script at the top may have been set. -/
def SameEnv (e e' : List EnvR) : Prop :=
  e' = e ∨ ∃ ty a n f r, e = .script ty a n f :: r ∧ e' = .script ty a n true :: r

def isFn : Content → Bool
  | .function _ => true
  | _ => false

/-- After some content has been written. -/
structure Wrote (s : RSt) (c : Content) (s' : RSt) (t : Str) : Prop where
  items : s'.peeked ++ s'.rest = s.peeked ++ s.rest
  budget : s'.budget = none
  sts : s'.sts = s.sts
  env : SameEnv s.env s'.env
  env' : isFn c = false → s'.env = s.env
  out : s'.out = s.out ++ t
  elems : SafeContent c → ∃ k, Elems k t ∧ (isFn c = false → k = 1)

theorem wrote_simple {c : Content} {t : Str} {pk' rt' : List RItem} {pv' : Option Atom} 
    (hi : pk' ++ rt' = pk ++ rt) (h : SafeContent c → Elems 1 t) :
    Wrote ⟨pk, rt, o, none, env, ss, pv, rc⟩ c ⟨pk', rt', o ++ t, none, env, ss, pv', rc⟩ t :=
  ⟨hi, rfl, rfl, .inl rfl, fun _ => rfl, rfl, fun hs => ⟨1, h hs, fun _ => rfl⟩⟩

theorem classOk_none : ClassOk none := by rintro c ⟨⟩
theorem classOk_small (b : Bool) : ClassOk (if b then some c!"small" else none) := by
  cases b
  · exact classOk_none
  · rintro c ⟨⟩; decide

theorem not_mem_single {c : Char} (h : c ≠ '<') : '<' ∉ [c] := by
  intro h'; simp at h'; exact h h'.symm

theorem stroke_plain {d : Bool} {S : Open} (n : Bool) : Sc d .text S (stroke n) .text S := by cases n <;> rfl

theorem forChars_plain (f : Char → W PUnit) (x : Str) (h : ∀ c, ∃ e, (c ≠ '<' → e ≠ '<') ∧
    ∀ pk rt o env pv rc Q, wp (f c) Q ⟨pk, rt, o, none, env, st :: ss, pv, rc⟩ ↔
      Q ⟨⟩ ⟨pk, rt, o ++ [e], none, env, st :: ss, pv, rc⟩) :
    ∃ y, ('<' ∉ x → '<' ∉ y) ∧ ∀ pk rt o env pv rc Q, wp (forChars f x) Q ⟨pk, rt, o, none, env, st :: ss, pv, rc⟩ ↔
      Q ⟨⟩ ⟨pk, rt, o ++ y, none, env, st :: ss, pv, rc⟩ := by
  induction x with
  | nil => exact ⟨[], id, fun _ _ _ _ _ _ _ => by rw [forChars, wp_pure, List.append_nil]⟩
  | cons c x ih =>
    obtain ⟨y, hy, h2⟩ := ih
    obtain ⟨e, he, h1⟩ := h c
    refine ⟨e :: y, ?_, fun _ _ _ _ _ _ _ => ?_⟩
    · intro hx hm
      rcases List.mem_cons.1 hm with rfl | hm
      · exact he (fun hc => hx (by simp [hc])) rfl
      · exact hy (fun h => hx (by simp [h])) hm
    · rw [forChars, wp_bind, h1, h2, List.append_assoc]
      rfl

theorem mapChar_pure (f : Font) (c : Char) : ∃ e, (c ≠ '<' → e ≠ '<') ∧ mapChar f c = Pure.pure e := by
  obtain ⟨e, he⟩ := Props.C37_total f c
  exact ⟨e, fun hc => mapChar_lt hc he, by rw [mapChar, he]⟩

theorem escape_lt (t : Str) : '<' ∉ escape t := by
  intro h
  unfold escape at h
  obtain ⟨c, _, hc⟩ := List.mem_flatMap.1 h
  unfold escapeChar at hc
  split at hc
  · revert hc; decide
  · split at hc
    · revert hc; decide
    · split at hc
      · revert hc; decide
      · rename_i h2 _
        simp at hc
        exact h2 hc.symm

theorem wp_writeContent (cfg : RCfg) (neg : Bool) (c : Content) {Q : PUnit → RSt → Prop}
    (h : ∀ s' t, Wrote ⟨pk, rt, o, none, env, st :: ss, pv, rc⟩ c s' t → Q ⟨⟩ s') :
    wp (writeContent cfg neg c) Q ⟨pk, rt, o, none, env, st :: ss, pv, rc⟩ := by
  cases c with
  | text t =>
    have fin : ∀ (n n' y : Str), '<' ∉ n → '<' ∉ n' → '<' ∉ y → Elems 1 (openTagStr st env c!"mtext" none ++ (c!">" ++
        (n ++ (y ++ (n' ++ c!"</mtext>"))))) := by
      intro n n' y h1 h2 h3
      refine .of ⟨_, rfl⟩ fun d S => ?_
      obtain ⟨m, hm, h4⟩ := openTag_sc (d := d) (S := S) (tag := c!"mtext") (by decide) classOk_none st env
      have h5 := hm.close (d := d) (S := S)
      sc [h4, h5, Sc.plain h1, Sc.plain h2, Sc.plain h3]
    have mid : ∃ y, '<' ∉ y ∧ ∀ pk rt o env pv rc Q, wp (match st.font with
        | none => W.out (escape (trim t))
        | some f => forChars (fun c => do W.out (escapeChar (← mapChar f c))) (trim t) : W PUnit) Q
          ⟨pk, rt, o, none, env, st :: ss, pv, rc⟩ ↔ Q ⟨⟩ ⟨pk, rt, o ++ y, none, env, st :: ss, pv, rc⟩ := by
      cases st.font with
      | none => exact ⟨_, escape_lt _, fun _ _ _ _ _ _ _ => wp_out' ..⟩
      | some f =>
        dsimp only
        generalize trim t = x
        induction x with
        | nil => exact ⟨[], by simp, fun _ _ _ _ _ _ _ => by rw [forChars, wp_pure, List.append_nil]⟩
        | cons c x ih =>
          obtain ⟨y, hy, h2⟩ := ih
          obtain ⟨e, -, hm⟩ := mapChar_pure f c
          refine ⟨escapeChar e ++ y, ?_, fun _ _ _ _ _ _ _ => ?_⟩
          · intro hh
            rcases List.mem_append.1 hh with hh | hh
            · exact escape_lt [e] (by simpa [escape] using hh)
            · exact hy hh
          · rw [forChars, wp_bind, wp_bind, hm, wp_pure, wp_out', h2, List.append_assoc]
    obtain ⟨y, hy, hw⟩ := mid
    rw [writeContent]
    wps
    have L : ∀ n n' pv', '<' ∉ n → '<' ∉ n' → Q ⟨⟩ ⟨pk, rt, o ++ (openTagStr st env c!"mtext" none ++ (c!">" ++
        (n ++ (y ++ (n' ++ c!"</mtext>"))))), none, env, st :: ss, pv', rc⟩ :=
      fun n n' pv' h1 h2 => h _ _ (wrote_simple _ _ _ _ _ _ _ rfl fun _ => fin n n' y h1 h2 hy)
    cases hf : st.font with
    | none =>
      rw [hf] at hw
      split <;> wps <;> simp only [hf] <;> rw [wp_bind] <;> refine (hw _ _ _ _ _ _ _).2 ?_ <;> split <;> wps <;>
        simp only [List.append_assoc]
      · exact L c!"&nbsp;" c!"&nbsp;" _ (by decide) (by decide)
      · exact L c!"&nbsp;" [] _ (by decide) (by decide)
      · exact L [] c!"&nbsp;" _ (by decide) (by decide)
      · exact L [] [] _ (by decide) (by decide)
    | some f =>
      rw [hf] at hw
      split <;> wps <;> simp only [hf] <;> rw [wp_bind] <;> refine (hw _ _ _ _ _ _ _).2 ?_ <;> split <;> wps <;>
        simp only [List.append_assoc]
      · exact L c!"&nbsp;" c!"&nbsp;" _ (by decide) (by decide)
      · exact L c!"&nbsp;" [] _ (by decide) (by decide)
      · exact L [] c!"&nbsp;" _ (by decide) (by decide)
      · exact L [] [] _ (by decide) (by decide)
  | number t =>
    rw [writeContent]
    have : ∀ c, ∃ e, (c ≠ '<' → e ≠ '<') ∧ ∀ pk rt o env pv rc Q, wp (do
        match (← state).font with
        | some .boldSymbol => W.out [← mapChar .bold c]
        | some f => W.out [← mapChar f c]
        | none => W.out [c] : W PUnit) Q ⟨pk, rt, o, none, env, st :: ss, pv, rc⟩ ↔
          Q ⟨⟩ ⟨pk, rt, o ++ [e], none, env, st :: ss, pv, rc⟩ := by
      intro c
      cases hf : st.font with
      | none => exact ⟨c, id, fun _ _ _ _ _ _ _ => by rw [wp_bind, wp_state, hf]; exact wp_out' ..⟩
      | some f =>
        obtain ⟨e, he, hm⟩ := mapChar_pure (if f = .boldSymbol then .bold else f) c
        refine ⟨e, he, fun _ _ _ _ _ _ _ => ?_⟩
        rw [wp_bind, wp_state, hf]
        cases f <;> (simp only [reduceCtorEq, if_false, if_true] at hm; dsimp only; rw [wp_bind, hm, wp_pure, wp_out'])
    obtain ⟨y, hy, he⟩ := forChars_plain st ss _ t this
    wps
    refine (he _ _ _ _ _ _ _).2 ?_
    wps
    simp only [List.append_assoc]
    refine h _ _ (wrote_simple _ _ _ _ _ _ _ rfl fun hs => .of ⟨_, rfl⟩ fun d S => ?_)
    obtain ⟨m, hm, h1⟩ := openTag_sc (d := d) (S := S) (tag := c!"mn") (by decide) classOk_none st env
    have h2 := hm.close (d := d) (S := S)
    have hy := hy hs
    sc [h1, h2, Sc.plain hy]
  | function t =>
    rw [writeContent]
    wps
    have fin : SafeContent (.function t) → Elems 1 (openTagStr st env c!"mi" none ++
        ((if t.length = 1 then c!" mathvariant=\"normal\">" else c!">") ++ (t ++ c!"</mi>"))) := by
      intro hs
      refine .of ⟨_, rfl⟩ fun d S => ?_
      have hs : '<' ∉ t := hs
      obtain ⟨m, hm, h1⟩ := openTag_sc (d := d) (S := S) (tag := c!"mi") (by decide) classOk_none st env
      have h2 := hm.close (d := d) (S := S)
      split
      · sc [h1, hm.attr, Sc.plain hs]
      · sc [h1, h2, Sc.plain hs]
    have k : ∀ (sp : Str) (n : Nat), Elems n sp → wp (do
        openTag c!"mi" none
        W.out (if t.length = 1 then c!" mathvariant=\"normal\">" else c!">")
        W.out t
        setPrev .op
        W.out c!"</mi>"
        match (← W.get).env with
        | .script ty a n _ :: es => W.modify fun s => { s with env := .script ty a n true :: es }
        | _ => applyFunction : W PUnit) Q ⟨pk, rt, o ++ sp, none, env, st :: ss, pv, rc⟩ := by
      intro sp n hn
      wps
      split
      · rename_i he
        wps
        simp only [List.append_assoc]
        refine h _ _ ⟨rfl, rfl, rfl, .inr ⟨_, _, _, _, _, rfl, rfl⟩, ?_, rfl, fun hs => ⟨_, hn.append (fin hs), ?_⟩⟩
        · rintro ⟨⟩
        · rintro ⟨⟩
      · apply wp_applyFunction
        intro p r u k he hk
        simp only [List.append_assoc]
        refine h _ _ ⟨he, rfl, rfl, .inl rfl, fun _ => rfl, rfl, fun hs => ⟨n + (1 + k), hn.append ?_, ?_⟩⟩
        · have := (fin hs).append hk
          simpa only [List.append_assoc] using this
        · rintro ⟨⟩
    split
    · rw [wp_bind, wp_out']
      exact k _ 1 (.of ⟨_, rfl⟩ fun _ _ => rfl)
    · have := k [] 0 .nil
      rwa [List.append_nil] at this
  | ordinary c b =>
    rw [writeContent]
    cases b with
    | true =>
      simp only [if_true]
      wps
      simp only [List.append_assoc]
      refine h _ _ (wrote_simple _ _ _ _ _ _ _ rfl fun hs => .of ⟨_, rfl⟩ fun d S => ?_)
      have hs := not_mem_single hs
      sc [Sc.plain hs]
    | false =>
      simp only [Bool.false_eq_true, if_false]
      have fin : ∀ (l : Str) (e : Char), (c ≠ '<' → e ≠ '<') → (∀ d S m, InTag c!"mi" m → Sc d m S l .text ((c!"mi", 0) :: S)) →
          SafeContent (.ordinary c false) → Elems 1 (openTagStr st env c!"mi" none ++ (l ++ ([e] ++ (stroke neg ++ c!"</mi>")))) := by
        intro l e he hl hs
        refine .of ⟨_, rfl⟩ fun d S => ?_
        obtain ⟨m, hm, h1⟩ := openTag_sc (d := d) (S := S) (tag := c!"mi") (by decide) classOk_none st env
        have h2 := hl d S m hm
        have hs := not_mem_single (he hs)
        sc [h1, h2, Sc.plain hs, stroke_plain]
      have v : ∀ d S m, InTag c!"mi" m → Sc d m S c!" mathvariant=\"normal\">" .text ((c!"mi", 0) :: S) := by
        intro d S m hm; sc [hm.attr]
      have w : ∀ d S m, InTag c!"mi" m → Sc d m S c!">" .text ((c!"mi", 0) :: S) := fun d S m hm => hm.close
      wps
      cases hf : st.font with
      | none =>
        dsimp only
        split
        all_goals
          wps
          simp only [List.append_assoc]
        · exact h _ _ (wrote_simple _ _ _ _ _ _ _ rfl (fin _ _ id v))
        · exact h _ _ (wrote_simple _ _ _ _ _ _ _ rfl (fin _ _ id w))
      | some f =>
        have k : ∀ g, wp (do
            W.out c!">"
            let e ← mapChar g c
            W.out [e]
            W.out (stroke neg)
            setPrev .ord
            W.out c!"</mi>") Q ⟨pk, rt, o ++ openTagStr st env c!"mi" none, none, env, st :: ss, pv, rc⟩ := by
          intro g
          obtain ⟨e, he, hm⟩ := mapChar_pure g c
          rw [hm]
          wps
          simp only [List.append_assoc]
          exact h _ _ (wrote_simple _ _ _ _ _ _ _ rfl (fin _ _ he w))
        split
        · wps
          simp only [List.append_assoc]
          exact h _ _ (wrote_simple _ _ _ _ _ _ _ rfl (fin _ _ id v))
        · rename_i h'; cases h'
        · exact k _
  | largeOp c b =>
    rw [writeContent]
    cases b <;>
    · simp only [Bool.false_eq_true, if_false, if_true]
      wps
      simp only [List.append_assoc]
      refine h _ _ (wrote_simple _ _ _ _ _ _ _ rfl fun hs => .of ⟨_, rfl⟩ fun d S => ?_)
      obtain ⟨m, hm, h1⟩ := openTag_sc (d := d) (S := S) (tag := c!"mo") (by decide) classOk_none st env
      have hs := not_mem_single hs
      sc [h1, hm.attr, Sc.plain hs, stroke_plain]
  | binaryOp c b =>
    rw [writeContent]
    have fin : ∀ (isBin : Bool) (pk' rt' : List RItem), pk' ++ rt' = pk ++ rt → wp (do
        let tag := if isBin then c!"mo" else c!"mi"
        setPrev (if isBin then .bin else .ord)
        openTag tag (if b then some c!"small" else none)
        W.out c!">"
        W.out [c]
        W.out (stroke neg)
        W.out (c!"</" ++ tag ++ c!">")) Q ⟨pk', rt', o, none, env, st :: ss, pv, rc⟩ := by
      intro isBin pk' rt' hi
      wps
      simp only [List.append_assoc]
      refine h _ _ (wrote_simple _ _ _ _ _ _ _ hi fun hs => .of ⟨_, rfl⟩ fun d S => ?_)
      have hs := not_mem_single hs
      cases isBin with
      | true =>
        obtain ⟨m, hm, h1⟩ := openTag_sc (d := d) (S := S) (tag := c!"mo") (by decide) (classOk_small b) st env
        have h2 := hm.close (d := d) (S := S)
        simp only [if_true]
        sc [h1, h2, Sc.plain hs, stroke_plain]
      | false =>
        obtain ⟨m, hm, h1⟩ := openTag_sc (d := d) (S := S) (tag := c!"mi") (by decide) (classOk_small b) st env
        have h2 := hm.close (d := d) (S := S)
        simp only [Bool.false_eq_true, if_false]
        sc [h1, h2, Sc.plain hs, stroke_plain]
    rw [wp_bind, wp_get]
    dsimp only
    rw [wp_bind]
    split
    · rw [wp_bind]
      apply wp_nextAtom
      intro a p r he
      split <;> exact (wp_pure _ _ _).2 (fin _ _ _ he)
    · exact (wp_pure _ _ _).2 (fin _ _ _ rfl)
  | relation c x b =>
    rw [writeContent]
    wps
    simp only [List.append_assoc]
    refine h _ _ (wrote_simple _ _ _ _ _ _ _ rfl fun hs => .of ⟨_, rfl⟩ fun d S => ?_)
    obtain ⟨m, hm, h1⟩ := openTag_sc (d := d) (S := S) (tag := c!"mo") (by decide) (classOk_small b) st env
    have h2 := hm.close (d := d) (S := S)
    have h3 : ∀ S, Sc d .text S (c :: x.toList) .text S := fun S => .plain (by
      intro hh
      rcases List.mem_cons.1 hh with rfl | hh
      · exact hs.1 rfl
      · cases x <;> simp at hh; subst hh; exact hs.2 rfl)
    sc [h1, h2, h3 _, stroke_plain]
  | delimiter c z ty =>
    unfold writeContent
    have fin : ∀ (l l' : Str), (∀ d S m, InTag c!"mo" m → Sc d m S l (.attrs c!"mo" false) S) →
        (∀ d S, Sc d (.attrs c!"mo" false) S l' (.attrs c!"mo" false) S) →
        SafeContent (.delimiter c z ty) → Elems 1 (openTagStr st env c!"mo" none ++ (l ++ (l' ++ (c!">" ++ ([c] ++
          (stroke neg ++ c!"</mo>")))))) := by
      intro l l' hl hl' hs
      refine .of ⟨_, rfl⟩ fun d S => ?_
      obtain ⟨m, hm, h1⟩ := openTag_sc (d := d) (S := S) (tag := c!"mo") (by decide) classOk_none st env
      have h2 := hl d S m hm
      have h3 := hl' d S
      have hs := not_mem_single hs
      sc [h1, h2, h3, Sc.plain hs, stroke_plain]
    have a : ∀ d S m, InTag c!"mo" m → Sc d m S c!" symmetric=\"true\" stretchy=\"true\"" (.attrs c!"mo" false) S := by
      intro d S m hm; sc [hm.attr]
    have b : ∀ d S m, InTag c!"mo" m → Sc d m S c!" symmetric=\"false\" stretchy=\"false\"" (.attrs c!"mo" false) S := by
      intro d S m hm; sc [hm.attr]
    have e : ∀ z d S, Sc d (.attrs c!"mo" false) S (c!"minsize=\"" ++ emStr z ++ c!"em\" maxsize=\"" ++ emStr z ++ c!"em\"")
        (.attrs c!"mo" false) S := by
      intro z d S; cases z <;> rfl
    wps
    cases z with
    | none =>
      split
      all_goals
        wps
        simp only [List.append_assoc]
      · exact h _ _ (wrote_simple _ _ _ _ _ _ _ rfl (fin _ [] a fun _ _ => rfl))
      · exact h _ _ (wrote_simple _ _ _ _ _ _ _ rfl (fin _ [] b fun _ _ => rfl))
    | some z =>
      split
      all_goals
        wps
        simp only [List.append_assoc]
      · exact h _ _ (wrote_simple _ _ _ _ _ _ _ rfl fun hs => by
          simpa only [List.append_assoc] using fin _ _ a (e z) hs)
      · exact h _ _ (wrote_simple _ _ _ _ _ _ _ rfl fun hs => by
          simpa only [List.append_assoc] using fin _ _ b (e z) hs)
  | punctuation c =>
    rw [writeContent]
    wps
    simp only [List.append_assoc]
    refine h _ _ (wrote_simple _ _ _ _ _ _ _ rfl fun hs => .of ⟨_, rfl⟩ fun d S => ?_)
    obtain ⟨m, hm, h1⟩ := openTag_sc (d := d) (S := S) (tag := c!"mo") (by decide) classOk_none st env
    have h2 := hm.close (d := d) (S := S)
    have hs := not_mem_single hs
    sc [h1, h2, Sc.plain hs, stroke_plain]
end

end PL.Mathml
