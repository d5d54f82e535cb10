import Verif.Lemmas.Exchange
import Verif.Lemmas.Layout
import Verif.Lemmas.Pin
import Verif.Lemmas.Report
set_option autoImplicit false
/-!
# Executions in step, with the expansions
-/
namespace PL
open PL.Lex Spec

variable {cf : Cfg}

/-- As many expansions, with the same numbers. -/
structure Level (a b : Spans) : Prop where
  count : a.nalloc = b.nalloc
  total : a.total = b.total
  ids : a.exps.map ExpSpan.id = b.exps.map ExpSpan.id

/-- The calls are found at the same level. -/
structure Abreast (cf : Cfg) (p q : PSt) : Prop where
  level : Level p.sp q.sp
  found : ∀ a b, Sub a p.h.content → Sub b q.h.content → ∃ i es j es', reachLoop cf p.sp.input (a.ptr cf) p.sp.exps = some (i, es) ∧
    reachLoop cf q.sp.input (b.ptr cf) q.sp.exps = some (j, es') ∧ es.map ExpSpan.id = es'.map ExpSpan.id

theorem suffix_head {l u v : List Nat} {a : Nat} (hl : l.Pairwise (fun a b => b < a)) (hu : a :: u <:+ l) (hv : a :: v <:+ l) : u = v := by
  have key : ∀ {u v : List Nat}, a :: v <:+ l → a :: u <:+ a :: v → u = v := by
    intro u v hv h
    obtain ⟨w, hw⟩ := h
    cases w with
    | nil => injection hw
    | cons b w =>
      injection hw with h1 h2
      have hp := List.Pairwise.sublist hv.sublist hl
      rw [List.pairwise_cons] at hp
      have := hp.1 a (by rw [← h2]; simp)
      omega
  rcases Nat.le_total (a :: u).length (a :: v).length with h | h
  · exact key hv (List.suffix_of_suffix_length_le hu hv h)
  · exact (key hu (List.suffix_of_suffix_length_le hv hu h)).symm

theorem Abreast.new {p q : PSt} (hp : InNew p) (hq : InNew q) (h : Level p.sp q.sp) : Abreast cf p q :=
  ⟨h, fun _ _ ha hb => ⟨_, _, _, _, hp.reach ha _, hq.reach hb _, h.ids⟩⟩

/-- The same texts and events in the same allocations, and macros that mean the same. -/
structure InPlace (cf : Cfg) (x y : HSt) : Prop where
  same : y.pin = (swapped (x, y.macros)).pin
  macros : Serves cf x.macros y.macros

theorem liftH_level {x y : HSt} {sp sp' : Spans} {a b : HTok} (h : InPlace cf x y) (hab : a.pin = b.pin) {d : Option Desc} {x1 : PSt}
    (e : liftH (atom cf a) ⟨x, sp⟩ = .ok d x1) : ∃ y1, liftH (atom cf b) ⟨y, sp'⟩ = .ok d y1 ∧ InPlace cf x1.h y1.h := by
  dsimp only [liftH] at e ⊢
  cases e1 : atom cf a x with
  | err k s => rw [e1] at e; cases e
  | panic p => rw [e1] at e; cases e
  | ok d' x' =>
    rw [e1] at e
    cases e
    obtain ⟨m1, g, h1⟩ := swap_atom (cf := cf) (s := (x, y.macros)) a h.macros _ _ e1
    have e2 := pin_atom (cf := cf) a (swapped (x, y.macros))
    rw [h1, ← h.same, hab, pin_atom (cf := cf) b y] at e2
    cases e3 : atom cf b y with
    | err k s => rw [e3] at e2; cases e2
    | panic p => rw [e3] at e2; cases e2
    | ok d2 y' =>
      rw [e3] at e2
      have ⟨h3, h4⟩ : d2 = d ∧ y'.pin = (swapped (x', m1)).pin := by simpa [Res.mapBoth] using e2
      subst h3
      have h5 : y'.macros = m1 := show y'.pin.macros = (swapped (x', m1)).pin.macros from congrArg HSt.macros h4
      exact ⟨_, rfl, by rw [h5]; exact h4, by rw [h5]; exact g⟩

theorem parseLoop_level : ∀ (n : Nat) {x y : HSt} {sp sp' : Spans}, InPlace cf x y → Abreast cf ⟨x, sp⟩ ⟨y, sp'⟩ → ∀ {d : Option Desc} {x1 : PSt},
    parseLoop cf n ⟨x, sp⟩ = .ok d x1 → ∃ y1, parseLoop cf n ⟨y, sp'⟩ = .ok d y1 ∧ InPlace cf x1.h y1.h ∧ Level x1.sp y1.sp
  | 0, x, y, sp, sp', h, _, d, x1, e => by cases e
  | n + 1, x, y, sp, sp', ⟨h, hS⟩, hM, d, x1, e => by
    obtain ⟨⟨c1, c2, c3⟩, xb, a1, a2, a3, a4, a5, m⟩ := x
    obtain ⟨⟨y1, y2, y3⟩, yb, b1, b2, b3, b4, b5, m'⟩ := y
    simp only [HSt.pin, swapped, HSt.mk.injEq, Sl.pin, Sl.mk.injEq, true_and] at h
    obtain ⟨⟨rfl, rfl⟩, hb, rfl, rfl, rfl, rfl, rfl, -⟩ := h
    have he : ∀ c c' : Sl, c.src = c'.src → c.cs = c'.cs → InPlace cf (⟨c, xb, b1, b2, b3, b4, b5, m⟩ : HSt) ⟨c', yb, b1, b2, b3, b4, b5, m'⟩ := by
      intro c c' hc hc'
      refine ⟨?_, hS⟩
      simp only [HSt.pin, swapped, Sl.pin, hc, hc', hb]
    have lift : ∀ {a b : HTok} {x y : HSt}, InPlace cf x y → a.pin = b.pin → liftH (atom cf a) ⟨x, sp⟩ = .ok d x1 →
        ∃ y1, liftH (atom cf b) ⟨y, sp'⟩ = .ok d y1 ∧ InPlace cf x1.h y1.h ∧ Level x1.sp y1.sp := by
      intro a b x y h1 h2 h3
      obtain ⟨z, h4, h5⟩ := liftH_level (sp' := sp') h1 h2 h3
      refine ⟨z, h4, h5, ?_⟩
      have s1 : x1.sp = sp := by
        unfold liftH at h3
        cases e1 : atom cf a x <;> rw [e1] at h3 <;> cases h3
        rfl
      have s2 : z.sp = sp' := by
        unfold liftH at h4
        cases e1 : atom cf b y <;> rw [e1] at h4 <;> cases h4
        rfl
      rw [s1, s2]
      exact hM.level
    rw [parseLoop] at e ⊢
    simp only at e ⊢
    cases ht : token y3 with
    | panic p => rw [ht] at e; cases e
    | err k rest =>
      rw [ht] at e
      dsimp only at e ⊢
      split at e
      · rename_i hk
        cases e
        exact ⟨⟨⟨⟨y1, y2, rest⟩, yb, b1, b2, b3, b4, b5, m'⟩, sp'⟩, if_pos hk, he ⟨y1, c2, rest⟩ ⟨y1, y2, rest⟩ rfl rfl, hM.level⟩
      · cases e
    | ok t rest =>
      rw [ht] at e
      cases t with
      | chr c r =>
        dsimp only at e ⊢
        exact lift (he ⟨y1, c2, rest⟩ ⟨y1, y2, rest⟩ rfl rfl) (by rw [HTok.pin_ofTok, HTok.pin_ofTok]; rfl) e
      | cs name =>
        dsimp only at e ⊢
        cases ho : Macros.tryExpand cf m name rest with
        | none =>
          have hg : m.get name = none := by
            unfold Macros.tryExpand at ho
            cases hg : m.get name with
            | none => rfl
            | some df => rw [hg] at ho; cases ho
          have hy : Macros.tryExpand cf m' name rest = none := by unfold Macros.tryExpand; rw [(hS name).1.1 hg]; rfl
          simp only [ho] at e
          simp only [hy]
          exact lift (b := .cs name) (he ⟨y1, c2, rest⟩ ⟨y1, y2, rest⟩ rfl rfl) rfl e
        | some o =>
          rw [ho] at e
          cases o with
          | panic p => cases e
          | err k =>
            dsimp only at e
            split at e <;> cases e
          | ok new consumed =>
            obtain ⟨k', hy⟩ := (hS name).2 _ _ _ ho
            rw [hy]
            dsimp only at e ⊢
            have hlen : sp'.exps.length = sp.exps.length := by simpa using (congrArg List.length hM.level.ids).symm
            rw [hlen, ← hM.level.total, ← hM.level.count]
            split at e
            · cases e
            · rename_i hl
              rw [if_neg hl]
              obtain ⟨i, es, j, es', f1, f2, f3⟩ := hM.found { (⟨y1, c2, y3⟩ : Sl) with cs := trimStart y3 } { (⟨y1, y2, y3⟩ : Sl) with cs := trimStart y3 }
                ((Sub.refl _).suffix (trimStart_suffix _)) ((Sub.refl _).suffix (trimStart_suffix _))
              simp only at f1 f2
              simp only [Spans.add, Spans.reach, f1, f2, Option.map_some] at e ⊢
              have hn := he ⟨sp.nalloc + 1, blen new, new⟩ ⟨sp.nalloc + 1, blen new, new⟩ rfl rfl
              refine parseLoop_level n hn ?_ e
              exact Abreast.new ⟨_, _, rfl, rfl⟩ ⟨_, _, rfl, rfl⟩ ⟨rfl, rfl, by simp [f3]⟩

/-! ### Steps -/

theorem instr_pin_cons {l : List Instr} {x : Instr} {r : List Instr} (h : l.map Instr.pin = x :: r) : ∃ y l', l = y :: l' ∧ y.pin = x ∧ l'.map Instr.pin = r := by
  cases l with
  | nil => cases h
  | cons y l' => simp at h; exact ⟨y, l', rfl, h.1, h.2⟩

theorem unstage_pin (buf stack : List Instr) (d : Option Desc) :
    unstage (buf.map Instr.pin) (stack.map Instr.pin) d = (unstage buf stack d).map (List.map Instr.pin) := by
  cases d with
  | none => simp [unstage, Except.map]
  | some d =>
    unfold unstage
    simp only [List.length_map, ← List.map_drop, ← List.map_take, ← List.map_reverse]
    split
    · split
      · rfl
      · have : List.replicate (buf.drop d.sup).reverse.length (none : Option Instr) =
            (List.replicate (buf.drop d.sup).reverse.length none).map (Option.map Instr.pin) := by simp
        rw [this, fillSlots_map, ← this]
        cases fillSlots (buf.drop d.sup).reverse (d.sub - d.sup) (List.replicate (buf.drop d.sup).reverse.length none) with
        | none => rfl
        | some slots =>
          simp only [Option.map_some]
          rw [mapM_id_map]
          cases slots.mapM (id : Option Instr → Option Instr) with
          | none => rfl
          | some added => simp [Except.map, Instr.pin]
    · split
      · rfl
      · simp [Except.map, Instr.pin]

/-- The same texts and events in the same allocations, macros that mean the same, and as many expansions. -/
structure Marching (cf : Cfg) (s t : State) : Prop where
  stack : t.stack.map Instr.pin = s.stack.map Instr.pin
  buf : t.buf.map Instr.pin = s.buf.map Instr.pin
  macros : Serves cf s.macros t.macros
  level : Level s.sp t.sp

/-- The same step with other macros. -/
inductive OnStep (cf : Cfg) : Step → Step → Prop
  | again {s t} : Marching cf s t → OnStep cf (.again s) (.again t)
  | item {e s t} : Marching cf s t → OnStep cf (.item (.ok e) s) (.item (.ok e) t)

theorem step_marching {s t : State} (h : Marching cf s t) {s' : State} (hst : step cf s = .again s' ∨ ∃ e, step cf s = .item (.ok e) s')
    (hM : ∀ c A rest c' rest', s.stack = .sub c A :: rest → t.stack = .sub c' A :: rest' → c'.src = c.src → trimStart c.cs ≠ [] → Abreast cf (startSt s c A) (startSt t c' A)) :
    OnStep cf (step cf s) (step cf t) := by
  cases hss : s.stack with
  | nil => unfold step at hst; rw [hss] at hst; rcases hst with h1 | ⟨e, h1⟩ <;> cases h1
  | cons x rest =>
    have hm := h.stack
    rw [hss] at hm
    obtain ⟨y, rest', hts, hy, hr'⟩ := instr_pin_cons (show t.stack.map Instr.pin = x.pin :: rest.map Instr.pin from hm)
    cases x with
    | ev e =>
      cases y with
      | sub c A => cases hy
      | ev e' =>
        cases hy
        have e1 : step cf s = .item (.ok e) { s with stack := rest } := by unfold step; rw [hss]
        have e2 : step cf t = .item (.ok e) { t with stack := rest' } := by unfold step; rw [hts]
        rw [e1, e2]
        exact .item ⟨hr', h.buf, h.macros, h.level⟩
    | sub c A =>
      cases y with
      | ev e => cases hy
      | sub c' A' =>
        have hA : A' = A := by injection hy
        subst hA
        have hc : c'.pin = c.pin := by injection hy
        have hcs : c'.cs = c.cs := show c'.pin.cs = c.pin.cs from congrArg Sl.cs hc
        have hsrc : c'.src = c.src := show c'.pin.src = c.pin.src from congrArg Sl.src hc
        by_cases hb : trimStart c.cs = []
        · have e1 : step cf s = .again { s with stack := rest } := by
            unfold step
            rw [hss]
            simp only
            rw [if_pos (by simp [hb])]
          have e2 : step cf t = .again { t with stack := rest' } := by
            unfold step
            rw [hts]
            simp only
            rw [if_pos (by simp [hcs, hb])]
          rw [e1, e2]
          exact .again ⟨hr', h.buf, h.macros, h.level⟩
        · have hb' : trimStart c'.cs ≠ [] := by rw [hcs]; exact hb
          have e1 := Formula.step_text (cf := cf) hss hb
          have e2 := Formula.step_text (cf := cf) hts hb'
          have hstart : InPlace cf (startSt s c A').h (startSt t c' A').h := by
            refine ⟨?_, h.macros⟩
            unfold startSt HSt.pin swapped Sl.pin
            simp only [h.buf, hcs, hsrc]
          cases hp : parse cf (startSt s c A') with
          | panic p => rw [hp] at e1; rw [e1] at hst; rcases hst with h1 | ⟨e, h1⟩ <;> cases h1
          | err k st =>
            rw [hp] at e1
            dsimp only at e1
            rw [e1] at hst
            split at hst <;> rcases hst with h1 | ⟨e, h1⟩ <;> cases h1
          | ok d x =>
            obtain ⟨y, hp', ⟨hxy, hS'⟩, hL⟩ := parseLoop_level (maxExpansionDepth + 2) (sp := (startSt s c A').sp) (sp' := (startSt t c' A').sp) hstart (hM c A' rest c' rest' hss hts hsrc hb) hp
            rw [hp] at e1
            dsimp only at e1
            cases hu : unstage x.h.buf (.sub x.h.content x.h.align :: rest) d with
            | error p => rw [hu] at e1; rw [e1] at hst; rcases hst with h1 | ⟨e, h1⟩ <;> cases h1
            | ok st =>
              rw [hu] at e1
              dsimp only at e1
              have hp' : parse cf (startSt t c' A') = .ok d y := hp'
              rw [hp'] at e2
              dsimp only at e2
              have a1 : y.h.content.pin = x.h.content.pin := congrArg HSt.content hxy
              have a2 : y.h.align = x.h.align := show y.h.pin.align = (swapped (x.h, y.h.macros)).pin.align from congrArg HSt.align hxy
              have a3 : y.h.buf.map Instr.pin = x.h.buf.map Instr.pin := congrArg HSt.buf hxy
              have m1 := unstage_pin x.h.buf (.sub x.h.content x.h.align :: rest) d
              have m2 := unstage_pin y.h.buf (.sub y.h.content y.h.align :: rest') d
              have m3 : (Instr.sub x.h.content x.h.align :: rest).map Instr.pin = (Instr.sub y.h.content y.h.align :: rest').map Instr.pin := by
                simp [Instr.pin, a1, a2, hr']
              rw [← a3, m3, m2, hu] at m1
              cases hu2 : unstage y.h.buf (.sub y.h.content y.h.align :: rest') d with
              | error p => rw [hu2] at m1; cases m1
              | ok st2 =>
                rw [hu2] at m1 e2
                have m4 : st2.map Instr.pin = st.map Instr.pin := by simpa [Except.map] using m1
                rw [e1, e2]
                exact .again ⟨m4, rfl, hS', hL⟩

end PL
