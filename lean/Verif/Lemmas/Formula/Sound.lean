import Verif.Lemmas.Formula.Base
set_option autoImplicit false
/-! # What the rules of the grammar claim about the parser -/
namespace PL.Formula
open PL PL.Lex PL.H Spec PL.Props

/-- An operand is read and then handled. -/
def Operand (cf : Cfg) (D : Macros.Ctx) (k : Nat) (s : Str) (ns : Nodes) (r : Str) (pl : Place) : Prop :=
  ∀ h : HSt, h.content.cs = s → ∃ arg t, H.argument h = .ok arg (past h t) ∧
    ∀ h2 : HSt, h2.content.cs = t → Runs cf D (handleArgument (handleToken cf k) arg) h2 ns.events r pl

/-- What a judgement claims. -/
def Sound (cf : Cfg) (D : Macros.Ctx) : Judgement → Prop
  | .means a x s ns r pl => (a = true → r.length ≤ s.length ∧ ns.events ≠ []) ∧ ∀ n h ht, s.length + 2 ≤ n → HTok.is ht x s → h.content.cs = s → h.harg = a →
      Runs cf D (handleToken cf n ht) h ns.events r pl
  | .operand s ns r pl => (r.length < s.length ∧ ns.events ≠ []) ∧ ∀ k, s.length + 1 ≤ k → Operand cf D k s ns r pl
  | .elements s ns r => ∀ c A B sp, trimStart c.cs = trimStart s → Outcome cf D ⟨.sub c A :: B, [], D, sp⟩ ns.events fun s' =>
      ∃ (c' : Sl) (sp' : Spans), trimStart c'.cs = trimStart r ∧ s' = ⟨.sub c' A :: B, [], D, sp'⟩
  | .formula s ns => ∀ (c : Sl) A, trimStart c.cs = trimStart s → Unfolds cf D [.sub c A] ns.events
  | .cells m s cs r => ∀ c k B sp, trimStart c.cs = trimStart s → Outcome cf D ⟨.sub c (some ⟨k, k + m⟩) :: B, [], D, sp⟩ cs.events fun s' =>
      ∃ (c' : Sl) (k' : Nat) (sp' : Spans), trimStart c'.cs = trimStart r ∧ s' = ⟨.sub c' (some ⟨k', k + m⟩) :: B, [], D, sp'⟩
  | .rows m s rows => ∀ c : Sl, trimStart c.cs = trimStart s → Unfolds cf D [.sub c (some ⟨0, m⟩)] rows.events

variable {cf : Cfg} {D : Macros.Ctx}

/-- Reading an operand. -/
theorem Runs.arg {k : Nat} {s : Str} {n : Nodes} {r : Str} {pl : Place} {f : HArg → H PUnit} {h : HSt} {es : List Event} {r' : Str} {p : Place}
    (o : Operand cf D k s n r pl) (hs : h.content.cs = s)
    (hf : ∀ arg t, (∀ h2 : HSt, h2.content.cs = t → Runs cf D (handleArgument (handleToken cf k) arg) h2 n.events r pl) → Runs cf D (f arg) (past h t) es r' p) :
    Runs cf D (H.argument >>= f) h es r' p := by
  obtain ⟨arg, t, e, hh⟩ := o h hs
  exact Runs.after e (hf arg t hh)

theorem Operand.runs {k : Nat} {s : Str} {n : Nodes} {r : Str} {pl : Place} {h : HSt} (o : Operand cf D k s n r pl) (hs : h.content.cs = s) :
    Runs cf D (Props.operand (handleToken cf k)) h n.events r pl := by
  unfold Props.operand
  exact Runs.arg o hs fun arg t H => H _ rfl

/-- A group of some elements in between. -/
theorem unfolds_group {is : List Instr} {es : List Event} (b : Event) (h : Unfolds cf D is es) :
    Unfolds cf D (.ev b :: (is ++ [.ev .end_])) (b :: (es ++ [.end_])) := .cons _ (h.append (.ev _))

theorem unfolds_block {c : Sl} {s : Str} {ns : Nodes} (h : Sound cf D (.formula s ns)) (hc : c.cs = s) :
    Unfolds cf D [.ev (.begin_ .normal), .sub c none, .ev .end_] (block none [] ns).events := by
  rw [block_events]
  exact unfolds_group _ (h c none (by rw [hc]))

/-- An operand that is a group. -/
theorem sound_groupArg {s g r : Str} {ns : Nodes} (hb : Braced s g r) (h : Sound cf D (.formula g ns)) :
    Sound cf D (.operand s (.one (block none [] ns)) r {}) := by
  refine ⟨⟨braced_length hb, one_ne _⟩, fun k hk hh hs => ⟨_, _, argument_group (by rw [hs]; exact hb), fun h2 hr => ?_⟩⟩
  rw [one_events]
  exact Runs.push (unfolds_block h rfl) hr

/-- An operand that is a token. -/
theorem sound_tokenArg {s t r : Str} {x : Word} {n : Nodes} {pl : Place} (ht : TokArg s x t) (h : Sound cf D (.means true x t n r pl)) :
    Sound cf D (.operand s n r pl) := by
  have hl := nextTok_length ht.1
  obtain ⟨h1, h2⟩ := h
  refine ⟨⟨by have := (h1 rfl).1; omega, (h1 rfl).2⟩, fun k hk hh hs => ?_⟩
  obtain ⟨tk, e, hx⟩ := argument_token (h := hh) (by rw [hs]; exact ht)
  refine ⟨_, _, e, fun h2' hr => ?_⟩
  obtain ⟨h', e', a⟩ := h2 k { h2' with harg := true } tk (by omega) hx hr rfl
  exact ⟨h', e', ⟨a.cs, a.mods, a.pos, a.skip, a.align, a.macros, a.buf⟩⟩

/-- A command. -/
theorem sound_cs {a : Bool} {name s r : Str} {ns : Nodes} {pl : Place} {p : Prim} (hp : primOf name = p) (hl : r.length ≤ s.length)
    (H : ∀ k h, s.length + 1 ≤ k → h.content.cs = s → h.harg = a → Runs cf D (execPrim cf (handleToken cf k) p) h ns.events r pl)
    (hne : a = true → ns.events ≠ [] := by exact fun _ => one_ne _) :
    Sound cf D (.means a (.cs name) s ns r pl) := by
  refine ⟨fun ha => ⟨hl, hne ha⟩, fun n h ht hn hx hs ha => ?_⟩
  cases ht with
  | chr => cases hx
  | cs m =>
    obtain rfl : m = name := hx
    cases n with
    | zero => omega
    | succ k =>
      show Runs cf D (execPrim cf (handleToken cf k) (primOf m)) h _ _ _
      rw [hp]
      exact H k h (by omega) hs ha

/-- A character. -/
theorem sound_chr {a : Bool} {c : Char} {s r : Str} {ns : Nodes} {pl : Place} (hl : a = true → r.length ≤ s.length)
    (H : ∀ (h : HSt) (ctx : Sl), ctx.cs = c :: s → h.content.cs = s → h.harg = a → Runs cf D (handleChar c ctx) h ns.events r pl)
    (hne : a = true → ns.events ≠ [] := by exact fun _ => one_ne _) :
    Sound cf D (.means a (.chr c) s ns r pl) := by
  refine ⟨fun ha => ⟨hl ha, hne ha⟩, fun n h ht hn hx hs ha => ?_⟩
  cases ht with
  | cs => cases hx
  | chr d ctx =>
    obtain ⟨rfl, hx⟩ := hx
    cases n with
    | zero => omega
    | succ k => exact H h ctx hx hs ha

/-! ### Characters -/

theorem plainChar_content {x : Char} (hx : special x = false) : plainCharEvent x = .content (charContent x) := by
  unfold charContent
  by_cases h : x.toNat < 128
  · rw [ascii_event h hx, if_pos h]
    rfl
  · rw [if_neg h]
    have ne : ∀ c : Char, c.toNat < 128 → x ≠ c := by rintro c hc rfl; exact h hc
    unfold plainCharEvent
    rw [if_neg (by simp [ne '.' (by decide), ne ',' (by decide), ne ';' (by decide)]), if_neg (ne _ (by decide)), if_neg (ne _ (by decide)),
      if_neg (ne _ (by decide))]
    split
    · rfl
    · split
      · rfl
      · cases charDelimiterMap x with
        | none => rfl
        | some d =>
          obtain ⟨d, ty⟩ := d
          cases ty <;> rfl

theorem runs_single {x : Word} {v : Str} {c : Content} {ht : HTok} {n : Nat} {h : HSt} (hc : Single x c) (hx : ht.is x v) :
    Runs cf D (handleToken cf (n + 1) ht) h [.content c] h.content.cs {} := by
  cases hc with
  | @chr x hs =>
    cases ht with
    | cs => cases hx
    | chr d ctx =>
      obtain ⟨rfl, -⟩ := hx
      obtain ⟨s1, s2, s3, s4, s5, s6, s7, s8, s9, s10, s11, s12⟩ := special_false hs
      have e : handleToken cf (n + 1) (.chr d ctx) h = H.ev (.content (charContent d)) h := by
        show handleChar d ctx h = _
        unfold handleChar
        rw [M.get_bind, if_neg (by simp [s1, s2]), if_neg (by simp [s3, s4]), if_neg s5, if_neg s6, if_neg s7, if_neg s8, if_neg s9,
          if_neg s10, if_neg (by simp [s11]), plainChar_content hs]
      unfold Runs
      rw [e]
      exact Runs.ev rfl
  | tie =>
    cases ht with
    | cs => cases hx
    | chr d ctx =>
      obtain ⟨rfl, -⟩ := hx
      exact Runs.ev rfl
  | @cs name c hc =>
    cases ht with
    | chr => cases hx
    | cs m =>
      obtain rfl : m = name := hx
      show Runs cf D (execPrim cf (handleToken cf n) (primOf m)) h _ _ _
      generalize primOf m = p at hc
      cases p <;> cases hc <;> exact Runs.ev rfl

theorem sound_single {a : Bool} {x : Word} {s : Str} {c : Content} (h : Single x c) : Sound cf D (.means a x s (.one (.content c)) s {}) := by
  refine ⟨fun _ => ⟨Nat.le_refl _, one_ne _⟩, fun n hh ht hn hx hs ha => ?_⟩
  cases n with
  | zero => omega
  | succ n =>
    subst hs
    exact runs_single h hx

theorem sound_number {x : Char} {s lit r : Str} (hx : isDigit x = true) (hn : NumberLit (x :: s) lit r) :
    Sound cf D (.means false (.chr x) s (.one (.content (.number lit))) r {}) := by
  refine sound_chr (by intro h; cases h) fun h ctx hc hs ha => ?_
  obtain ⟨src, stop, cs⟩ := ctx
  cases hc
  obtain ⟨lit', r', h1, h2⟩ := C15_number cf 0 x s src stop h hx ha
  obtain ⟨rfl, rfl⟩ := C15_unique _ _ _ _ _ hn h1
  exact ⟨_, h2, ⟨rfl, by simp, rfl, by simp, rfl, rfl, _, rfl, .ev _⟩⟩

theorem sound_digit {x : Char} {s : Str} (hx : isDigit x = true) : Sound cf D (.means true (.chr x) s (.one (.content (.number [x]))) s {}) := by
  refine sound_chr (fun _ => Nat.le_refl _) fun h ctx hc hs ha => ?_
  obtain ⟨src, stop, cs⟩ := ctx
  cases hc
  exact ⟨_, C15_argument cf 0 x s src stop h hx ha, ⟨rfl, by simp, rfl, by simp, rfl, rfl, _, rfl, .ev _⟩⟩

theorem sound_braces {a : Bool} {s g r : Str} {ns : Nodes} (hb : Split ['{'] ['}'] 0 s g r) (h : Sound cf D (.formula g ns)) :
    Sound cf D (.means a (.chr '{') s (.one (block none [] ns)) r {}) := by
  refine sound_chr (fun _ => split_length hb) fun hh ctx hc hs ha => ?_
  show Runs cf D (H.groupContent .normal >>= _) hh _ _ _
  refine Runs.after (groupContent_of (h := hh) (k := .normal) (by rw [hs]; exact hb)) ?_
  rw [one_events]
  exact Runs.push (unfolds_block h rfl) rfl

theorem sound_noBase {x : Char} {s : Str} (hx : x = '^' ∨ x = '_') :
    Sound cf D (.means false (.chr x) s (.one (.group none [] .nil)) (x :: s) {}) := by
  refine sound_chr (by intro h; cases h) fun hh ctx hc hs ha => ?_
  refine ⟨{ hh with content := ctx, buf := hh.buf ++ [.ev (.begin_ .normal)] ++ [.ev .end_] }, ?_,
    ⟨hc, by simp, rfl, by simp, rfl, rfl, [.ev (.begin_ .normal), .ev .end_], by simp, ?_⟩⟩
  · unfold handleChar
    rw [M.get_bind, if_neg (by rcases hx with rfl | rfl <;> decide), if_pos (by rcases hx with rfl | rfl <;> decide), if_neg (by simp [ha])]
    rfl
  · exact .cons _ (.ev _)

end PL.Formula
