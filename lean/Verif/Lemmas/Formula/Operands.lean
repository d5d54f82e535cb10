import Verif.Lemmas.Formula.Commands
set_option autoImplicit false
/-! # The rules for commands with formulas as arguments -/
namespace PL.Formula
open PL PL.Lex PL.H Spec PL.Props

variable {cf : Cfg} {D : Macros.Ctx} {a : Bool} {name s : Str}

attribute [local simp] nodes_append_events over_none none_over Node.events Nodes.events block_events group_events opening

theorem sound_pmod {n : Nodes} {r : Str} {pl : Place} (hp : primOf name = .pmod) (ho : Sound cf D (.operand s n r pl)) :
    Sound cf D (.means a (.cs name) s (.three (.space (some ⟨⟨1, 1⟩, .em⟩) none none)
        (.group none [] ((Nodes.two (.content (.delimiter '(' none .open_)) (.content (.function c!"mod"))).append n))
        (.content (.delimiter ')' none .close))) r pl) := by
  refine sound_cs hp (by have := ho.1.1; omega) (fun k h hk hs ha => ?_) (by simp)
  refine Runs.arg (ho.2 k (by omega)) hs fun arg t' H => ?_
  exact Runs.congr (Runs.seq (Runs.push (.cons _ (.cons _ (.cons _ (.ev _)))) rfl) fun h' A => Runs.seq (H _ A.cs) fun h' A =>
    Runs.push (.cons _ (.ev _)) A.cs) (by simp) rfl (by simp)

theorem atomEvent_content (cls : AtomClass) (c : Char) : atomEvent cls c = .content (classContent cls c) := by
  cases cls <;> rfl

theorem runs_class {cls : AtomClass} {rec : HTok → H PUnit} {h : HSt} {es : List Event} {r : Str} {pl pl' : Place} (hs : h.content.cs = s)
    (hf : ∀ h' : HSt, h'.content.cs = s → h'.harg = h.harg → Runs cf D (atomGroup rec cls) h' es r pl) (hpl : pl' = (classPlace cls).over pl) :
    Runs cf D (execPrim cf rec (.atom cls)) h es r pl' := by
  subst hpl
  by_cases hc : cls = .op
  · subst hc
    obtain ⟨h', e, A⟩ := hf { h with allowMods := true, pos := .movable } hs rfl
    refine ⟨h', e, ⟨A.cs, ?_, ?_, A.skip, A.align, A.macros, A.buf⟩⟩
    · rw [A.mods]; simp [classPlace, Place.over]
    · rw [A.pos]; cases hq : pl.pos <;> simp [classPlace, Place.over, hq]
  · have : classPlace cls = {} := by cases cls <;> simp [classPlace] at hc ⊢
    rw [this, over_none]
    obtain ⟨h', e, A⟩ := hf h hs rfl
    refine ⟨h', ?_, A⟩
    simp only [execPrim]
    rw [if_neg hc]
    exact e

/-- Staging first. -/
theorem Runs.pushThen {m : H PUnit} {h : HSt} {is : List Instr} {es fs : List Event} {r : Str} {p : Place} (hu : Unfolds cf D is es)
    (b : Runs cf D m { h with buf := h.buf ++ is } fs r p) : Runs cf D (do H.push is; m) h (es ++ fs) r p := by
  obtain ⟨h', e, A⟩ := b
  obtain ⟨js, hj, uj⟩ := A.buf
  exact ⟨h', e, ⟨A.cs, A.mods, A.pos, A.skip, A.align, A.macros, is ++ js, by rw [hj]; simp, hu.append uj⟩⟩

theorem lone_single {g : Str} {c : Char} (h : Lone g c) : trim g = [c] := by
  obtain ⟨w, w', hw, hw', rfl, hc⟩ := h
  unfold trim
  rw [trimStart_ws_append hw, trimStart_eq_self (by intro d r e; cases e; exact hc)]
  unfold trimEnd
  rw [List.reverse_cons]
  have : ∀ x ∈ w'.reverse, isWs x = true := by
    intro x hx
    exact hw' x (by simpa using hx)
  rw [List.dropWhile_append_of_pos this]
  simp [List.dropWhile, hc]

theorem not_lone {sl : Sl} (h : ∀ c, ¬ Lone sl.cs c) : singleChar (.group sl) = none := by
  unfold singleChar
  dsimp only
  split
  · rename_i c hc
    exfalso
    refine h c ?_
    obtain ⟨w, hw, e⟩ := trimStart_spec sl.cs
    have ht : trim sl.cs = [c] := hc
    unfold trim trimEnd at ht
    have e2 := List.takeWhile_append_dropWhile (p := isWs) (l := (trimStart sl.cs).reverse)
    have h3 : (trimStart sl.cs).reverse.dropWhile isWs = [c] := by
      have := congrArg List.reverse ht
      simpa using this
    rw [h3] at e2
    have e4 : trimStart sl.cs = [c] ++ ((trimStart sl.cs).reverse.takeWhile isWs).reverse := by
      have := congrArg List.reverse e2
      simpa using this.symm
    refine ⟨w, _, hw, ?_, by rw [e, e4]; simp; rfl, ?_⟩
    · intro x hx
      exact takeWhile_all x (by simpa using hx)
    · exact trimStart_head (by rw [e4]; rfl)
  · rfl

theorem sound_classChar {cls : AtomClass} {c : Char} {r : Str} (hp : primOf name = .atom cls) (ht : TokArg s (.chr c) r) :
    Sound cf D (.means a (.cs name) s (.one (.content (classContent cls c))) r (classPlace cls)) := by
  refine sound_cs hp (Nat.le_of_lt (nextTok_length ht.1)) fun k h hk hs ha => ?_
  refine runs_class (pl := {}) hs (fun h' hs' ha' => ?_) (none_over _).symm
  obtain ⟨tk, e, hx⟩ := argument_token (h := h') (by rw [hs']; exact ht)
  refine Runs.after e ?_
  cases tk with
  | cs => cases hx
  | chr d ctx =>
    obtain ⟨rfl, -⟩ := hx
    dsimp only [singleChar]
    rw [atomEvent_content]
    exact Runs.ev rfl

theorem sound_classLone {cls : AtomClass} {g : Str} {c : Char} {r : Str} (hp : primOf name = .atom cls) (hb : Braced s g r) (hl : Lone g c) :
    Sound cf D (.means a (.cs name) s (.one (.content (classContent cls c))) r (classPlace cls)) := by
  refine sound_cs hp (Nat.le_of_lt (braced_length hb)) fun k h hk hs ha => ?_
  refine runs_class (pl := {}) hs (fun h' hs' ha' => ?_) (none_over _).symm
  refine Runs.after (argument_group (by rw [hs']; exact hb)) ?_
  have : singleChar (.group (h'.content.part g 1 r)) = some c := by
    show (match trim g with | [c] => some c | _ => none) = some c
    rw [lone_single hl]
  rw [this]
  dsimp only
  rw [atomEvent_content]
  exact Runs.ev rfl

theorem sound_classGroup {cls : AtomClass} {g : Str} {ns : Nodes} {r : Str} (hp : primOf name = .atom cls) (hcls : cls ≠ .op) (hb : Braced s g r)
    (hl : ∀ c, ¬ Lone g c) (ho : Sound cf D (.formula g ns)) : Sound cf D (.means a (.cs name) s (.one (.group none [] (.one (block none [] ns)))) r {}) := by
  refine sound_cs hp (Nat.le_of_lt (braced_length hb)) fun k h hk hs ha => ?_
  refine runs_class (pl := {}) hs (fun h' hs' ha' => ?_) (by cases cls <;> simp [classPlace] at hcls ⊢)
  refine Runs.after (argument_group (by rw [hs']; exact hb)) ?_
  rw [not_lone hl]
  dsimp only
  split
  · exact absurd rfl hcls
  · exact Runs.congr (Runs.seq (Runs.ev rfl) fun h1 A => Runs.seq (Runs.push (unfolds_block ho rfl) A.cs) fun h1 A => Runs.ev A.cs) (by simp) rfl (by simp)

theorem sound_className {g : Str} {r : Str} (hp : primOf name = .atom .op) (hb : Braced s g r) (hl : ∀ c, ¬ Lone g c) :
    Sound cf D (.means a (.cs name) s (.one (.content (.function g))) r (classPlace .op)) := by
  refine sound_cs hp (Nat.le_of_lt (braced_length hb)) fun k h hk hs ha => ?_
  refine runs_class (pl := {}) hs (fun h' hs' ha' => ?_) (none_over _).symm
  refine Runs.after (argument_group (by rw [hs']; exact hb)) ?_
  rw [not_lone hl]
  exact Runs.ev (e := .content (.function g)) rfl

theorem sound_classToken {cls : AtomClass} {x t : Str} {n : Nodes} {r : Str} {pl : Place} (hp : primOf name = .atom cls) (ht : TokArg s (.cs x) t)
    (h : Sound cf D (.means true (.cs x) t n r pl)) :
    Sound cf D (.means a (.cs name) s (.one (block none [] n)) r ((classPlace cls).over pl)) := by
  have ho := sound_tokenArg ht h
  refine sound_cs hp (by have := ho.1.1; omega) fun k h hk hs ha => ?_
  refine runs_class hs (fun h' hs' ha' => ?_) rfl
  obtain ⟨arg, t', e, H⟩ := ho.2 k hk h' hs'
  refine Runs.after e ?_
  obtain ⟨tk, e', hx⟩ := argument_token (h := h') (by rw [hs']; exact ht)
  rw [e'] at e
  cases e
  cases tk with
  | chr => cases hx
  | cs m =>
    have : Runs cf D (do ev (.begin_ .normal); handleArgument (handleToken cf k) (.token (.cs m)); ev .end_) (past h' t)
        (.begin_ .normal :: (n.events ++ [.end_])) r pl :=
      Runs.congr (Runs.seq (Runs.ev rfl) fun h1 A => Runs.seq (H _ A.cs) fun h1 A => Runs.ev A.cs) (by simp) rfl (by simp)
    cases cls <;> exact Runs.congr this (by simp) rfl rfl

theorem sound_fontGroup {f : Option Font} {g : Str} {ns : Nodes} {r : Str} (hp : primOf name = .fontGroup f) (hb : Braced s g r)
    (ho : Sound cf D (.formula g ns)) : Sound cf D (.means a (.cs name) s (.one (block none [.font f] ns)) r {}) := by
  refine sound_cs hp (Nat.le_of_lt (braced_length hb)) fun k h hk hs ha => ?_
  refine Runs.after (argument_group (by rw [hs]; exact hb)) ?_
  exact Runs.congr (Runs.seq (Runs.push (.cons _ (.ev _)) rfl) fun h1 A => Runs.seq (Runs.push (ho _ none rfl) A.cs) fun h1 A => Runs.ev A.cs)
    (by simp) rfl (by simp)

theorem sound_fontToken {f : Option Font} {x : Word} {t : Str} {ns : Nodes} {r : Str} {pl : Place} (hp : primOf name = .fontGroup f) (ht : TokArg s x t)
    (ho : Sound cf D (.means a x t ns r pl)) : Sound cf D (.means a (.cs name) s (.one (block none [.font f] ns)) r pl) := by
  have e1 := nextTok_length ht.1
  refine ⟨fun he => ⟨by have := (ho.1 he).1; omega, one_ne _⟩, fun n h tk hn hx hs ha => ?_⟩
  cases tk with
  | chr => cases hx
  | cs m =>
    obtain rfl : m = name := hx
    cases n with
    | zero => omega
    | succ k =>
      show Runs cf D (execPrim cf (handleToken cf k) (primOf m)) h _ _ _
      rw [hp]
      obtain ⟨tk, e, hx⟩ := argument_token (h := h) (by rw [hs]; exact ht)
      refine Runs.after e ?_
      exact Runs.congr (Runs.pushThen (.cons _ (.ev _)) (Runs.seq (ho.2 k _ tk (by omega) hx rfl ha) fun h1 A => Runs.ev A.cs))
        (by simp) rfl (by simp)

theorem sound_accent {c : Char} {st above : Bool} {n : Nodes} {r : Str} {pl : Place} (hp : primOf name = .accent c st above)
    (ho : Sound cf D (.operand s n r pl)) :
    Sound cf D (.means a (.cs name) s (.one (.script .sup .aboveBelow (n.append (.one (.content (.ordinary c st)))))) r ((abovePlace above).over pl)) := by
  refine sound_cs hp (by have := ho.1.1; omega) fun k h hk hs ha => ?_
  have key : ∀ h' : HSt, h'.content.cs = s → Runs cf D (accent (handleToken cf k) c st) h' (.script .sup .aboveBelow :: (n.events ++ [.content (.ordinary c st)])) r pl := by
    intro h' hs'
    refine Runs.arg (ho.2 k (by omega)) hs' fun arg t' H => ?_
    exact Runs.congr (Runs.seq (Runs.ev rfl) fun h' A => Runs.seq (H _ A.cs) fun h' A => Runs.ev A.cs) (by simp) rfl (by simp)
  cases above with
  | true => exact Runs.congr (Runs.seq (Runs.setPos hs) fun h' A => key h' A.cs) (by simp) rfl (by simp [abovePlace])
  | false => exact Runs.congr (key h hs) (by simp) rfl (by simp [abovePlace])

theorem sound_under {c : Char} {above : Bool} {n : Nodes} {r : Str} {pl : Place} (hp : primOf name = .under c above)
    (ho : Sound cf D (.operand s n r pl)) :
    Sound cf D (.means a (.cs name) s (.one (.script .sub .aboveBelow (n.append (.one (.content (.ordinary c true)))))) r ((abovePlace above).over pl)) := by
  refine sound_cs hp (by have := ho.1.1; omega) fun k h hk hs ha => ?_
  have key : ∀ h' : HSt, h'.content.cs = s → Runs cf D (underscript (handleToken cf k) c) h' (.script .sub .aboveBelow :: (n.events ++ [.content (.ordinary c true)])) r pl := by
    intro h' hs'
    refine Runs.arg (ho.2 k (by omega)) hs' fun arg t' H => ?_
    exact Runs.congr (Runs.seq (Runs.ev rfl) fun h' A => Runs.seq (H _ A.cs) fun h' A => Runs.ev A.cs) (by simp) rfl (by simp)
  cases above with
  | true => exact Runs.congr (Runs.seq (Runs.setPos hs) fun h' A => key h' A.cs) (by simp) rfl (by simp [abovePlace])
  | false => exact Runs.congr (key h hs) (by simp) rfl (by simp [abovePlace])

theorem sound_xarrow {c : Char} {n : Nodes} {t r : Str} {pl : Place} (hp : primOf name = .xarrow c) (hb : NoOptional s t)
    (ho : Sound cf D (.operand t n r pl)) :
    Sound cf D (.means a (.cs name) s (.one (.script .sup .aboveBelow (.cons (.content (.relation c none false)) n))) r pl) := by
  have e1 := noOptional_length hb
  refine sound_cs hp (by have := ho.1.1; omega) fun k h hk hs ha => ?_
  refine Runs.after (optionalArgument_none (by rw [hs]; exact hb)) ?_
  refine Runs.arg (ho.2 k (by omega)) rfl fun arg t' H => ?_
  exact Runs.congr (Runs.seq (Runs.push (.cons _ (.ev _)) rfl) fun h' A => H _ A.cs) (by simp [PL.relation]) rfl (by simp)

theorem sound_xarrowBelow {c : Char} {b t : Str} {ns : Nodes} {n : Nodes} {r : Str} {pl : Place} (hp : primOf name = .xarrow c) (hb : Bracketed s b t)
    (hf : Sound cf D (.formula b ns)) (ho : Sound cf D (.operand t n r pl)) :
    Sound cf D (.means a (.cs name) s (.one (.script .subSup .aboveBelow (.cons (.content (.relation c none false)) (.cons (block none [] ns) n)))) r pl) := by
  have e1 := bracketed_length hb
  refine sound_cs hp (by have := ho.1.1; omega) fun k h hk hs ha => ?_
  refine Runs.after (optionalArgument_some (by rw [hs]; exact hb)) ?_
  refine Runs.arg (ho.2 k (by omega)) rfl fun arg t' H => ?_
  exact Runs.congr (Runs.seq (Runs.push (.cons _ (.ev _)) rfl) fun h' A => Runs.seq (Runs.push (unfolds_block hf rfl) A.cs) fun h' A => H _ A.cs)
    (by simp [PL.relation]) rfl (by simp)

theorem sound_sideset {w1 s1 w2 s2 : Str} {n : Nodes} {r : Str} {pl : Place} (hp : primOf name = .sideset) (h1 : ReadArg s w1 s1) (h2 : ReadArg s1 w2 s2)
    (ho : Sound cf D (.operand s2 n r pl)) : Sound cf D (.means a (.cs name) s n r pl) := by
  have hl : ∀ {s w r : Str}, ReadArg s w r → r.length ≤ s.length := by
    intro s w r h
    cases h with
    | group _ h => have := split_length h; simp; omega
    | char => simp; omega
    | cs _ h _ _ => rw [h.eq.1]; simp; omega
  have e1 := hl h1
  have e2 := hl h2
  have read : ∀ {h : HSt} {w t : Str}, ReadArg h.content.cs w t → ∃ x, H.argument h = .ok x (past h t) := by
    intro h w t hr
    obtain ⟨x, hx, -⟩ := PL.Macros.argument_of hr
    unfold H.argument
    rw [hx]
    exact ⟨_, rfl⟩
  refine sound_cs hp (by have := ho.1.1; omega) (fun k h hk hs ha => ?_) (fun _ => ho.1.2)
  obtain ⟨x1, e1⟩ := read (h := h) (by rw [hs]; exact h1)
  refine Runs.after e1 ?_
  obtain ⟨x2, e2⟩ := read (h := past h s1) h2
  refine Runs.after e2 ?_
  refine Runs.arg (ho.2 k (by omega)) rfl fun arg t' H => ?_
  exact H _ rfl

theorem sound_sqrt {n : Nodes} {t r : Str} {pl : Place} (hp : primOf name = .sqrt) (hb : NoOptional s t) (ho : Sound cf D (.operand t n r pl)) :
    Sound cf D (.means a (.cs name) s (.one (.visual .squareRoot n)) r pl) := by
  have e1 := noOptional_length hb
  refine sound_cs hp (by have := ho.1.1; omega) fun k h hk hs ha => ?_
  refine Runs.after (optionalArgument_none (by rw [hs]; exact hb)) ?_
  exact Runs.congr (Runs.seq (Runs.ev rfl) fun h' A => Runs.arg (ho.2 k (by omega)) A.cs fun arg t' H => H _ rfl) (by simp) rfl (by simp)

theorem sound_root {b t : Str} {i n : Nodes} {r : Str} {pl : Place} (hp : primOf name = .sqrt) (hb : Bracketed s b t) (hf : Sound cf D (.formula b i))
    (ho : Sound cf D (.operand t n r pl)) : Sound cf D (.means a (.cs name) s (.one (.visual .root (n.append i))) r pl) := by
  have e1 := bracketed_length hb
  refine sound_cs hp (by have := ho.1.1; omega) fun k h hk hs ha => ?_
  refine Runs.after (optionalArgument_some (by rw [hs]; exact hb)) ?_
  exact Runs.congr (Runs.seq (Runs.ev rfl) fun h' A => Runs.arg (ho.2 k (by omega)) A.cs fun arg t' H =>
    Runs.seq (H _ rfl) fun h' A => Runs.push (hf _ none rfl) A.cs) (by simp) rfl (by simp)

theorem sound_surd (hp : primOf name = .surd) :
    Sound cf D (.means a (.cs name) s (.one (.visual .squareRoot (.one (.space (some ⟨⟨0, 1⟩, .em⟩) (some ⟨⟨7, 10⟩, .em⟩) none)))) s {}) :=
  sound_cs hp (Nat.le_refl _) fun _ _ _ hs _ => Runs.congr (Runs.push (.cons _ (.ev _)) hs) (by simp) rfl rfl

theorem sound_negated {n : Nodes} {r : Str} {pl : Place} (hp : primOf name = .not_) (ho : Sound cf D (.operand s n r pl)) :
    Sound cf D (.means a (.cs name) s (.one (.visual .negation n)) r pl) := by
  refine sound_cs hp (by have := ho.1.1; omega) fun k h hk hs ha => ?_
  exact Runs.congr (Runs.seq (Runs.ev hs) fun h' A => Runs.arg (ho.2 k (by omega)) A.cs fun arg t' H => H _ rfl) (by simp) rfl (by simp)

end PL.Formula
