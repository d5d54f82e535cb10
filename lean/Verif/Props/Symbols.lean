import Verif.Props.Formula
import Verif.Spec.Symbols
import Verif.Lemmas.Encode
set_option autoImplicit false
/-!
# Command names have their standard meaning (C57)

The tables of Spec/Symbols.lean are written from the documentation of LaTeX, AMS and unicode-math. The grammar of C55 looks names up in the table of the
program; here this table is compared with the documented ones.
-/
namespace PL.Props
open PL PL.Lex Spec

/-- The name alone yields the events of `ns`, and in any formula it stands for `ns`. -/
def StandsFor (name : Str) (ns : Nodes) (pl : Place) : Prop :=
  (∀ cf, Yields cf ('\\' :: name) (ns.events.map .ok)) ∧ ∀ Δ a s, Reads Δ (.means a (.cs name) s ns s pl)

/-- Letters only, or one other character. -/
def isName (name : Str) : Bool := (!name.isEmpty && name.all isLetter) || (name.length == 1 && !name.all isLetter)

theorem nextTok_name {name : Str} (h : isName name = true) : NextTok ('\\' :: name) (.cs name) [] := by
  refine .cs (k := []) (w := []) .nil ?_ (by simp [Spaces]) (by rintro c r' h; cases h)
  unfold isName at h
  simp only [Bool.or_eq_true, Bool.and_eq_true] at h
  rcases h with ⟨h1, h2⟩ | ⟨h1, h2⟩
  · have := CsName.word (name := name) (r := []) (by rintro rfl; simp at h1) (List.all_eq_true.1 h2) (by rintro c r' h; cases h)
    simpa using this
  · match name, h1, h2 with
    | [c], _, h2 => exact .symbol (by simpa using h2)

theorem standsFor {name : Str} {ns : Nodes} {pl : Place} (hn : isName name = true) (h : ∀ Δ a s, Reads Δ (.means a (.cs name) s ns s pl)) :
    StandsFor name ns pl := by
  refine ⟨fun cf => ?_, h⟩
  have hl : Limits pl.mods [] [] [] := by
    cases pl.mods with
    | false => exact .no
    | true => exact .yes (noWords (by decide))
  have : Formula ('\\' :: name) (ns.append .nil) := by
    cases hk : pl.skip with
    | false => exact .whole (.plain (nextTok_name hn) (free _) (h _ _ _) hk hl (noScripts (by decide)) .nil) (.blank .nil)
    | true => exact .whole (.skipping (nextTok_name hn) (free _) (h _ _ _) hk .nil) (.blank .nil)
  have e : ns.append .nil = ns := by
    have : ∀ ns : Nodes, ns.append .nil = ns := by
      intro ns
      induction ns using Nodes.rec (motive_1 := fun _ => True) (motive_3 := fun _ => True) (motive_4 := fun _ => True) <;> simp_all [Nodes.append]
    exact this ns
  rw [e] at this
  exact C55_meaning cf _ _ this

/-- The content of a command that is one symbol. -/
def symbolOf (name : Str) : Option Content := symbol (primOf name)

theorem standsFor_symbol {name : Str} {c : Content} (hn : isName name = true) (h : symbolOf name = some c) : StandsFor name (.one (.content c)) {} :=
  standsFor hn fun _ _ _ => .single (.cs h)

theorem table_symbols {t : List (Str × Content)} {d : List Str} (ht : (t.all fun p => d.contains p.1 || (isName p.1 && symbolOf p.1 == some p.2)) = true)
    {name : Str} {c : Content} (h : (name, c) ∈ t) (hd : name ∉ d) : StandsFor name (.one (.content c)) {} := by
  have := List.all_eq_true.1 ht _ h
  simp only [Bool.or_eq_true, Bool.and_eq_true, beq_iff_eq, List.contains_eq_mem, decide_eq_true_eq] at this
  rcases this with h | ⟨h1, h2⟩
  · exact absurd h hd
  · exact standsFor_symbol h1 h2

theorem table_checked : (symbolTable.all fun p => (deviations.map Prod.fst).contains p.1 || (isName p.1 && symbolOf p.1 == some p.2)) = true := by
  have : (symbolTable.all fun p => memCode (code p.1) (deviations.map Prod.fst) || (isName p.1 && symbol (primCode p.1) == some p.2)) = true := by decide +kernel
  simp only [memCode_eq, primCode_eq] at this
  exact this

/-- Every symbol of the tables stands for its character, with its class, apart from those listed. -/
theorem C57_symbols_partial (name : Str) (c : Content) (h : (name, c) ∈ symbolTable) (hd : name ∉ deviations.map Prod.fst) :
    StandsFor name (.one (.content c)) {} :=
  table_symbols table_checked h hd

theorem deviations_checked :
    (deviations.all fun p => isName p.1 && symbolOf p.1 == some p.2 && symbolTable.any (fun q => q.1 == p.1) && symbolTable.all fun q => q.1 != p.1 || q.2 != p.2) = true := by
  have : (deviations.all fun p => isName p.1 && symbol (primCode p.1) == some p.2 && symbolTable.any (fun q => Nat.beq (code q.1) (code p.1)) &&
      symbolTable.all fun q => !Nat.beq (code q.1) (code p.1) || q.2 != p.2) = true := by decide +kernel
  simp only [beq_code, primCode_eq] at this
  exact this

theorem table_deviations {t d : List (Str × Content)}
    (ht : (d.all fun p => isName p.1 && symbolOf p.1 == some p.2 && t.any (fun q => q.1 == p.1) && t.all fun q => q.1 != p.1 || q.2 != p.2) = true)
    {name : Str} {c : Content} (h : (name, c) ∈ d) :
    StandsFor name (.one (.content c)) {} ∧ (∃ c', (name, c') ∈ t) ∧ ∀ c', (name, c') ∈ t → c' ≠ c := by
  have := List.all_eq_true.1 ht _ h
  simp only [Bool.and_eq_true, beq_iff_eq] at this
  obtain ⟨⟨⟨h1, h2⟩, h3⟩, h4⟩ := this
  refine ⟨standsFor_symbol h1 h2, ?_, ?_⟩
  · obtain ⟨⟨n, c'⟩, hm, hn⟩ := List.any_eq_true.1 h3
    simp only [beq_iff_eq] at hn
    exact ⟨c', hn ▸ hm⟩
  · intro c' hm
    have := List.all_eq_true.1 h4 _ hm
    simpa using this

/-- The others are in the tables, and get something else. -/
theorem C57_false (name : Str) (c : Content) (h : (name, c) ∈ deviations) :
    StandsFor name (.one (.content c)) {} ∧ (∃ c', (name, c') ∈ symbolTable) ∧ ∀ c', (name, c') ∈ symbolTable → c' ≠ c :=
  table_deviations deviations_checked h

theorem table_operators {t : List (Str × Nat)} {movable : Bool} (ht : (t.all fun p => isName p.1 && primOf p.1 == .largeOp (Char.ofNat p.2) movable) = true)
    {name : Str} {c : Nat} (h : (name, c) ∈ t) :
    StandsFor name (.one (.content (.largeOp (Char.ofNat c) false))) ⟨some (if movable then .movable else .right), true, false⟩ := by
  have := List.all_eq_true.1 ht _ h
  simp only [Bool.and_eq_true, beq_iff_eq] at this
  exact standsFor this.1 fun _ _ _ => .operator (by rw [this.2]; rfl)

/-- Sums and products have limits, integrals do not, unless a modifier says so. -/
theorem C57_operators (name : Str) (c : Nat) :
    ((name, c) ∈ sumSymbols → StandsFor name (.one (.content (.largeOp (Char.ofNat c) false))) ⟨some .movable, true, false⟩) ∧
    ((name, c) ∈ integralSymbols → StandsFor name (.one (.content (.largeOp (Char.ofNat c) false))) ⟨some .right, true, false⟩) :=
  ⟨table_operators (movable := true) (by simp only [← primCode_eq]; decide +kernel), table_operators (movable := false) (by simp only [← primCode_eq]; decide +kernel)⟩

/-- The operators of two words have limits. -/
theorem C57_words (name text : Str) (h : (name, text) ∈ twoWords) : StandsFor name (.one (.content (.function text))) ⟨some .movable, true, false⟩ := by
  have ht : (twoWords.all fun p => isName p.1 && primCode p.1 == .funcMov p.2) = true := by decide +kernel
  simp only [primCode_eq] at ht
  have := List.all_eq_true.1 ht _ h
  simp only [Bool.and_eq_true, beq_iff_eq] at this
  exact standsFor this.1 fun _ _ _ => .operator (by rw [this.2]; rfl)

/-- `\bmod` is a function name and not a binary operator, so that no space is set around it; `\sgn`, which LaTeX does not have, is one too. -/
theorem C57_bmod_false : StandsFor c!"bmod" (.one (.content (.function c!"mod"))) {} ∧ StandsFor c!"sgn" (.one (.content (.function c!"sgn"))) {} :=
  ⟨standsFor_symbol (by decide) (by unfold symbolOf; rw [← primCode_eq]; decide +kernel), standsFor_symbol (by decide) (by unfold symbolOf; rw [← primCode_eq]; decide +kernel)⟩

/-- Negated relations that Unicode does not have lose the slant or the second line. -/
theorem C57_approximated_false (name other : Str) (h : (name, other) ∈ approximated) :
    name ≠ other ∧ ∃ c, StandsFor name (.one (.content c)) {} ∧ StandsFor other (.one (.content c)) {} := by
  have ht : (approximated.all fun p => p.1 != p.2 && isName p.1 && isName p.2 && (symbol (primCode p.1)).isSome && symbol (primCode p.1) == symbol (primCode p.2)) = true := by
    decide +kernel
  simp only [primCode_eq] at ht
  have := List.all_eq_true.1 ht _ h
  simp only [Bool.and_eq_true, beq_iff_eq, bne_iff_ne] at this
  obtain ⟨⟨⟨⟨hne, h1⟩, h2⟩, h3⟩, h4⟩ := this
  obtain ⟨c, hc⟩ := Option.isSome_iff_exists.1 h3
  exact ⟨hne, c, standsFor_symbol h1 hc, standsFor_symbol h2 (h4.symm.trans hc)⟩

/-- Accents are set above their argument. -/
theorem C57_accents (name : Str) (c : Nat) (wide above : Bool) (h : (name, c, wide, above) ∈ accentTable) (Δ : Known) (a : Bool) (s : Str) (n : Nodes) (r : Str)
    (pl : Place) (hs : Reads Δ (.operand s n r pl)) :
    Reads Δ (.means a (.cs name) s (.one (.script .sup .aboveBelow (n.append (.one (.content (.ordinary (Char.ofNat c) wide)))))) r ((abovePlace above).over pl)) := by
  have ht : (accentTable.all fun p => primCode p.1 == .accent (Char.ofNat p.2.1) p.2.2.1 p.2.2.2) = true := by decide +kernel
  simp only [primCode_eq] at ht
  exact .accent (beq_iff_eq.1 (List.all_eq_true.1 ht _ h)) hs

/-- And below it. -/
theorem C57_under (name : Str) (c : Nat) (above : Bool) (h : (name, c, above) ∈ underTable) (Δ : Known) (a : Bool) (s : Str) (n : Nodes) (r : Str)
    (pl : Place) (hs : Reads Δ (.operand s n r pl)) :
    Reads Δ (.means a (.cs name) s (.one (.script .sub .aboveBelow (n.append (.one (.content (.ordinary (Char.ofNat c) true)))))) r ((abovePlace above).over pl)) := by
  have ht : (underTable.all fun p => primCode p.1 == .under (Char.ofNat p.2.1) p.2.2) = true := by decide +kernel
  simp only [primCode_eq] at ht
  exact .under (beq_iff_eq.1 (List.all_eq_true.1 ht _ h)) hs

/-- `\overline` is not stretched over its argument, and the scripts of `\overparen` are not above it, as those of `\underparen` are below. -/
theorem C57_accents_false (Δ : Known) (a : Bool) (s : Str) (n : Nodes) (r : Str) (pl : Place) (hs : Reads Δ (.operand s n r pl)) :
    Reads Δ (.means a (.cs c!"overline") s (.one (.script .sup .aboveBelow (n.append (.one (.content (.ordinary (Char.ofNat 0x203E) false)))))) r pl) ∧
    Reads Δ (.means a (.cs c!"overparen") s (.one (.script .sup .aboveBelow (n.append (.one (.content (.ordinary (Char.ofNat 0x23DC) true)))))) r pl) := by
  have e : (abovePlace false).over pl = pl := by
    cases pl with
    | mk p m k => cases p <;> rfl
  constructor
  · have := Reads.accent (a := a) (name := c!"overline") (c := Char.ofNat 0x203E) (st := false) (above := false) (by decide +kernel) hs
    rwa [e] at this
  · have := Reads.accent (a := a) (name := c!"overparen") (c := Char.ofNat 0x23DC) (st := true) (above := false) (by decide +kernel) hs
    rwa [e] at this

/-- A space of a number of eighteenths of an em, without height. -/
def isSpaceOf (n : Int) : Prim → Bool
  | .space (some d) none => d.unit == .em && d.value.num * 18 == n * d.value.den && decide (0 < d.value.den)
  | _ => false

/-- Spaces are as wide as documented, and nothing else. -/
theorem C57_spaces (name : Str) (n : Int) (h : (name, n) ∈ spaceTable) :
    ∃ d : Dim, d.unit = .em ∧ 0 < d.value.den ∧ d.value.num * 18 = n * d.value.den ∧ StandsFor name (.one (.space (some d) none none)) {} := by
  have ht : (spaceTable.all fun p => isName p.1 && isSpaceOf p.2 (primCode p.1)) = true := by decide +kernel
  simp only [primCode_eq] at ht
  have := List.all_eq_true.1 ht _ h
  simp only [Bool.and_eq_true] at this
  obtain ⟨h1, h2⟩ := this
  unfold isSpaceOf at h2
  split at h2
  · rename_i d hp
    simp only [Bool.and_eq_true, beq_iff_eq, decide_eq_true_eq] at h2
    exact ⟨d, h2.1.1, h2.2, h2.1.2, standsFor h1 fun _ _ _ => .space hp⟩
  · cases h2

/-- `\math…` and `\sym…` set a group in their font. -/
theorem C57_fonts (name : Str) (f : Option Font) (h : (name, f) ∈ fontTable) (Δ : Known) (a : Bool) (s g : Str) (ns : Nodes) (r : Str) (hb : Braced s g r)
    (hg : Reads Δ (.formula g ns)) :
    Reads Δ (.means a (.cs (c!"math" ++ name)) s (.one (block none [.font f] ns)) r {}) ∧
    Reads Δ (.means a (.cs (c!"sym" ++ name)) s (.one (block none [.font f] ns)) r {}) := by
  have ht : (fontTable.all fun p => primCode (c!"math" ++ p.1) == .fontGroup p.2 && primCode (c!"sym" ++ p.1) == .fontGroup p.2) = true := by decide +kernel
  simp only [primCode_eq] at ht
  have := List.all_eq_true.1 ht _ h
  simp only [Bool.and_eq_true, beq_iff_eq] at this
  exact ⟨.fontGroup this.1 hb hg, .fontGroup this.2 hb hg⟩

/-- `\boldsymbol` has a font of its own, which is bold italic or bold for every character. -/
theorem C57_boldsymbol (Δ : Known) (a : Bool) (s g : Str) (ns : Nodes) (r : Str) (hb : Braced s g r) (hg : Reads Δ (.formula g ns)) :
    Reads Δ (.means a (.cs c!"boldsymbol") s (.one (block none [.font (some .boldSymbol)] ns)) r {}) :=
  .fontGroup (by decide +kernel) hb hg

theorem free_cs {Δ : Known} {name : Str} (h : Δ name = none) : Δ.Free (.cs name) := fun n e => by cases e; exact h

/-- The old commands, and the styles, change what follows. -/
theorem C57_changes (Δ : Known) (s t : Str) (name : Str) (ms : Nodes) (u : Str) (hk : NextTok s (.cs name) t) (hf : Δ name = none)
    (ht : Reads Δ (.elements t ms u)) :
    (∀ f, (name, f) ∈ oldFontTable → Reads Δ (.elements s (.cons (.change (.font (some f))) ms) u)) ∧
    (∀ n st, (n, st) ∈ styleTable → name = n ++ c!"style" → Reads Δ (.elements s (.cons (.change (.style st)) ms) u)) := by
  have h1 : (oldFontTable.all fun p => primCode p.1 == .fontChange p.2) = true := by decide +kernel
  simp only [primCode_eq] at h1
  have h2 : (styleTable.all fun p => primCode (p.1 ++ c!"style") == .style p.2) = true := by decide +kernel
  simp only [primCode_eq] at h2
  constructor
  · intro f h
    exact .skipping (ns := .one _) hk (free_cs hf) (.change (by rw [beq_iff_eq.1 (List.all_eq_true.1 h1 _ h)]; rfl)) rfl ht
  · rintro n st h rfl
    exact .skipping (ns := .one _) hk (free_cs hf) (.change (by rw [beq_iff_eq.1 (List.all_eq_true.1 h2 _ h)]; rfl)) rfl ht

/-- Text, in a font. -/
theorem C57_text (Δ : Known) (a : Bool) (s g r : Str) (hb : TextArg s g r) :
    Reads Δ (.means a (.cs c!"text") s (.one (.content (.text g))) r {}) ∧
    ∀ name f, (name, f) ∈ textTable →
      Reads Δ (.means a (.cs (c!"text" ++ name)) s (.one (.group none [.font (some f)] (.one (.content (.text g))))) r {}) := by
  have ht : (textTable.all fun p => primCode (c!"text" ++ p.1) == .text (some p.2)) = true := by decide +kernel
  simp only [primCode_eq] at ht
  exact ⟨.text (by decide +kernel) hb, fun name f h => by
    have := List.all_eq_true.1 ht _ h
    rw [beq_iff_eq] at this
    exact .textFont this hb⟩

/-- Delimiters of a size. -/
theorem C57_sizes (name side : Str) (size : DelimSize) (h : (name, size) ∈ sizeTable) (hs : side ∈ sides) (Δ : Known) (a : Bool) (s : Str)
    (d : Char) (ty : DelimType) (r : Str) (hd : Delim s d ty r) :
    Reads Δ (.means a (.cs (name ++ side)) s (.one (.content (.delimiter d (some size) ty))) r {}) := by
  have ht : (sizeTable.all fun p => sides.all fun side => primCode (p.1 ++ side) == .sized p.2) = true := by decide +kernel
  simp only [primCode_eq] at ht
  exact .sized (beq_iff_eq.1 (List.all_eq_true.1 (List.all_eq_true.1 ht _ h) _ hs)) hd

/-- Fractions and binomials. -/
theorem C57_fractions (name : Str) (d : Option (Char × Char)) (bar : Bool) (style : Option Style) (h : (name, d, bar, style) ∈ fractionTable) (Δ : Known)
    (a : Bool) (s : Str) (n : Nodes) (t : Str) (m : Nodes) (u : Str) (pl pl' : Place) (hn : Reads Δ (.operand s n t pl)) (hm : Reads Δ (.operand t m u pl')) :
    Reads Δ (.means a (.cs name) s (.one (fractionNode (d.map Prod.fst) (d.map Prod.snd) (if bar then none else some ⟨⟨0, 1⟩, .em⟩) style n m)) u (pl.over pl')) := by
  have ht : (fractionTable.all fun p =>
      primCode p.1 == .frac (p.2.1.map Prod.fst) (p.2.1.map Prod.snd) (if p.2.2.1 then none else some ⟨⟨0, 1⟩, .em⟩) p.2.2.2) = true := by decide +kernel
  simp only [primCode_eq] at ht
  exact .frac (beq_iff_eq.1 (List.all_eq_true.1 ht _ h)) hn hm

/-- The commands with arguments of their own kind. -/
theorem C57_commands : ∀ p ∈ commandTable, primOf p.1 = p.2 := by
  have ht : (commandTable.all fun p => primCode p.1 == p.2) = true := by decide +kernel
  simp only [primCode_eq] at ht
  intro p hp
  exact beq_iff_eq.1 (List.all_eq_true.1 ht p hp)

theorem lookup_mem {α : Type} : ∀ {t : List (Str × α)} {name : Str} {p : α}, t.lookup name = some p → (name, p) ∈ t
  | [], _, _, h => by cases h
  | (k, x) :: t, name, p, h => by
    rw [List.lookup_cons] at h
    split at h
    · rename_i hk
      cases h
      rw [beq_iff_eq.1 hk]
      exact List.mem_cons_self
    · exact List.mem_cons_of_mem _ (lookup_mem h)

theorem dropWhile_nil : ∀ {s : Str}, s.dropWhile isWs = [] → ∀ c ∈ s, isWs c = true
  | [], _, _, h => by cases h
  | x :: s, h, c, hc => by
    cases hx : isWs x with
    | false => rw [List.dropWhile_cons_of_neg (by simp [hx])] at h; cases h
    | true =>
      rw [List.dropWhile_cons_of_pos hx] at h
      rcases List.mem_cons.1 hc with rfl | hc
      · exact hx
      · exact dropWhile_nil h c hc

theorem names_checked : (primTable.all fun p => knownNames.contains p.1) = true := by
  have : (primTable.all fun p => memCode (code p.1) knownNames) = true := by decide +kernel
  simpa only [memCode_eq] using this

/-- Only names of the tables, names of delimiters, and white space have a meaning. -/
theorem C57_names (name : Str) (h : primOf name ≠ .unknown) :
    name ∈ knownNames ∨ controlSequenceDelimiterMap name ≠ none ∨ ∀ c ∈ name, isWs c = true := by
  unfold primOf at h
  split at h
  · rename_i p hp
    exact .inl (by simpa using List.all_eq_true.1 names_checked _ (lookup_mem hp))
  · split at h
    · rename_i hd
      exact .inr (.inl (by rw [hd]; simp))
    · split at h
      · rename_i hw
        refine .inr (.inr ?_)
        unfold trimStart at hw
        intro c hc
        have : name.dropWhile isWs = [] := by simpa using hw
        exact dropWhile_nil this c hc
      · exact absurd rfl h

/-- Others are refused. -/
theorem C57_unknown (name : Str) (h : name ∉ knownNames) (hd : controlSequenceDelimiterMap name = none) (hw : ∃ c ∈ name, isWs c = false)
    (cf : Cfg) (k : Nat) (s : HSt) : handleToken cf (k + 1) (.cs name) s = .err .unknownPrimitive s := by
  have : primOf name = .unknown := by
    refine Decidable.byContradiction fun hu => ?_
    rcases C57_names name hu with h1 | h1 | h1
    · exact h h1
    · exact h1 hd
    · obtain ⟨c, hc, hc'⟩ := hw
      rw [h1 c hc] at hc'
      cases hc'
  show execPrim cf (handleToken cf k) (primOf name) s = _
  rw [this]
  rfl

/-! ### Characters typed directly (C58) -/

/-- The character alone yields the content, and stands for it in any formula. -/
def Typed (x : Char) (c : Content) : Prop :=
  (∀ cf, Yields cf [x] [.ok (.content c)]) ∧ ∀ Δ a s, Reads Δ (.means a (.chr x) s (.one (.content c)) s {})

theorem typed {x : Char} {c : Content} (h : special x = false) (hc : charContent x = c) : Typed x c := by
  subst hc
  have hm : ∀ Δ a s, Reads Δ (.means a (.chr x) s (.one (.content (charContent x))) s {}) := fun _ _ _ => .single (.chr h)
  refine ⟨fun cf => ?_, hm⟩
  unfold special at h
  simp only [Bool.or_eq_false_iff, decide_eq_false_iff_not, List.mem_cons, not_or] at h
  have : Formula [x] (.one (.content (charContent x))) :=
    .whole (.plain (ns := .one _) (ms := .nil) (.chr (k := []) .nil h.1.1.1 h.1.1.2.1 h.2) (free _) (hm _ _ _) rfl .no (noScripts (by decide)) .nil) (.blank .nil)
  exact C55_meaning cf _ _ this

theorem table_typed {t : List (Str × Nat)} {d : List Str} {f : Char → Content}
    (ht : (t.all fun p => d.contains p.1 || (!special (Char.ofNat p.2) && charContent (Char.ofNat p.2) == f (Char.ofNat p.2))) = true)
    {name : Str} {c : Nat} (h : (name, c) ∈ t) (hd : name ∉ d) : Typed (Char.ofNat c) (f (Char.ofNat c)) := by
  have := List.all_eq_true.1 ht _ h
  simp only [Bool.or_eq_true, Bool.and_eq_true, beq_iff_eq, List.contains_eq_mem, decide_eq_true_eq, Bool.not_eq_true'] at this
  rcases this with h | ⟨h1, h2⟩
  · exact absurd h hd
  · exact typed h1 h2

/-- A relation may be typed as its character. -/
theorem C58_relations_partial (name : Str) (c : Nat) (h : (name, c) ∈ relSymbols) (hd : name ≠ c!"backepsilon") :
    Typed (Char.ofNat c) (.relation (Char.ofNat c) none false) :=
  table_typed (f := fun x => .relation x none false) (d := [c!"backepsilon"]) (by decide +kernel) h (by simpa using hd)

/-- A binary operator too, apart from the ones listed. -/
theorem C58_binaries_partial (name : Str) (c : Nat) (h : (name, c) ∈ binSymbols) (hr : name ∉ typedRelations) (ho : name ∉ typedOrdinary)
    (ha : name ∉ [c!"And", c!"with"]) : Typed (Char.ofNat c) (.binaryOp (Char.ofNat c) false) :=
  table_typed (f := fun x => .binaryOp x false) (d := typedRelations ++ typedOrdinary ++ [c!"And", c!"with"]) (by decide +kernel) h
    (by simp only [List.mem_append, not_or]; exact ⟨⟨hr, ho⟩, ha⟩)

theorem mem_of_contains {name : Str} {c : Nat} {t : List (Str × Nat)} {d : List Str} (h : (name, c) ∈ t) (hd : name ∈ d) :
    (name, c) ∈ t.filter fun p => d.contains p.1 := List.mem_filter.2 ⟨h, by simpa using hd⟩

/-- Those are relations or ordinary when typed; and the signs of sums and integrals are ordinary, so that their scripts are not limits. -/
theorem C58_false (name : Str) (c : Nat) :
    ((name, c) ∈ binSymbols → name ∈ typedRelations → Typed (Char.ofNat c) (.relation (Char.ofNat c) none false)) ∧
    ((name, c) ∈ binSymbols → name ∈ typedOrdinary → Typed (Char.ofNat c) (.ordinary (Char.ofNat c) false)) ∧
    ((name, c) ∈ sumSymbols ++ integralSymbols → Typed (Char.ofNat c) (.ordinary (Char.ofNat c) false)) :=
  ⟨fun h hd => table_typed (t := binSymbols.filter fun p => typedRelations.contains p.1) (f := fun x => .relation x none false) (d := []) (by decide +kernel)
      (mem_of_contains h hd) (by simp),
    fun h hd => table_typed (t := binSymbols.filter fun p => typedOrdinary.contains p.1) (f := fun x => .ordinary x false) (d := []) (by decide +kernel)
      (mem_of_contains h hd) (by simp),
    fun h => table_typed (f := fun x => .ordinary x false) (d := []) (by decide +kernel) h (by simp)⟩

/-- Cases. -/
example : (c!"leq", Content.relation '≤' none false) ∈ symbolTable ∧ c!"leq" ∉ deviations.map Prod.fst ∧ (c!"leq", 0x2264) ∈ relSymbols ∧
    (c!"times", 0xD7) ∈ binSymbols ∧ (c!"sum", 0x2211) ∈ sumSymbols ∧ (c!"widehat", 0x5E, true, false) ∈ accentTable ∧ (c!"quad", 18) ∈ spaceTable ∧
    c!"foo" ∉ knownNames := by decide +kernel

end PL.Props
