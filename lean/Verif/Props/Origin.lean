import Verif.Lemmas.OriginStep
import Verif.Props.Stream
set_option autoImplicit false
/-!
# C71: the texts in events come from the source

`Text`, `Number` and `Function` carry text. It is taken from the source as it stands there, or it is one of a few fixed names.
-/
namespace PL.Props
open PL PL.Lex Spec Macros

instance (inp : Str) : Cut (· <:+: inp) where
  cut a b c h := by
    obtain ⟨x, y, e⟩ := h
    exact ⟨x ++ a, c ++ y, by rw [← e]; simp⟩

instance (P : Char → Prop) : Cut (fun t => ∀ c ∈ t, P c) where
  cut a b c h := fun x hx => h x (by simp [hx])

/-- Without definitions, what an event carries stands in the source, in one piece; functions with a command of their own and the space that does not break
are the only exceptions. This holds at any moment, whether there were errors or not. -/
theorem C71_part (cf : Cfg) (inp : Str) (hd : ¬ Defines inp) (its : List Item) (s : State) (h : Reached cf inp its s) (e : Event) (he : .ok e ∈ its) :
    Origin (· <:+: inp) e := by
  refine (exec_from (Q := (· <:+: inp)) (List.infix_refl inp) ?_ (reached_exec h)).2.2 e he
  intro s hb hs hm c A rest q hst hx
  rw [(hb.onText hst hx).nodef hd |>.1]
  exact hs (.sub c A) (by rw [hst]; simp)

/-- With definitions, every character of what an event carries occurs in the source, braces apart. -/
theorem C71_characters (cf : Cfg) (inp : Str) (its : List Item) (s : State) (h : Reached cf inp its s) (e : Event) (he : .ok e ∈ its) :
    Origin (fun t => ∀ c ∈ t, c ∈ inp ∨ c = '{' ∨ c = '}') e := by
  refine (exec_from (Q := fun t => ∀ c ∈ t, c ∈ inp ∨ c = '{' ∨ c = '}') (fun c hc => .inl hc) ?_ (reached_exec h)).2.2 e he
  intro s hb hs hm c A rest q hst hx
  have hc : ∀ x ∈ c.cs, x ∈ inp ∨ x = '{' ∨ x = '}' := hs (.sub c A) (by rw [hst]; simp)
  have hm' : ∀ x ∈ (startSt s c A).h.macros, ∃ o, (∀ y ∈ o, y ∈ inp ∨ y = '{' ∨ y = '}') ∧ DefFrom o x.2 := hm
  clear hb hs hm hst
  revert hm'
  have hc : ∀ x ∈ (startSt s c A).h.content.cs, x ∈ inp ∨ x = '{' ∨ x = '}' := hc
  revert hc
  generalize startSt s c A = p at hx
  induction hx with
  | refl => exact fun h _ => h
  | @step p _ _ h1 _ ih =>
    intro hc hm
    refine ih ?_ (by rw [h1.h]; exact hm)
    obtain ⟨name, rest, new, consumed, start, es, len, ht, hx, -, -, -, rfl⟩ := h1.ex
    obtain ⟨d, hd, he⟩ := tryExpand_mem hx
    obtain ⟨o, ho, hdo⟩ := hm _ hd
    have hsuf := good_token (cf := cf) p.h.content.cs
    rw [ht] at hsuf
    exact expand_chars hdo he ho (fun c hc' => hc c (List.IsSuffix.subset hsuf hc')) (.inr (.inl rfl)) (.inr (.inr rfl))

/-- The text of the first case: three kinds of text, a function with a command, and an error. -/
def quoted : Str := c!"\\text{a b} 12.5 \\operatorname{foo}\\sin\\foo ~x"

example : (run cf0 60 (State.init quoted)).1.filterMap (fun | .ok e => some e | _ => none) =
    [.content (.text c!"a b"), .content (.number c!"12.5"), .content (.function c!"foo"), .content (.function c!"sin"), .content (.text c!"&nbsp;"),
      .content (.ordinary 'x' false)] := by decide +kernel

example (e : Event) (he : .ok e ∈ (run cf0 60 (State.init quoted)).1) : Origin (· <:+: quoted) e := by
  obtain ⟨s, hs, -⟩ := run_reached cf0 60 quoted
  exact C71_part cf0 quoted (by unfold Defines; decide) _ s hs e he

/-- With definitions a text can be put together from several places: no part of this source reads `cb`. -/
theorem C71_pieces : (run cf0 60 (State.init c!"\\def\\a#1{\\text{#1b}}\\a c")).1 = [.ok (.content (.text c!"cb"))] ∧
    ¬ c!"cb" <:+: c!"\\def\\a#1{\\text{#1b}}\\a c" := by decide +kernel

/-- A part of the source can be shown twice: an argument of `\text` without braces is the rest of the source, which is then read again. -/
theorem C71_twice : (run cf0 60 (State.init c!"\\text a+1")).1 =
    [.ok (.content (.text c!"a+1")), .ok (.content (.binaryOp '+' false)), .ok (.content (.number c!"1"))] := by decide +kernel

end PL.Props
