import Verif.Model.Event
set_option autoImplicit false
/-!
# Events without the character that begins a tag
-/
namespace PL.Spec

/-- The character does not occur, except in text, which the renderer escapes. -/
def SafeContent : Content → Prop
  | .text _ => True
  | .number t => '<' ∉ t
  | .function t => '<' ∉ t
  | .ordinary c _ => c ≠ '<'
  | .largeOp c _ => c ≠ '<'
  | .binaryOp c _ => c ≠ '<'
  | .relation c second _ => c ≠ '<' ∧ second ≠ some '<'
  | .delimiter c _ _ => c ≠ '<'
  | .punctuation c => c ≠ '<'

def SafeEvent : Event → Prop
  | .content c => SafeContent c
  | .begin_ (.leftRight l r) => l ≠ some '<' ∧ r ≠ some '<'
  | _ => True

instance (c : Content) : Decidable (SafeContent c) := by cases c <;> (unfold SafeContent; infer_instance)

instance (e : Event) : Decidable (SafeEvent e) := by
  cases e with
  | content c => exact inferInstanceAs (Decidable (SafeContent c))
  | begin_ g => cases g <;> (unfold SafeEvent; infer_instance)
  | _ => exact .isTrue trivial

end PL.Spec
