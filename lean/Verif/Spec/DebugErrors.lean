import Verif.Spec.ErrorTypes
/-
When errors look alike. Only the constructors of the model are used here.
-/
namespace Oct.Spec

/-- The error, with `GenericDecodeError::UnassignedDiscriminant` taken for
`EnumDecodeError::UnassignedDiscriminant`, wherever it is. -/
def likeness : DecErr → DecErr
  | .gUnassigned v => .unassigned v
  | .badLength e => .badLength (likeness e)
  | .badItem e => .badItem (likeness e)
  | .item i e => .item i (likeness e)
  | .badField e => .badField (likeness e)
  | e => e

/-- The first text occurs in the second. -/
def OccursIn (a b : List Char) : Prop := ∃ before after, b = before ++ a ++ after

end Oct.Spec
