import Verif.Spec.Borrows
/-
When shared references end.
-/
namespace Oct.Spec
open Alias

/-- Something is written at `l`, or a `&mut` to it is made. -/
def ClaimedAt (es : List Event) (l : Nat) : Prop :=
  WrittenAt es l ∨ ∃ t q r, Event.retag .excl t q r ∈ es ∧ r.has l = true

end Oct.Spec
