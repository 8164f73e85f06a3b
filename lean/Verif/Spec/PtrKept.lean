import Verif.Spec.MutKept
/-
When pointers end that may be written through.
-/
namespace Oct.Spec
open Alias

/-- Something else than `g` writes at `l`, or a `&mut` to it is made. -/
def TakenAt (g : Nat) (es : List Event) (l : Nat) : Prop :=
  OthersWrite g es l ∨ ∃ t q r, Event.retag .excl t q r ∈ es ∧ r.has l = true

end Oct.Spec
