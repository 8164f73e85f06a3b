import Verif.Spec.Borrows
/-
When exclusive references end.
-/
namespace Oct.Spec
open Alias

/-- The event is a use of something else than `g` at `l`: to read, to write, or to make a reference. -/
def Other (g l : Nat) : Event → Prop
  | .read t r => t ≠ g ∧ r.has l = true
  | .write t r => t ≠ g ∧ r.has l = true
  | .retag k _ _ r => k ≠ .raw ∧ r.has l = true

/-- Something else than `g` is used at `l`. -/
def OthersAt (g : Nat) (es : List Event) (l : Nat) : Prop := ∃ e ∈ es, Other g l e

/-- Something else than `g` writes at `l`. -/
def OthersWrite (g : Nat) (es : List Event) (l : Nat) : Prop := ∃ t r, Event.write t r ∈ es ∧ t ≠ g ∧ r.has l = true

/-- `g` writes at `l`. -/
def OwnWrite (g : Nat) (es : List Event) (l : Nat) : Prop := ∃ r, Event.write g r ∈ es ∧ r.has l = true

/-- Something else than `g` writes at `l`; or `g` writes there, and then something else is used there. -/
def Spoilt (g : Nat) (es : List Event) (l : Nat) : Prop :=
  OthersWrite g es l ∨ ∃ fs gs, es = fs ++ gs ∧ OwnWrite g fs l ∧ OthersAt g gs l

end Oct.Spec
