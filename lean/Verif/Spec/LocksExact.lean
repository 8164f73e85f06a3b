import Verif.Spec.Locks
/-
Locks that contain themselves. Refers to the contents of locks only.
-/
namespace Oct.Spec
open Oct

/-- The lock `r` is in the lock `q`. -/
def Contains (content : Nat → List Piece) (q r : Nat) : Prop := ∃ g, Piece.lock r g ∈ content q

/-- The lock `r` is in itself, directly or not. -/
def ContainsItself (content : Nat → List Piece) (r : Nat) : Prop := Relation.TransGen (Contains content) r r

/-- There are `N` locks: the others contain nothing and are nowhere contained. -/
def OnlyLocks (N : Nat) (content : Nat → List Piece) : Prop :=
  (∀ r, N ≤ r → content r = []) ∧ ∀ q r, Contains content q r → r < N

/-- What is not a lock has an encoding: it is encoded into all outputs that are long enough. -/
def PieceFits : Piece → Prop
  | .plain m => ∃ w, ∀ o : Output, o.position ≤ o.capacity → w ≤ o.remaining →
      ∃ o' : Output, m o = (.ok (), o') ∧ o'.position ≤ o'.capacity ∧ o.remaining ≤ o'.remaining + w
  | .lock _ _ => True

/-- Threads that encode, or do nothing. -/
def Encoders (thread : Nat → Thread) : Prop :=
  ∀ k, (∃ c, thread k = .encoding c []) ∨ thread k = .updating false []

end Oct.Spec
