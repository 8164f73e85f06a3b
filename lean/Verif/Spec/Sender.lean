import Verif.Spec.Format
import Verif.Model.Sender
/-
What the packing of values into datagrams should be.
-/
namespace Oct.Spec

/-- The value can be sent in a datagram of so many octets. -/
def Sendable (cap : Nat) (x : Sigma Ty.Val) : Prop :=
  Encodable x.1 x.2 ∧ (wire x.1 x.2).length ≤ cap

/-- The octets of values, one after the other. -/
def octetsOf : List (Sigma Ty.Val) → List Byte
  | [] => []
  | x :: xs => wire x.1 x.2 ++ octetsOf xs

/-- The items of a list are divided into those that have a property and those that do not, both in order. -/
inductive Divided {α : Type} (P : α → Prop) : List α → List α → List α → Prop
  | nil : Divided P [] [] []
  | has {x xs ys ns} : P x → Divided P xs ys ns → Divided P (x :: xs) (x :: ys) ns
  | lacks {x xs ys ns} : ¬ P x → Divided P xs ys ns → Divided P (x :: xs) ys (x :: ns)

/-- Values as they may be grouped in datagrams: none is empty, or too large. -/
def Groups (cap : Nat) (gs : List (List (Sigma Ty.Val))) : Prop :=
  ∀ g ∈ gs, g ≠ [] ∧ (octetsOf g).length ≤ cap

end Oct.Spec
