import Verif.Spec.IterProtectors
import Verif.Spec.StreamBorrows
import Verif.Model.StreamProtectors
/-
What methods of streams consist of: the functions that they enter, with what, and the references that they make.
-/
namespace Oct.Spec
open Alias

/-- The buffer is given to a function that only looks how long it is, or returns it. -/
def lookDeeds (s : Place) : List Deed := [.into .shared s.buf, .out]

def capacityDeeds (s : Place) : List Deed :=
  [.into .shared s.head, .reads s.head, .into .shared s.buf, .out, .out]

def positionDeeds (s : Place) : List Deed := [.into .shared s.head, .reads s.head, .out]

def ptrDeeds (s : Place) : List Deed :=
  [.into .shared s.head, .reads s.head, .into .shared s.buf, .makes .shared s.buf, .out, .out]

/-- What a method consists of, if the stream is at `pos`. -/
def streamDeeds (s : Place) (d pos : Nat) : StreamCall → List Deed
  | .read n => .into .excl s.head :: .reads s.head :: (lookDeeds s ++ (if pos + n ≤ s.cap then
      lookDeeds s ++ [.makes .shared ⟨s.at_ + pos, n⟩, .writes s.head] else []) ++ [.out])
  | .readInto n => .into .excl s.head :: .into .excl ⟨d, n⟩ :: (capacityDeeds s ++ positionDeeds s ++
      (if pos + n ≤ s.cap then lookDeeds s ++ [.makes .raw ⟨d, n⟩, .reads ⟨s.at_ + pos, n⟩, .writes ⟨d, n⟩, .writes s.head]
        else []) ++ [.out, .out])
  | .write n => .into .excl s.head :: .into .shared ⟨d, n⟩ :: .reads s.head :: (lookDeeds s ++
      (if pos + n ≤ s.cap then [.into .excl s.buf, .makes .raw s.buf, .out, .reads ⟨d, n⟩, .writes ⟨s.at_ + pos, n⟩,
        .writes s.head] else []) ++ [.out, .out])
  | .asPtr => ptrDeeds s
  | .asSlice => .into .shared s.head :: (ptrDeeds s ++ positionDeeds s ++ [.makes .shared ⟨s.at_, pos⟩, .out])
  | .capacity => capacityDeeds s
  | .position => positionDeeds s
  | .remaining => capacityDeeds s ++ positionDeeds s
  | .get _ _ => []

end Oct.Spec
