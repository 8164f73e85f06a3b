import Verif.Spec.Protectors
import Verif.Spec.IterBorrows
import Verif.Model.IterProtectors
/-
What methods of iterators consist of: the functions that they enter, with what, and the references that they make.
-/
namespace Oct.Spec
open Alias

/-- What a mark does: of references that are made, the kind and the region; of what is read and written, where. -/
inductive Deed where
  | into (k : Kind) (r : Region)
  | out
  | makes (k : Kind) (r : Region)
  | reads (r : Region)
  | writes (r : Region)

/-- All this, in order. -/
def deeds : List Mark → List Deed
  | [] => []
  | .event (.retag k _ _ r) :: ms => .makes k r :: deeds ms
  | .event (.read _ r) :: ms => .reads r :: deeds ms
  | .event (.write _ r) :: ms => .writes r :: deeds ms
  | .enter k _ _ r :: ms => .into k r :: deeds ms
  | .leave _ _ :: ms => .out :: deeds ms

/-- An item is moved out of the buffer. -/
def takeDeeds (s : Place) (i : Nat) : List Deed :=
  [.into .shared s.buf, .out, .into .shared ⟨s.at_ + i, 1⟩, .reads ⟨s.at_ + i, 1⟩, .out]

/-- An item is destroyed. -/
def dropDeeds (s : Place) (i : Nat) : List Deed := [.into .excl ⟨s.at_ + i, 1⟩, .writes ⟨s.at_ + i, 1⟩, .out]

/-- An item is cloned. -/
def cloneDeeds (s : Place) (i : Nat) : List Deed :=
  [.into .shared s.buf, .makes .shared ⟨s.at_ + i, 1⟩, .out, .into .shared ⟨s.at_ + i, 1⟩, .reads ⟨s.at_ + i, 1⟩, .out]

/-- What a method consists of, if there are `len` items from `pos` on; of the last two calls this is given by what was
returned. -/
def iterDeeds (s : Place) (pos len : Nat) : IterCall → List Deed
  | .asSlice => [.into .shared s.whole, .into .shared s.buf, .makes .shared s.buf, .out, .reads s.head,
      .makes .shared ⟨s.at_ + pos, len⟩, .out]
  | .asMutSlice => [.into .excl s.whole, .into .excl s.buf, .makes .raw s.buf, .out, .reads s.head,
      .makes .excl ⟨s.at_ + pos, len⟩, .out]
  | .next => .into .excl s.whole :: .reads s.head ::
      ((if 0 < len then takeDeeds s pos ++ [.writes s.head] else []) ++ [.out])
  | .nextBack => .into .excl s.whole :: .reads s.head ::
      ((if 0 < len then takeDeeds s (pos + (len - 1)) ++ [.writes s.head] else []) ++ [.out])
  | .nth i => .into .excl s.whole :: .reads s.head ::
      ((if i ≤ len then [.into .excl s.buf, .out, .into .excl ⟨s.at_ + pos, i - 1⟩, .makes .raw ⟨s.at_ + pos, i - 1⟩, .out]
        ++ (List.range' pos (i - 1)).flatMap (dropDeeds s) ++ takeDeeds s i ++ [.writes s.head] else []) ++ [.out])
  | .clone => .into .shared s.whole :: .reads s.head :: ((List.range' pos len).flatMap (cloneDeeds s) ++ [.out])
  | .sizeHint => [.into .shared s.whole, .reads s.head, .out]
  | .get _ _ => []
  | .set _ _ => []

/-- Functions are left in the opposite order to that in which they were entered, with what they were entered with. -/
def Nested (ms : List Mark) : Prop := ∃ bs, beats [] ms = some bs

end Oct.Spec
