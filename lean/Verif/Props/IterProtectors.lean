import Verif.Proofs.IterProtectors
import Verif.Props.IterBorrows
/-
C154: the protection of arguments forbids nothing that iterators of sized slices do.
-/
namespace Oct.Props
open Spec Alias

/-- C154: with the functions that they call, programs with iterators do just what they do in C153. -/
theorem C154_plain (p : Place) (o : Cursor) (cs : List IterCall) :
    plain (iterMarks p o cs) = iterEvents p o cs := iterMarks_same p o cs

example : plain (iterMarks ⟨0, 2⟩ (Cursor.new 1) [.next]) = [.retag .excl 0 2 ⟨0, 3⟩, .read 2 ⟨2, 1⟩,
    .retag .shared 2 3 ⟨0, 2⟩, .retag .shared 3 4 ⟨0, 1⟩, .read 4 ⟨0, 1⟩, .write 2 ⟨2, 1⟩] := rfl

/-- C154: each method does just what it should, in this order: it enters these functions, with references of these kinds to
these regions, makes these references, and reads and writes there; and functions are left in the opposite order. -/
theorem C154_calls (p : Place) (o : Cursor) (c : IterCall) (hget : ∀ k i, c ≠ .get k i) (hset : ∀ k i, c ≠ .set k i) :
    deeds (c.marks p o) = iterDeeds p o.pos o.len c ∧ Nested (c.marks p o) := iterCall_walks p o c hget hset

example : iterDeeds ⟨0, 4⟩ 0 4 (.nth 2) = [.into .excl ⟨0, 5⟩, .reads ⟨4, 1⟩, .into .excl ⟨0, 4⟩, .out,
    .into .excl ⟨0, 1⟩, .makes .raw ⟨0, 1⟩, .out, .into .excl ⟨0, 1⟩, .writes ⟨0, 1⟩, .out, .into .shared ⟨0, 4⟩, .out,
    .into .shared ⟨2, 1⟩, .reads ⟨2, 1⟩, .out, .writes ⟨4, 1⟩, .out] := rfl

/-- C154: under Stacked Borrows and Tree Borrows, any program that owns an iterator – whether it compiles or not, and
whatever `nth` is called with – has no undefined behaviour with protectors exactly if it has none without. -/
theorem C154_same (p : Place) (n : Nat) (cs : List IterCall) :
    (DefinedP StackedP p (iterMarks p (Cursor.new n) cs) ↔ Defined Stacked p (iterEvents p (Cursor.new n) cs)) ∧
    (DefinedP TreeP p (iterMarks p (Cursor.new n) cs) ↔ Defined Tree p (iterEvents p (Cursor.new n) cs)) := by
  rw [← iterMarks_same]
  exact ⟨stackShielded.defined p fun l => iterMarks_fit p l (Cursor.new n) (Nat.le_refl 2) cs,
    treeShielded.defined p fun l => iterMarks_fit p l (Cursor.new n) (Nat.le_refl 2) cs⟩

example : iterMarks ⟨0, 2⟩ (Cursor.new 1) [.sizeHint] =
    [.enter .shared 0 2 ⟨0, 3⟩, .event (.read 2 ⟨2, 1⟩), .leave 2 ⟨0, 3⟩] := rfl

/-- C154: so one that compiles has no undefined behaviour with protectors either. -/
theorem C154_compiles (p : Place) (n : Nat) (hn : n ≤ p.cap) (cs : List IterCall) (hc : IterChecked p.cap n [] cs) :
    DefinedP StackedP p (iterMarks p (Cursor.new n) cs) ∧ DefinedP TreeP p (iterMarks p (Cursor.new n) cs) :=
  ⟨(C154_same p n cs).1.mpr (C153_stacked p n hn cs hc), (C154_same p n cs).2.mpr (C153_tree p n hn cs hc)⟩

example : IterChecked 4 3 [] [.asMutSlice, .set 0 2, .clone, .nth 2, .next, .next] :=
  ⟨trivial, ⟨_, rfl, rfl, rfl, by decide⟩, trivial, ⟨by decide, fun _ => by decide⟩, trivial, trivial, trivial⟩

end Oct.Props
