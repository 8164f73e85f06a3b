import Verif.Proofs.StreamProtectors
import Verif.Props.StreamBorrows
/-
C156: the protection of arguments forbids nothing that streams do.
-/
namespace Oct.Props
open Spec Alias

/-- C156: with the functions that they call, programs with streams do just what they do in C155. -/
theorem C156_plain (p : Place) (d : Nat) (o : Owner) (cs : List StreamCall) :
    plain (streamMarks p d o cs) = streamEvents p d o cs := streamMarks_same p d o cs

example : plain (streamMarks ⟨0, 2⟩ 3 (Owner.new 0) [.read 2]) = [.retag .excl 0 2 ⟨2, 1⟩, .read 2 ⟨2, 1⟩,
    .retag .shared 0 3 ⟨0, 2⟩, .retag .shared 0 4 ⟨0, 2⟩, .retag .shared 4 5 ⟨0, 2⟩, .write 2 ⟨2, 1⟩] := rfl

/-- C156: each method does just what it should, in this order: it enters these functions, with references of these kinds to
these regions, makes these references, and reads and writes there; and functions are left in the opposite order. -/
theorem C156_calls (p : Place) (d : Nat) (o : Owner) (c : StreamCall) (hget : ∀ k i, c ≠ .get k i) :
    deeds (c.marks p d o) = streamDeeds p d o.len c ∧ Nested (c.marks p d o) := streamCall_walks p d o c hget

example : streamDeeds ⟨0, 4⟩ 5 1 (.write 2) = [.into .excl ⟨4, 1⟩, .into .shared ⟨5, 2⟩, .reads ⟨4, 1⟩,
    .into .shared ⟨0, 4⟩, .out, .into .excl ⟨0, 4⟩, .makes .raw ⟨0, 4⟩, .out, .reads ⟨5, 2⟩, .writes ⟨1, 2⟩,
    .writes ⟨4, 1⟩, .out, .out] := rfl

/-- C156: under Stacked Borrows and Tree Borrows, any program that has a stream – whether it compiles or not – has no
undefined behaviour with protectors exactly if it has none without. -/
theorem C156_same (p : Place) (d : Nat) (hd : Behind p d) (cs : List StreamCall) :
    (DefinedP StackedP p (streamMarks p d (Owner.new 0) cs) ↔ Defined Stacked p (streamEvents p d (Owner.new 0) cs)) ∧
    (DefinedP TreeP p (streamMarks p d (Owner.new 0) cs) ↔ Defined Tree p (streamEvents p d (Owner.new 0) cs)) := by
  rw [← streamMarks_same]
  exact ⟨stackShielded.defined p fun l => streamMarks_fit p d hd l (Owner.new 0) (Nat.le_refl 2) (Nat.zero_le _) cs,
    treeShielded.defined p fun l => streamMarks_fit p d hd l (Owner.new 0) (Nat.le_refl 2) (Nat.zero_le _) cs⟩

example : Behind ⟨0, 2⟩ 3 ∧ streamMarks ⟨0, 2⟩ 3 (Owner.new 0) [.position] =
    [.enter .shared 0 2 ⟨2, 1⟩, .event (.read 2 ⟨2, 1⟩), .leave 2 ⟨2, 1⟩] := ⟨by show 0 + 2 < 3; omega, rfl⟩

/-- C156: so one that compiles has no undefined behaviour with protectors either. -/
theorem C156_compiles (p : Place) (d : Nat) (hd : Behind p d) (cs : List StreamCall) (hc : StreamChecked p.cap 0 [] cs) :
    DefinedP StackedP p (streamMarks p d (Owner.new 0) cs) ∧ DefinedP TreeP p (streamMarks p d (Owner.new 0) cs) :=
  ⟨(C156_same p d hd cs).1.mpr (C155_stacked p d hd cs hc), (C156_same p d hd cs).2.mpr (C155_tree p d hd cs hc)⟩

example : Behind ⟨0, 4⟩ 5 ∧ StreamChecked 4 0 [] [.write 2, .asSlice, .get 0 1, .remaining, .write 1] :=
  ⟨by show 0 + 4 < 5; omega, trivial, trivial, ⟨_, rfl, by decide⟩, trivial, trivial, trivial⟩

/-- C156: a program that looks at what a write has ended is undefined with protectors too, under Stacked Borrows. -/
theorem C156_ended (p : Place) (d : Nat) (hd : Behind p d) (cs : List StreamCall) (hc : StreamChecked p.cap 0 [] cs)
    (k h i : Nat) (x : Held) (hk : (streamAfter p d (Owner.new 0) cs).len + k ≤ p.cap)
    (hx : (streamAfter p d (Owner.new 0) cs).held[h]? = some x) (j : Nat) (hj : j < p.cap)
    (same : x.r.lo + i = p.at_ + j) :
    ¬ DefinedP StackedP p (streamMarks p d (Owner.new 0) (cs ++ [.write k, .get h i])) := fun hdef =>
  C155_ended p d hd cs hc k h i x hk hx j hj same ((C156_same p d hd _).1.mp hdef)

example : (streamAfter ⟨0, 4⟩ 9 (Owner.new 0) [.asSlice, .asPtr]).held[1]? = some ⟨10, ⟨0, 4⟩⟩ := rfl

end Oct.Props
