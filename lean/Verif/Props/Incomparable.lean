import Verif.Proofs.Incomparable
/-
C162: neither of the two models of aliasing allows all that the other allows, in programs that own a slot.
-/
namespace Oct.Props
open Spec Alias

/-- C162: whatever the slot is, to write by the pointer that `as_mut_ptr` returned, call `as_slice`, and write there by the
pointer again is allowed by Stacked Borrows, and not by Tree Borrows. -/
theorem C162_stacked_only (p : Place) (d n i : Nat) (hn : n ≤ p.cap) (hi : i < n) :
    Defined Stacked p (slotEvents p d (Owner.new n) [.asMutPtr, .set 0 i, .asSlice, .set 0 i]) ∧
    ¬ Defined Tree p (slotEvents p d (Owner.new n) [.asMutPtr, .set 0 i, .asSlice, .set 0 i]) :=
  ⟨rewrites_stacked p d hn hi, rewrites_tree p d hn hi⟩

example : 1 ≤ (⟨0, 2⟩ : Place).cap ∧ 0 < 1 := by decide

/-- C162: whatever the slot is, to look at what `as_slice` returned after `as_mut_slice` is allowed by Tree Borrows, and not by
Stacked Borrows. -/
theorem C162_tree_only (p : Place) (d n i : Nat) (hn : n ≤ p.cap) (hi : i < n) :
    Defined Tree p (slotEvents p d (Owner.new n) [.asSlice, .asMutSlice, .get 0 i]) ∧
    ¬ Defined Stacked p (slotEvents p d (Owner.new n) [.asSlice, .asMutSlice, .get 0 i]) :=
  ⟨relooks_tree p d hn hi, relooks_stacked p d hn hi⟩

example : 2 ≤ (⟨5, 2⟩ : Place).cap ∧ 1 < 2 := by decide

/-- C162: so neither allows all that the other does. -/
theorem C162_neither :
    (∃ p d n cs, n ≤ p.cap ∧ Defined Stacked p (slotEvents p d (Owner.new n) cs) ∧
      ¬ Defined Tree p (slotEvents p d (Owner.new n) cs)) ∧
    (∃ p d n cs, n ≤ p.cap ∧ Defined Tree p (slotEvents p d (Owner.new n) cs) ∧
      ¬ Defined Stacked p (slotEvents p d (Owner.new n) cs)) :=
  ⟨⟨⟨0, 1⟩, 2, 1, _, by decide, C162_stacked_only ⟨0, 1⟩ 2 1 0 (by decide) (by decide)⟩,
    ⟨⟨0, 1⟩, 2, 1, _, by decide, C162_tree_only ⟨0, 1⟩ 2 1 0 (by decide) (by decide)⟩⟩

end Oct.Props
