import Verif.Proofs.BorrowsOnce
import Verif.Proofs.BorrowsEnded
import Verif.Proofs.SlotWritten
/-
C150: programs that own a sized slice and compile have no undefined behaviour by aliasing.
-/
namespace Oct.Props
open Spec Alias

/-- C150: under Tree Borrows, a program that owns a sized slice, calls its methods and uses the references that they
return has no undefined behaviour if it compiles. -/
theorem C150_tree (p : Place) (d : Nat) (hd : Apart p d) (n : Nat) (hn : n ≤ p.cap) (cs : List Call)
    (hc : Checked anyLoan p.cap n [] cs) : Defined Tree p (events p d (Owner.new n) cs) :=
  (treeSound.defined_iff hd n hn cs hc).mpr hc

example : Apart ⟨0, 2⟩ 3 ∧ Checked anyLoan 2 2 [] [.eachMut, .set 0 0, .set 1 0, .get 0 0, .copyFromSlice 1, .asSlice,
    .get 2 0] :=
  ⟨.inl (by decide), trivial, ⟨_, rfl, rfl, rfl, by decide, trivial⟩, ⟨_, rfl, rfl, rfl, by decide, trivial⟩,
    ⟨_, rfl, rfl, by decide, trivial⟩, (by decide : 1 ≤ 2), trivial, ⟨_, rfl, rfl, by decide, trivial⟩, trivial⟩

/-- C150 for Stacked Borrows, without the references that `each_mut` returns other than the last: these must not be
used. -/
theorem C150_stacked_partial (p : Place) (d : Nat) (hd : Apart p d) (n : Nat) (hn : n ≤ p.cap) (cs : List Call)
    (hc : Checked lastLoan p.cap n [] cs) : Defined Stacked p (events p d (Owner.new n) cs) :=
  fun l => stackedSound.run_defined hd cs (Owner.new n) [] (Sound.agree_new p n hn) hc l _ (stackedSound.holds_new p n l)

example : Checked lastLoan 2 2 [] [.eachMut, .set 1 0, .asSlice, .eachRef, .get 2 1, .get 3 0, .get 4 0] :=
  ⟨trivial, ⟨_, rfl, rfl, rfl, by decide, fun _ => rfl⟩, trivial, trivial, ⟨_, rfl, rfl, by decide, nofun⟩,
    ⟨_, rfl, rfl, by decide, nofun⟩, ⟨_, rfl, rfl, by decide, nofun⟩, trivial⟩

/-- C150: under Stacked Borrows, exactly the programs that use none of these have no undefined behaviour. -/
theorem C150_stacked_exactly (p : Place) (d : Nat) (hd : Apart p d) (n : Nat) (hn : n ≤ p.cap) (cs : List Call)
    (hc : Checked anyLoan p.cap n [] cs) :
    Defined Stacked p (events p d (Owner.new n) cs) ↔ Checked lastLoan p.cap n [] cs :=
  stackedSound.defined_iff hd n hn cs hc

example : Apart ⟨10, 2⟩ 0 ∧ Checked anyLoan 2 2 [] [.eachMut, .get 0 0] ∧ ¬ Checked lastLoan 2 2 [] [.eachMut, .get 0 0] :=
  ⟨.inr (by decide), ⟨trivial, ⟨_, rfl, rfl, by decide, trivial⟩, trivial⟩, fun h => by
    obtain ⟨_, ⟨x, h1, _, _, h2⟩, _⟩ := h
    cases h1
    cases h2 rfl⟩

/-- C150 is false for Stacked Borrows: whatever sized slice has two items or more, to look at the first after
`each_mut`, by the reference that it returned, is undefined, although it compiles. -/
theorem C150_false (p : Place) (d : Nat) (hd : Apart p d) (n : Nat) (h2 : 2 ≤ n) (hn : n ≤ p.cap) :
    Checked anyLoan p.cap n [] [.eachMut, .get 0 0] ∧
      ¬ Defined Stacked p (events p d (Owner.new n) [.eachMut, .get 0 0]) := by
  obtain ⟨k, rfl⟩ : ∃ k, n = k + 2 := ⟨n - 2, by omega⟩
  have hc : Checked anyLoan p.cap (k + 2) [] [.eachMut, .get 0 0] :=
    ⟨trivial, ⟨_, rfl, rfl, Nat.one_pos, trivial⟩, trivial⟩
  refine ⟨hc, fun h => ?_⟩
  obtain ⟨_, ⟨x, h1, _, _, h2⟩, _⟩ := (C150_stacked_exactly p d hd (k + 2) hn _ hc).mp h
  cases h1
  cases h2 rfl

example : Apart ⟨0, 2⟩ 3 ∧ 2 ≤ 2 ∧ 2 ≤ (⟨0, 2⟩ : Place).cap := ⟨.inl (by decide), by decide, by decide⟩

/-- C150: were the pointer made once, before the loop, then all that `each_mut` returns could be used, in any order,
under both. -/
theorem C150_once (p : Place) (n : Nat) (hn : n ≤ p.cap) (es : List Event)
    (hu : Uses p (p.eachMutOnce ownerTag 2).1 n es) :
    Defined Stacked p ((p.eachMutOnce ownerTag 2).2.2 ++ es) ∧ Defined Tree p ((p.eachMutOnce ownerTag 2).2.2 ++ es) :=
  ⟨stacked_once p n hn es hu, tree_once p n hn es hu⟩

example : Uses ⟨0, 2⟩ ((⟨0, 2⟩ : Place).eachMutOnce ownerTag 2).1 2 [.write 5 ⟨0, 1⟩, .write 5 ⟨1, 1⟩, .read 5 ⟨0, 1⟩] := by
  intro e he
  simp only [List.mem_cons, List.not_mem_nil, or_false] at he
  rcases he with rfl | rfl | rfl
  · exact ⟨0, by decide, .inr rfl⟩
  · exact ⟨1, by decide, .inr rfl⟩
  · exact ⟨0, by decide, .inl rfl⟩

/-- C150: what the borrow checker forbids is undefined, under both: after any program, if something is written by a new
`&mut`, then to look there by a reference that was returned before. -/
theorem C150_ended (p : Place) (d : Nat) (hd : Apart p d) (n : Nat) (hn : n ≤ p.cap) (cs : List Call)
    (hc : Checked anyLoan p.cap n [] cs) (k : Nat) (x : Held) (i j : Nat)
    (hx : (ownerAfter p d (Owner.new n) cs).held[k]? = some x) (hj : j < (ownerAfter p d (Owner.new n) cs).len)
    (same : x.r.lo + i = p.at_ + j) :
    let ds := cs ++ [.asMutSlice, .set (ownerAfter p d (Owner.new n) cs).held.length j, .get k i]
    ¬ Defined Stacked p (events p d (Owner.new n) ds) ∧ ¬ Defined Tree p (events p d (Owner.new n) ds) := by
  have hm := List.mem_of_getElem? hx
  refine ⟨stackedSound.stuck hd hn hc hj fun s _ hw hl ht => ?_, treeSound.stuck hd hn hc hj fun s hs hw hl ht => ?_⟩
  · rw [ended_events p d _ hx i j same]
    exact stack_ended p hw hl (item_at hj) (ht x hm).2 (by have := (ht x hm).1; omega)
  · rw [ended_events p d _ hx i j same]
    exact tree_ended p hw (Rooted.run _ (fun m hm => by rcases List.mem_singleton.mp hm with rfl; exact .head _) hs) hl
      (item_at hj) (ht x hm).2 (by have := (ht x hm).1; omega)

example : (ownerAfter ⟨0, 2⟩ 3 (Owner.new 2) [.eachRef]).held[1]? = some ⟨8, ⟨1, 1⟩⟩ ∧
    1 < (ownerAfter ⟨0, 2⟩ 3 (Owner.new 2) [.eachRef]).len ∧ 1 + 0 = (⟨0, 2⟩ : Place).at_ + 1 := ⟨rfl, by decide, rfl⟩

/-- C150: likewise, after something was written by a `&mut` and then the sized slice was looked at, writing again. -/
theorem C150_looked (p : Place) (d : Nat) (hd : Apart p d) (n : Nat) (hn : n ≤ p.cap) (cs : List Call)
    (hc : Checked anyLoan p.cap n [] cs) (j : Nat) (hj : j < (ownerAfter p d (Owner.new n) cs).len) :
    let m := (ownerAfter p d (Owner.new n) cs).held.length
    let ds := cs ++ [.asMutSlice, .set m j, .len, .set m j]
    ¬ Defined Stacked p (events p d (Owner.new n) ds) ∧ ¬ Defined Tree p (events p d (Owner.new n) ds) := by
  refine ⟨stackedSound.stuck hd hn hc hj fun s _ hw hl ht => ?_, treeSound.stuck hd hn hc hj fun s hs hw hl ht => ?_⟩
  · rw [looked_events]
    exact stack_looked p hw hl (item_at hj)
  · rw [looked_events]
    exact tree_looked p hw (Rooted.run _ (fun m hm => by rcases List.mem_singleton.mp hm with rfl; exact .head _) hs) hl
      (item_at hj)

example : 0 < (ownerAfter ⟨0, 2⟩ 3 (Owner.new 2) [.copyFromSlice 1]).len := by decide

/-- C150: under Stacked Borrows, even to look by that `&mut` is undefined then. -/
theorem C150_looked_get (p : Place) (d : Nat) (hd : Apart p d) (n : Nat) (hn : n ≤ p.cap) (cs : List Call)
    (hc : Checked anyLoan p.cap n [] cs) (j : Nat) (hj : j < (ownerAfter p d (Owner.new n) cs).len) :
    let m := (ownerAfter p d (Owner.new n) cs).held.length
    ¬ Defined Stacked p (events p d (Owner.new n) (cs ++ [.asMutSlice, .set m j, .len, .get m j])) := by
  refine stackedSound.stuck hd hn hc hj fun s _ hw hl ht => ?_
  rw [looked_get_events]
  exact stack_looked_get p hw hl (item_at hj)

example : 1 < (ownerAfter ⟨0, 2⟩ 3 (Owner.new 2) [.eachRef]).len := by decide

/-- C150: what `copy_from_slice` writes is the new items and the length; the items may not be looked at afterwards by what
was returned before it, under both. -/
theorem C150_written (p : Place) (d : Nat) (hd : Apart p d) (n : Nat) (hn : n ≤ p.cap) (cs : List Call)
    (hc : Checked anyLoan p.cap n [] cs) (q : Nat) (hq : q ≤ p.cap) (k : Nat) (x : Held) (i j : Nat)
    (hx : (ownerAfter p d (Owner.new n) cs).held[k]? = some x) (hj : j < (ownerAfter p d (Owner.new n) cs).len)
    (same : x.r.lo + i = p.at_ + j) :
    (∀ l, WrittenAt (Call.go p d (ownerAfter p d (Owner.new n) cs) (.copyFromSlice q)).2 l ↔
      (p.items q).has l = true ∨ p.head.has l = true) ∧
    (j < q → ¬ Defined Stacked p (events p d (Owner.new n) (cs ++ [.copyFromSlice q, .get k i])) ∧
      ¬ Defined Tree p (events p d (Owner.new n) (cs ++ [.copyFromSlice q, .get k i]))) := by
  have hm := List.mem_of_getElem? hx
  have hw := copyFromSlice_written p d q (ownerAfter p d (Owner.new n) cs)
  refine ⟨hw, fun hjq => ?_⟩
  have e := then_look p d q (ownerAfter p d (Owner.new n) cs) hx i
  have hw' := (hw (p.at_ + j)).mpr (.inl (item_at hjq))
  refine ⟨stackedSound.stuck hd hn hc hj fun s _ hs hl ht => ?_, treeSound.stuck hd hn hc hj fun s hs hs' hl ht => ?_⟩
  · rw [e, same]
    exact stack_written hs (copyFromSlice_inward _ hd hq (items_buf hq (item_at hjq))) hw' (ht x hm).2
      (by have := (ht x hm).1; omega) []
  · rw [e, same]
    exact tree_written hs' (Rooted.run _ (fun m hm => by rcases List.mem_singleton.mp hm with rfl; exact .head _) hs)
      (copyFromSlice_inward _ hd hq (items_buf hq (item_at hjq))) hw' (ht x hm).2 (by have := (ht x hm).1; omega) []

example : (ownerAfter ⟨0, 2⟩ 3 (Owner.new 2) [.eachRef]).held[0]? = some ⟨5, ⟨0, 1⟩⟩ ∧
    0 < (ownerAfter ⟨0, 2⟩ 3 (Owner.new 2) [.eachRef]).len ∧ 0 + 0 = (⟨0, 2⟩ : Place).at_ + 0 ∧ 0 < 1 :=
  ⟨rfl, by decide, rfl, by decide⟩

end Oct.Props
