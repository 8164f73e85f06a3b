import Verif.Proofs.SlotWritten
/-
C151: programs that own a slot and compile have no undefined behaviour by aliasing.
-/
namespace Oct.Props
open Spec Alias

/-- C151: under Stacked Borrows, a program that owns a slot, calls its methods – `write` and `read` with whatever impls –
and uses what they return has no undefined behaviour if it compiles. -/
theorem C151_stacked (p : Place) (d : Nat) (hd : Behind p d) (n : Nat) (hn : n ≤ p.cap) (cs : List SlotCall)
    (hc : SlotChecked p.cap n [] cs) : Defined Stacked p (slotEvents p d (Owner.new n) cs) :=
  stackedNest.slot_defined hd n hn cs hc

example : Behind ⟨0, 4⟩ 5 ∧ SlotChecked 4 0 [] [.write [2, 1, 7] true, .asSlice, .len, .get 0 2, .read [1, 1], .get 0 0,
    .asMutSlice, .set 1 3, .get 1 3, .setLen 4] :=
  ⟨by show 0 + 4 < 5; omega, trivial, trivial, trivial, ⟨_, rfl, rfl, by decide⟩, trivial, ⟨_, rfl, rfl, by decide⟩,
    trivial, ⟨_, rfl, rfl, rfl, by decide⟩, ⟨_, rfl, rfl, by decide⟩, (by decide : 4 ≤ 4), trivial⟩

/-- C151: likewise under Tree Borrows. -/
theorem C151_tree (p : Place) (d : Nat) (hd : Behind p d) (n : Nat) (hn : n ≤ p.cap) (cs : List SlotCall)
    (hc : SlotChecked p.cap n [] cs) : Defined Tree p (slotEvents p d (Owner.new n) cs) :=
  treeNest.slot_defined hd n hn cs hc

example : Behind ⟨0, 2⟩ 9 ∧ SlotChecked 2 1 [] [.copyFromSlice 2, .asPtr, .get 0 1, .asMutPtr, .set 1 0, .get 1 1,
    .capacity, .write [3] false] :=
  ⟨by show 0 + 2 < 9; omega, (by decide : 2 ≤ 2), trivial, ⟨_, rfl, rfl, by decide⟩, trivial,
    ⟨_, rfl, rfl, rfl, by decide⟩, ⟨_, rfl, rfl, by decide⟩, trivial, trivial, trivial⟩

/-- C151: after any such program, if something is written by what `as_mut_ptr` returns, then to look there by what was
returned before is undefined, under both. -/
theorem C151_ended (p : Place) (d : Nat) (hd : Behind p d) (n : Nat) (hn : n ≤ p.cap) (cs : List SlotCall)
    (hc : SlotChecked p.cap n [] cs) (k : Nat) (x : Held) (i j : Nat)
    (hx : (slotAfter p d (Owner.new n) cs).held[k]? = some x) (hj : j < p.cap) (same : x.r.lo + i = p.at_ + j) :
    let ds := cs ++ [.asMutPtr, .set (slotAfter p d (Owner.new n) cs).held.length j, .get k i]
    ¬ Defined Stacked p (slotEvents p d (Owner.new n) ds) ∧ ¬ Defined Tree p (slotEvents p d (Owner.new n) ds) := by
  have hm := List.mem_of_getElem? hx
  refine ⟨stackedNest.stuck hd hn hc hj fun s _ hw ht => ?_, treeNest.stuck hd hn hc hj fun s hs hw ht => ?_⟩
  · rw [point_ended_events p d _ hx i j same]
    exact stack_point_ended hw (buf_at hj) (ht x hm).2 (by have := (ht x hm).1; omega)
  · rw [point_ended_events p d _ hx i j same]
    exact tree_point_ended hw (Rooted.run _ (fun m hm => by rcases List.mem_singleton.mp hm with rfl; exact .head _) hs)
      (buf_at hj) (ht x hm).2 (by have := (ht x hm).1; omega)

example : SlotChecked 2 1 [] [.asSlice, .asMutPtr] ∧
    (slotAfter ⟨0, 2⟩ 3 (Owner.new 1) [.asSlice, .asMutPtr]).held[1]? = some ⟨10, ⟨0, 2⟩⟩ :=
  ⟨⟨trivial, trivial, trivial⟩, rfl⟩

/-- C151: a pointer that `as_mut_ptr` returned and that was written by may be written by again after `set_len` under
Stacked Borrows, but not under Tree Borrows: `set_len` makes a reference to the whole buffer. -/
theorem C151_kept (p : Place) (d : Nat) (hd : Behind p d) (n : Nat) (hn : n ≤ p.cap) (cs : List SlotCall)
    (hc : SlotChecked p.cap n [] cs) (j q : Nat) (hj : j < p.cap) (hq : q ≤ p.cap) :
    let m := (slotAfter p d (Owner.new n) cs).held.length
    let ds := cs ++ [.asMutPtr, .set m j, .setLen q, .set m j]
    Defined Stacked p (slotEvents p d (Owner.new n) ds) ∧ ¬ Defined Tree p (slotEvents p d (Owner.new n) ds) := by
  refine ⟨stackedNest.goes hd hn hc hj (.setLen q) (fun _ => hq) (fun _ => rfl) fun s hw => ?_,
    treeNest.stuck hd hn hc hj fun s hs hw ht => ?_⟩
  · rw [point_kept_events]
    exact stack_point_kept hw (buf_at hj)
  · rw [point_kept_events]
    exact tree_point_kept hw (Rooted.run _ (fun m hm => by rcases List.mem_singleton.mp hm with rfl; exact .head _) hs)
      (buf_at hj)

example : Behind ⟨0, 2⟩ 3 ∧ SlotChecked 2 0 [] [.capacity] ∧ 1 < 2 := ⟨by show 0 + 2 < 3; omega, ⟨trivial, trivial⟩, by decide⟩

/-- C151: after `len`, it may be written by again under both. -/
theorem C151_len (p : Place) (d : Nat) (hd : Behind p d) (n : Nat) (hn : n ≤ p.cap) (cs : List SlotCall)
    (hc : SlotChecked p.cap n [] cs) (j : Nat) (hj : j < p.cap) :
    let m := (slotAfter p d (Owner.new n) cs).held.length
    let ds := cs ++ [.asMutPtr, .set m j, .len, .set m j]
    Defined Stacked p (slotEvents p d (Owner.new n) ds) ∧ Defined Tree p (slotEvents p d (Owner.new n) ds) := by
  refine ⟨stackedNest.goes hd hn hc hj .len (fun _ => trivial) (fun _ => rfl) fun s hw => ?_,
    treeNest.goes hd hn hc hj .len (fun _ => trivial) (fun _ => rfl) fun s hw => ?_⟩
  · rw [point_len_events]
    exact stackedNest.point_len hw (buf_at hj)
  · rw [point_len_events]
    exact treeNest.point_len hw (buf_at hj)

example : Behind ⟨0, 2⟩ 3 ∧ SlotChecked 2 0 [] [.write [1] true] ∧ 1 < 2 :=
  ⟨by show 0 + 2 < 3; omega, ⟨trivial, trivial⟩, by decide⟩

/-- C151: what calls write and read is what they should: `copy_from_slice` and `write` the new contents, and the length
if it is set, `set_len` the length, `read` as much of the contents as the impl asked for, and the others nothing. -/
theorem C151_touched (p : Place) (d : Nat) (o : Owner) (l : Nat) :
    (∀ c : SlotCall, (∀ h i, c ≠ .set h i) → (WrittenAt (c.go p d o).2 l ↔ CallWrites p c l)) ∧
    (∀ ns, p.buf.has l = true →
      (ReadAt (SlotCall.go p d o (.read ns)).2 l ↔ (p.items (position p.cap 0 ns)).has l = true)) :=
  ⟨fun c hc => call_written o c hc l, fun ns hl => call_read o ns l hl⟩

example : WrittenAt (SlotCall.go ⟨0, 4⟩ 9 (Owner.new 0) (.write [2, 5, 1] false)).2 2 ∧
    ¬ WrittenAt (SlotCall.go ⟨0, 4⟩ 9 (Owner.new 0) (.write [2, 5, 1] false)).2 3 :=
  ⟨((C151_touched ⟨0, 4⟩ 9 (Owner.new 0) 2).1 (.write [2, 5, 1] false)
    (fun _ _ h => nomatch h)).mpr (.inl rfl), fun h => by
    rcases ((C151_touched ⟨0, 4⟩ 9 (Owner.new 0) 3).1 (.write [2, 5, 1] false) (fun _ _ h => nomatch h)).mp h with h | h
    · cases h
    · cases h.1⟩

/-- C151: what is written by a call may not be looked at afterwards by what was returned before it, under both. -/
theorem C151_written (p : Place) (d : Nat) (hd : Behind p d) (n : Nat) (hn : n ≤ p.cap) (cs : List SlotCall)
    (hc : SlotChecked p.cap n [] cs) (c : SlotCall) (hset : ∀ h i, c ≠ .set h i) (k : Nat) (x : Held) (i j : Nat)
    (hx : (slotAfter p d (Owner.new n) cs).held[k]? = some x) (hj : j < p.cap) (same : x.r.lo + i = p.at_ + j)
    (hw : CallWrites p c (p.at_ + j)) :
    ¬ Defined Stacked p (slotEvents p d (Owner.new n) (cs ++ [c, .get k i])) ∧
      ¬ Defined Tree p (slotEvents p d (Owner.new n) (cs ++ [c, .get k i])) := by
  have hm := List.mem_of_getElem? hx
  have e := then_get p d _ c (k := k) (x := x) (by rw [writes_held _ hw]; exact hx) i
  have hi := call_inward (slotAfter p d (Owner.new n) cs) hd c hset (buf_at hj) hw
  have hw' := (call_written (d := d) (slotAfter p d (Owner.new n) cs) c hset (p.at_ + j)).mpr hw
  refine ⟨stackedNest.stuck hd hn hc hj fun s _ hs ht => ?_, treeNest.stuck hd hn hc hj fun s hs hs' ht => ?_⟩
  · rw [e, same]
    exact stack_written hs hi hw' (ht x hm).2 (by have := (ht x hm).1; omega) []
  · rw [e, same]
    exact tree_written hs' (Rooted.run _ (fun m hm => by rcases List.mem_singleton.mp hm with rfl; exact .head _) hs) hi
      hw' (ht x hm).2 (by have := (ht x hm).1; omega) []

example : SlotChecked 4 0 [] [.asMutSlice] ∧ CallWrites ⟨0, 4⟩ (.write [2, 1] false) (0 + 2) ∧
    (slotAfter ⟨0, 4⟩ 9 (Owner.new 0) [.asMutSlice]).held[0]? = some ⟨8, ⟨0, 4⟩⟩ :=
  ⟨⟨trivial, trivial⟩, .inl rfl, rfl⟩

end Oct.Props
