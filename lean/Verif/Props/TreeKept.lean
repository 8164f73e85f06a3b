import Verif.Proofs.KeptRun
import Verif.Props.Borrows
import Verif.Props.SlotBorrows
import Verif.Props.IterBorrows
import Verif.Props.StreamBorrows
/-
C157: under Tree Borrows, references may be looked at until something is written where they are.
-/
namespace Oct.Props
open Spec Alias

/-- C157: under Tree Borrows, in programs that own a sized slice: whatever the program is, if some reference or
pointer may be looked at, then also later, if nothing is written there. -/
theorem C157_slice_kept (p : Place) (d n : Nat) (cs ds : List Call) (k i : Nat) (x : Held)
    (hx : (ownerAfter p d (Owner.new n) cs).held[k]? = some x)
    (h : Defined Tree p (events p d (Owner.new n) (cs ++ ds)))
    (hr : Defined Tree p (events p d (Owner.new n) (cs ++ [.get k i])))
    (hw : ¬ WrittenAt (events p d (ownerAfter p d (Owner.new n) cs) ds) (x.r.lo + i)) :
    Defined Tree p (events p d (Owner.new n) (cs ++ ds ++ [.get k i])) := by
  rw [← slice_after] at hx hw
  rw [← slice_events] at *
  exact (sliceDevice p d).kept rfl hx h hr hw

example : (ownerAfter ⟨0, 2⟩ 3 (Owner.new 2) [.asMutSlice]).held[0]? = some ⟨7, ⟨0, 2⟩⟩ ∧
    Defined Tree ⟨0, 2⟩ (events ⟨0, 2⟩ 3 (Owner.new 2) ([.asMutSlice] ++ [.len, .asSlice])) ∧
    Defined Tree ⟨0, 2⟩ (events ⟨0, 2⟩ 3 (Owner.new 2) ([.asMutSlice] ++ [.get 0 1])) ∧
    ¬ WrittenAt (events ⟨0, 2⟩ 3 (ownerAfter ⟨0, 2⟩ 3 (Owner.new 2) [.asMutSlice]) [.len, .asSlice]) 1 :=
  ⟨rfl, C150_tree _ _ (.inl (by decide)) _ (by decide) _ ⟨trivial, trivial, trivial, trivial⟩,
    C150_tree _ _ (.inl (by decide)) _ (by decide) _ ⟨trivial, ⟨_, rfl, rfl, by decide, trivial⟩, trivial⟩,
    fun ⟨_, _, h, _⟩ => by simp [events, Call.go, Place.len, Place.asSlice, Place.asPtr, bind, Make.bind, retag,
      Alias.read] at h⟩

/-- C157: what `as_slice` returned may be looked at exactly until something is written there. -/
theorem C157_slice_exactly (p : Place) (d n : Nat) (cs ds : List Call) (i : Nat)
    (hi : i < (ownerAfter p d (Owner.new n) cs).len)
    (h : Defined Tree p (events p d (Owner.new n) (cs ++ .asSlice :: ds))) :
    Defined Tree p (events p d (Owner.new n)
      (cs ++ .asSlice :: (ds ++ [.get (ownerAfter p d (Owner.new n) cs).held.length i]))) ↔
    ¬ WrittenAt (events p d (ownerAfter p d (Owner.new n) (cs ++ [.asSlice])) ds)
      (p.at_ + i) := by
  simp only [← slice_after, ← slice_events, Device.after_append] at *
  exact (sliceDevice p d).exactly (o := (Owner.new n)) (cs := cs) (ds := ds) (c := .asSlice) (i := i)
    (r := ⟨p.at_, ((sliceDevice p d).after (Owner.new n) cs).len⟩) (pre := [_, _, _, _, _, _])
    rfl hi (((sliceDevice p d).after (Owner.new n) cs).next + 5)
    (.retag (.retag (.retag (.retag (.retag (.read .nil)))))) rfl rfl rfl h

example : 1 < (ownerAfter ⟨0, 2⟩ 3 (Owner.new 2) [.eachRef]).len ∧
    Defined Tree ⟨0, 2⟩ (events ⟨0, 2⟩ 3 (Owner.new 2) ([.eachRef] ++ .asSlice :: [.asMutSlice, .set 3 0])) :=
  ⟨by decide, C150_tree _ _ (.inl (by decide)) _ (by decide) _
    ⟨trivial, trivial, trivial, ⟨_, rfl, rfl, rfl, by decide, trivial⟩, trivial⟩⟩

/-- C157: likewise for slots: whatever the program is, if some reference or
pointer may be looked at, then also later, if nothing is written there. -/
theorem C157_slot_kept (p : Place) (d n : Nat) (cs ds : List SlotCall) (k i : Nat) (x : Held)
    (hx : (slotAfter p d (Owner.new n) cs).held[k]? = some x)
    (h : Defined Tree p (slotEvents p d (Owner.new n) (cs ++ ds)))
    (hr : Defined Tree p (slotEvents p d (Owner.new n) (cs ++ [.get k i])))
    (hw : ¬ WrittenAt (slotEvents p d (slotAfter p d (Owner.new n) cs) ds) (x.r.lo + i)) :
    Defined Tree p (slotEvents p d (Owner.new n) (cs ++ ds ++ [.get k i])) := by
  rw [← slot_after] at hx hw
  rw [← slot_events] at *
  exact (slotDevice p d).kept rfl hx h hr hw

example : (slotAfter ⟨0, 2⟩ 3 (Owner.new 1) [.asMutPtr]).held[0]? = some ⟨4, ⟨0, 2⟩⟩ ∧
    Defined Tree ⟨0, 2⟩ (slotEvents ⟨0, 2⟩ 3 (Owner.new 1) ([.asMutPtr] ++ [.len])) ∧
    Defined Tree ⟨0, 2⟩ (slotEvents ⟨0, 2⟩ 3 (Owner.new 1) ([.asMutPtr] ++ [.get 0 1])) ∧
    ¬ WrittenAt (slotEvents ⟨0, 2⟩ 3 (slotAfter ⟨0, 2⟩ 3 (Owner.new 1) [.asMutPtr]) [.len]) 1 :=
  ⟨rfl, C151_tree _ _ (by show 0 + 2 < 3; omega) _ (by decide) _ ⟨trivial, trivial, trivial⟩,
    C151_tree _ _ (by show 0 + 2 < 3; omega) _ (by decide) _ ⟨trivial, ⟨_, rfl, rfl, by decide⟩, trivial⟩,
    fun ⟨_, _, h, _⟩ => by simp [slotEvents, SlotCall.go, Place.slotLen, bind, Make.bind, retag,
      Alias.read] at h⟩

/-- C157: what `as_slice` returned may be looked at exactly until something is written there. -/
theorem C157_slot_exactly (p : Place) (d n : Nat) (cs ds : List SlotCall) (i : Nat)
    (hi : i < (slotAfter p d (Owner.new n) cs).len)
    (h : Defined Tree p (slotEvents p d (Owner.new n) (cs ++ .asSlice :: ds))) :
    Defined Tree p (slotEvents p d (Owner.new n)
      (cs ++ .asSlice :: (ds ++ [.get (slotAfter p d (Owner.new n) cs).held.length i]))) ↔
    ¬ WrittenAt (slotEvents p d (slotAfter p d (Owner.new n) (cs ++ [.asSlice])) ds)
      (p.at_ + i) := by
  simp only [← slot_after, ← slot_events, Device.after_append] at *
  exact (slotDevice p d).exactly (o := (Owner.new n)) (cs := cs) (ds := ds) (c := .asSlice) (i := i)
    (r := ⟨p.at_, ((slotDevice p d).after (Owner.new n) cs).len⟩) (pre := [_, _, _, _, _, _, _])
    rfl hi (((slotDevice p d).after (Owner.new n) cs).next + 5)
    (.retag (.retag (.read (.retag (.retag (.retag (.read .nil))))))) rfl rfl rfl h

example : 0 < (slotAfter ⟨0, 2⟩ 3 (Owner.new 0) [.write [1] true]).len ∧
    Defined Tree ⟨0, 2⟩ (slotEvents ⟨0, 2⟩ 3 (Owner.new 0) ([.write [1] true] ++ .asSlice :: [.copyFromSlice 2])) :=
  ⟨by decide, C151_tree _ _ (by show 0 + 2 < 3; omega) _ (by decide) _
    ⟨trivial, trivial, (by decide : 2 ≤ 2), trivial⟩⟩

/-- C157: likewise for iterators: whatever the program is, if some reference or
pointer may be looked at, then also later, if nothing is written there. -/
theorem C157_iter_kept (p : Place) (n : Nat) (cs ds : List IterCall) (k i : Nat) (x : Held)
    (hx : (iterAfter p (Cursor.new n) cs).held[k]? = some x)
    (h : Defined Tree p (iterEvents p (Cursor.new n) (cs ++ ds)))
    (hr : Defined Tree p (iterEvents p (Cursor.new n) (cs ++ [.get k i])))
    (hw : ¬ WrittenAt (iterEvents p (iterAfter p (Cursor.new n) cs) ds) (x.r.lo + i)) :
    Defined Tree p (iterEvents p (Cursor.new n) (cs ++ ds ++ [.get k i])) := by
  rw [← iter_after] at hx hw
  rw [← iter_events] at *
  exact (iterDevice p).kept rfl hx h hr hw

example : (iterAfter ⟨0, 2⟩ (Cursor.new 2) [.asMutSlice]).held[0]? = some ⟨5, ⟨0, 2⟩⟩ ∧
    Defined Tree ⟨0, 2⟩ (iterEvents ⟨0, 2⟩ (Cursor.new 2) ([.asMutSlice] ++ [.sizeHint])) ∧
    Defined Tree ⟨0, 2⟩ (iterEvents ⟨0, 2⟩ (Cursor.new 2) ([.asMutSlice] ++ [.get 0 1])) ∧
    ¬ WrittenAt (iterEvents ⟨0, 2⟩ (iterAfter ⟨0, 2⟩ (Cursor.new 2) [.asMutSlice]) [.sizeHint]) 1 :=
  ⟨rfl, C153_tree _ _ (by decide) _ ⟨trivial, trivial, trivial⟩,
    C153_tree _ _ (by decide) _ ⟨trivial, ⟨_, rfl, rfl, by decide⟩, trivial⟩,
    fun ⟨_, _, h, _⟩ => by simp [iterEvents, IterCall.go, Place.iterHint, bind, Make.bind, retag,
      Alias.read] at h⟩

/-- C157: what `as_slice` returned may be looked at exactly until something is written there. -/
theorem C157_iter_exactly (p : Place) (n : Nat) (cs ds : List IterCall) (i : Nat)
    (hi : i < (iterAfter p (Cursor.new n) cs).len)
    (h : Defined Tree p (iterEvents p (Cursor.new n) (cs ++ .asSlice :: ds))) :
    Defined Tree p (iterEvents p (Cursor.new n)
      (cs ++ .asSlice :: (ds ++ [.get (iterAfter p (Cursor.new n) cs).held.length i]))) ↔
    ¬ WrittenAt (iterEvents p (iterAfter p (Cursor.new n) (cs ++ [.asSlice])) ds)
      (p.at_ + (iterAfter p (Cursor.new n) cs).pos + i) := by
  simp only [← iter_after, ← iter_events, Device.after_append] at *
  exact (iterDevice p).exactly (o := (Cursor.new n)) (cs := cs) (ds := ds) (c := .asSlice) (i := i)
    (r := ⟨p.at_ + ((iterDevice p).after (Cursor.new n) cs).pos, ((iterDevice p).after (Cursor.new n) cs).len⟩) (pre := [_, _, _, _])
    rfl hi (((iterDevice p).after (Cursor.new n) cs).next + 3)
    (.retag (.retag (.retag (.read .nil)))) rfl rfl rfl h

example : 0 < (iterAfter ⟨0, 2⟩ (Cursor.new 2) [.next]).len ∧
    Defined Tree ⟨0, 2⟩ (iterEvents ⟨0, 2⟩ (Cursor.new 2) ([.next] ++ .asSlice :: [.nextBack])) :=
  ⟨by decide, C153_tree _ _ (by decide) _ ⟨trivial, trivial, trivial, trivial⟩⟩

/-- C157: likewise for streams: whatever the program is, if some reference or
pointer may be looked at, then also later, if nothing is written there. -/
theorem C157_stream_kept (p : Place) (d : Nat) (cs ds : List StreamCall) (k i : Nat) (x : Held)
    (hx : (streamAfter p d (Owner.new 0) cs).held[k]? = some x)
    (h : Defined Tree p (streamEvents p d (Owner.new 0) (cs ++ ds)))
    (hr : Defined Tree p (streamEvents p d (Owner.new 0) (cs ++ [.get k i])))
    (hw : ¬ WrittenAt (streamEvents p d (streamAfter p d (Owner.new 0) cs) ds) (x.r.lo + i)) :
    Defined Tree p (streamEvents p d (Owner.new 0) (cs ++ ds ++ [.get k i])) := by
  rw [← stream_after] at hx hw
  rw [← stream_events] at *
  exact (streamDevice p d).kept rfl hx h hr hw

example : (streamAfter ⟨0, 2⟩ 3 (Owner.new 0) [.asPtr]).held[0]? = some ⟨4, ⟨0, 2⟩⟩ ∧
    Defined Tree ⟨0, 2⟩ (streamEvents ⟨0, 2⟩ 3 (Owner.new 0) ([.asPtr] ++ [.write 1])) ∧
    Defined Tree ⟨0, 2⟩ (streamEvents ⟨0, 2⟩ 3 (Owner.new 0) ([.asPtr] ++ [.get 0 1])) ∧
    ¬ WrittenAt (streamEvents ⟨0, 2⟩ 3 (streamAfter ⟨0, 2⟩ 3 (Owner.new 0) [.asPtr]) [.write 1]) 1 :=
  ⟨rfl, C155_tree _ _ (by show 0 + 2 < 3; omega) _ ⟨trivial, trivial, trivial⟩,
    C155_tree _ _ (by show 0 + 2 < 3; omega) _ ⟨trivial, ⟨_, rfl, by decide⟩, trivial⟩,
    fun h => by
      rw [show streamEvents _ _ _ [.write 1] =
        (StreamCall.go ⟨0, 2⟩ 3 (streamAfter ⟨0, 2⟩ 3 (Owner.new 0) [.asPtr]) (.write 1)).2 from List.append_nil _] at h
      exact absurd (((C155_touched _ _ _ _ _).1).mp h).2 (by decide)⟩

/-- C157: what `as_slice` returned may be looked at exactly until something is written there. -/
theorem C157_stream_exactly (p : Place) (d : Nat) (cs ds : List StreamCall) (i : Nat)
    (hi : i < (streamAfter p d (Owner.new 0) cs).len)
    (h : Defined Tree p (streamEvents p d (Owner.new 0) (cs ++ .asSlice :: ds))) :
    Defined Tree p (streamEvents p d (Owner.new 0)
      (cs ++ .asSlice :: (ds ++ [.get (streamAfter p d (Owner.new 0) cs).held.length i]))) ↔
    ¬ WrittenAt (streamEvents p d (streamAfter p d (Owner.new 0) (cs ++ [.asSlice])) ds)
      (p.at_ + i) := by
  simp only [← stream_after, ← stream_events, Device.after_append] at *
  exact (streamDevice p d).exactly (o := (Owner.new 0)) (cs := cs) (ds := ds) (c := .asSlice) (i := i)
    (r := ⟨p.at_, ((streamDevice p d).after (Owner.new 0) cs).len⟩) (pre := [_, _, _, _, _, _, _])
    rfl hi (((streamDevice p d).after (Owner.new 0) cs).next + 5)
    (.retag (.retag (.read (.retag (.retag (.retag (.read .nil))))))) rfl rfl rfl h

example : 0 < (streamAfter ⟨0, 2⟩ 3 (Owner.new 0) [.write 1]).len ∧
    Defined Tree ⟨0, 2⟩ (streamEvents ⟨0, 2⟩ 3 (Owner.new 0) ([.write 1] ++ .asSlice :: [.write 1])) :=
  ⟨by decide, C155_tree _ _ (by show 0 + 2 < 3; omega) _ ⟨trivial, trivial, trivial, trivial⟩⟩

/-- C157 is false for Stacked Borrows: to ask for the length ends what `as_mut_slice` returned. -/
theorem C157_not_stacked : ∃ (p : Place) (d n : Nat) (cs ds : List Call) (k i : Nat) (x : Held),
    (ownerAfter p d (Owner.new n) cs).held[k]? = some x ∧ Defined Stacked p (events p d (Owner.new n) (cs ++ ds)) ∧
    Defined Stacked p (events p d (Owner.new n) (cs ++ [.get k i])) ∧
    ¬ WrittenAt (events p d (ownerAfter p d (Owner.new n) cs) ds) (x.r.lo + i) ∧
    ¬ Defined Stacked p (events p d (Owner.new n) (cs ++ ds ++ [.get k i])) := by
  refine ⟨⟨0, 1⟩, 2, 1, [.asMutSlice], [.len], 0, 0, ⟨7, ⟨0, 1⟩⟩, rfl,
    C150_stacked_partial _ _ (.inl (by decide)) _ (by decide) _ ⟨trivial, trivial, trivial⟩,
    C150_stacked_partial _ _ (.inl (by decide)) _ (by decide) _ ⟨trivial, ⟨_, rfl, rfl, by decide, fun _ => rfl⟩, trivial⟩,
    fun ⟨_, _, h, _⟩ => ?_, fun h => ?_⟩
  · simp [events, Call.go, Place.len, bind, Make.bind, retag, Alias.read] at h
  · obtain ⟨_, h⟩ := h 0
    cases h

example : ∃ p d n, Defined Stacked p (events p d (Owner.new n) [.asMutSlice, .len]) :=
  ⟨⟨0, 1⟩, 2, 1, C150_stacked_partial _ _ (.inl (by decide)) _ (by decide) _ ⟨trivial, trivial, trivial⟩⟩

end Oct.Props
