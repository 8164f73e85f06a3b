import Verif.Proofs.StackKept
import Verif.Props.TreeKept
import Verif.Props.Borrows
import Verif.Props.SlotBorrows
import Verif.Props.IterBorrows
import Verif.Props.StreamBorrows
/-
C158: under Stacked Borrows, what `as_slice` returned may be looked at exactly until something there is written or
borrowed as mutable.
-/
namespace Oct.Props
open Spec Alias

/-- C158: under Stacked Borrows, in programs that own a sized slice: whatever the program is, what `as_slice` returned
may be looked at exactly until something there is written, or a `&mut` to it is made. -/
theorem C158_slice (p : Place) (d n : Nat) (cs ds : List Call) (i : Nat)
    (hi : i < (ownerAfter p d (Owner.new n) cs).len)
    (h : Defined Stacked p (events p d (Owner.new n) (cs ++ .asSlice :: ds))) :
    Defined Stacked p (events p d (Owner.new n)
      (cs ++ .asSlice :: (ds ++ [.get (ownerAfter p d (Owner.new n) cs).held.length i]))) ↔
    ¬ ClaimedAt (events p d (ownerAfter p d (Owner.new n) (cs ++ [.asSlice])) ds)
      (p.at_ + i) := by
  simp only [← slice_after, ← slice_events, Device.after_append] at *
  exact (sliceDevice p d).stacked (o := (Owner.new n)) (cs := cs) (ds := ds) (c := .asSlice) (i := i)
    (r := ⟨p.at_, ((sliceDevice p d).after (Owner.new n) cs).len⟩) (pre := [_, _, _, _, _, _])
    rfl hi (((sliceDevice p d).after (Owner.new n) cs).next + 5)
    (.retag (.retag (.retag (.retag (.retag (.read .nil)))))) rfl rfl rfl h

example : 1 < (ownerAfter ⟨0, 2⟩ 3 (Owner.new 2) [.eachRef]).len ∧
    Defined Stacked ⟨0, 2⟩ (events ⟨0, 2⟩ 3 (Owner.new 2) ([.eachRef] ++ .asSlice :: [.asMutSlice, .set 3 0])) :=
  ⟨by decide, C150_stacked_partial _ _ (.inl (by decide)) _ (by decide) _
    ⟨trivial, trivial, trivial, ⟨_, rfl, rfl, rfl, by decide, fun _ => rfl⟩, trivial⟩⟩

/-- C158: likewise for slots: whatever the program is, what `as_slice` returned
may be looked at exactly until something there is written, or a `&mut` to it is made. -/
theorem C158_slot (p : Place) (d n : Nat) (cs ds : List SlotCall) (i : Nat)
    (hi : i < (slotAfter p d (Owner.new n) cs).len)
    (h : Defined Stacked p (slotEvents p d (Owner.new n) (cs ++ .asSlice :: ds))) :
    Defined Stacked p (slotEvents p d (Owner.new n)
      (cs ++ .asSlice :: (ds ++ [.get (slotAfter p d (Owner.new n) cs).held.length i]))) ↔
    ¬ ClaimedAt (slotEvents p d (slotAfter p d (Owner.new n) (cs ++ [.asSlice])) ds)
      (p.at_ + i) := by
  simp only [← slot_after, ← slot_events, Device.after_append] at *
  exact (slotDevice p d).stacked (o := (Owner.new n)) (cs := cs) (ds := ds) (c := .asSlice) (i := i)
    (r := ⟨p.at_, ((slotDevice p d).after (Owner.new n) cs).len⟩) (pre := [_, _, _, _, _, _, _])
    rfl hi (((slotDevice p d).after (Owner.new n) cs).next + 5)
    (.retag (.retag (.read (.retag (.retag (.retag (.read .nil))))))) rfl rfl rfl h

example : 0 < (slotAfter ⟨0, 2⟩ 3 (Owner.new 0) [.write [1] true]).len ∧
    Defined Stacked ⟨0, 2⟩ (slotEvents ⟨0, 2⟩ 3 (Owner.new 0) ([.write [1] true] ++ .asSlice :: [.copyFromSlice 2])) :=
  ⟨by decide, C151_stacked _ _ (by show 0 + 2 < 3; omega) _ (by decide) _
    ⟨trivial, trivial, (by decide : 2 ≤ 2), trivial⟩⟩

/-- C158: likewise for iterators: whatever the program is, what `as_slice` returned
may be looked at exactly until something there is written, or a `&mut` to it is made. -/
theorem C158_iter (p : Place) (n : Nat) (cs ds : List IterCall) (i : Nat)
    (hi : i < (iterAfter p (Cursor.new n) cs).len)
    (h : Defined Stacked p (iterEvents p (Cursor.new n) (cs ++ .asSlice :: ds))) :
    Defined Stacked p (iterEvents p (Cursor.new n)
      (cs ++ .asSlice :: (ds ++ [.get (iterAfter p (Cursor.new n) cs).held.length i]))) ↔
    ¬ ClaimedAt (iterEvents p (iterAfter p (Cursor.new n) (cs ++ [.asSlice])) ds)
      (p.at_ + (iterAfter p (Cursor.new n) cs).pos + i) := by
  simp only [← iter_after, ← iter_events, Device.after_append] at *
  exact (iterDevice p).stacked (o := (Cursor.new n)) (cs := cs) (ds := ds) (c := .asSlice) (i := i)
    (r := ⟨p.at_ + ((iterDevice p).after (Cursor.new n) cs).pos, ((iterDevice p).after (Cursor.new n) cs).len⟩) (pre := [_, _, _, _])
    rfl hi (((iterDevice p).after (Cursor.new n) cs).next + 3)
    (.retag (.retag (.retag (.read .nil)))) rfl rfl rfl h

example : 0 < (iterAfter ⟨0, 2⟩ (Cursor.new 2) [.next]).len ∧
    Defined Stacked ⟨0, 2⟩ (iterEvents ⟨0, 2⟩ (Cursor.new 2) ([.next] ++ .asSlice :: [.nextBack])) :=
  ⟨by decide, C153_stacked _ _ (by decide) _ ⟨trivial, trivial, trivial, trivial⟩⟩

/-- C158: likewise for streams: whatever the program is, what `as_slice` returned
may be looked at exactly until something there is written, or a `&mut` to it is made. -/
theorem C158_stream (p : Place) (d : Nat) (cs ds : List StreamCall) (i : Nat)
    (hi : i < (streamAfter p d (Owner.new 0) cs).len)
    (h : Defined Stacked p (streamEvents p d (Owner.new 0) (cs ++ .asSlice :: ds))) :
    Defined Stacked p (streamEvents p d (Owner.new 0)
      (cs ++ .asSlice :: (ds ++ [.get (streamAfter p d (Owner.new 0) cs).held.length i]))) ↔
    ¬ ClaimedAt (streamEvents p d (streamAfter p d (Owner.new 0) (cs ++ [.asSlice])) ds)
      (p.at_ + i) := by
  simp only [← stream_after, ← stream_events, Device.after_append] at *
  exact (streamDevice p d).stacked (o := (Owner.new 0)) (cs := cs) (ds := ds) (c := .asSlice) (i := i)
    (r := ⟨p.at_, ((streamDevice p d).after (Owner.new 0) cs).len⟩) (pre := [_, _, _, _, _, _, _])
    rfl hi (((streamDevice p d).after (Owner.new 0) cs).next + 5)
    (.retag (.retag (.read (.retag (.retag (.retag (.read .nil))))))) rfl rfl rfl h

example : 0 < (streamAfter ⟨0, 2⟩ 3 (Owner.new 0) [.write 1]).len ∧
    Defined Stacked ⟨0, 2⟩ (streamEvents ⟨0, 2⟩ 3 (Owner.new 0) ([.write 1] ++ .asSlice :: [.write 1])) :=
  ⟨by decide, C155_stacked _ _ (by show 0 + 2 < 3; omega) _ ⟨trivial, trivial, trivial, trivial⟩⟩

/-- C158: so whatever Stacked Borrows allows here, where Tree Borrows allows the program before it, Tree Borrows allows. -/
theorem C158_stricter (p : Place) (d n : Nat) (cs ds : List Call) (i : Nat) (hi : i < (ownerAfter p d (Owner.new n) cs).len)
    (ht : Defined Tree p (events p d (Owner.new n) (cs ++ .asSlice :: ds)))
    (hs : Defined Stacked p (events p d (Owner.new n)
      (cs ++ .asSlice :: (ds ++ [.get (ownerAfter p d (Owner.new n) cs).held.length i])))) :
    Defined Tree p (events p d (Owner.new n)
      (cs ++ .asSlice :: (ds ++ [.get (ownerAfter p d (Owner.new n) cs).held.length i]))) := by
  have h : Defined Stacked p (events p d (Owner.new n) (cs ++ .asSlice :: ds)) := by
    have := hs
    rw [← List.cons_append, ← List.append_assoc] at this
    simp only [← slice_events] at this
    rw [Device.events_append, slice_events] at this
    exact defined_before this
  exact (C157_slice_exactly p d n cs ds i hi ht).mpr fun hw => (C158_slice p d n cs ds i hi h).mp hs (.inl hw)

example : 0 < (ownerAfter ⟨0, 2⟩ 3 (Owner.new 2) []).len ∧
    Defined Tree ⟨0, 2⟩ (events ⟨0, 2⟩ 3 (Owner.new 2) ([] ++ .asSlice :: [.len])) ∧
    Defined Stacked ⟨0, 2⟩ (events ⟨0, 2⟩ 3 (Owner.new 2) ([] ++ .asSlice :: ([.len] ++ [.get 0 0]))) :=
  ⟨by decide, C150_tree _ _ (.inl (by decide)) _ (by decide) _ ⟨trivial, trivial, trivial⟩,
    C150_stacked_partial _ _ (.inl (by decide)) _ (by decide) _
      ⟨trivial, trivial, ⟨_, rfl, rfl, by decide, nofun⟩, trivial⟩⟩

/-- C158: but not the other way round: after `as_mut_slice`, of which nothing is used, what `as_slice` returned before may
be looked at under Tree Borrows, and not under Stacked Borrows. -/
theorem C158_differ (p : Place) (d n : Nat) (cs : List Call) (i : Nat) (hi : i < (ownerAfter p d (Owner.new n) cs).len)
    (ht : Defined Tree p (events p d (Owner.new n) (cs ++ [.asSlice, .asMutSlice])))
    (hs : Defined Stacked p (events p d (Owner.new n) (cs ++ [.asSlice, .asMutSlice]))) :
    Defined Tree p (events p d (Owner.new n)
      (cs ++ [.asSlice, .asMutSlice, .get (ownerAfter p d (Owner.new n) cs).held.length i])) ∧
    ¬ Defined Stacked p (events p d (Owner.new n)
      (cs ++ [.asSlice, .asMutSlice, .get (ownerAfter p d (Owner.new n) cs).held.length i])) := by
  refine ⟨(C157_slice_exactly p d n cs [.asMutSlice] i hi ht).mpr fun h => ?_, fun h =>
    (C158_slice p d n cs [.asMutSlice] i hi hs).mp h (.inr ?_)⟩
  · obtain ⟨_, _, h, _⟩ := h
    simp [events, Call.go, Place.len, Place.asMutSlice, Place.asMutPtr, bind, Make.bind, retag, Alias.read] at h
  · refine ⟨(ownerAfter p d (Owner.new n) (cs ++ [.asSlice])).next + 3,
      (ownerAfter p d (Owner.new n) (cs ++ [.asSlice])).next + 5,
      p.items (ownerAfter p d (Owner.new n) (cs ++ [.asSlice])).len, ?_, ?_⟩
    · simp [events, Call.go, Place.len, Place.asMutSlice, Place.asMutPtr, bind, Make.bind, retag, Alias.read]
    · have hi' : i < ((sliceDevice p d).after (Owner.new n) cs).len := by rw [slice_after]; exact hi
      rw [has_iff, ← slice_after, Device.after_append]
      exact ⟨Nat.le_add_right _ _, Nat.add_lt_add_left hi' p.at_⟩

example : 1 < (ownerAfter ⟨0, 2⟩ 3 (Owner.new 2) []).len ∧
    Defined Tree ⟨0, 2⟩ (events ⟨0, 2⟩ 3 (Owner.new 2) ([] ++ [.asSlice, .asMutSlice])) ∧
    Defined Stacked ⟨0, 2⟩ (events ⟨0, 2⟩ 3 (Owner.new 2) ([] ++ [.asSlice, .asMutSlice])) :=
  ⟨by decide, C150_tree _ _ (.inl (by decide)) _ (by decide) _ ⟨trivial, trivial, trivial⟩,
    C150_stacked_partial _ _ (.inl (by decide)) _ (by decide) _ ⟨trivial, trivial, trivial⟩⟩

end Oct.Props
