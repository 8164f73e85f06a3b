import Verif.Proofs.MutRun
import Verif.Props.Borrows
import Verif.Props.SlotBorrows
import Verif.Props.IterBorrows
/-
C159: under Stacked Borrows, what `as_mut_slice` returned may be looked at, and put to, exactly until anything else is
used where it is.
C160: under Tree Borrows, it may be looked at exactly until anything else writes where it is.
-/
namespace Oct.Props
open Spec Alias

/-- C159: under Stacked Borrows, in programs that own a sized slice: whatever the program is, what `as_mut_slice`
returned may be looked at, and put to, exactly until something else is read or written there, or a reference to it is
made. -/
theorem C159_slice (p : Place) (d n : Nat) (cs ds : List Call) (i : Nat) (x : Held)
    (hx : (ownerAfter p d (Owner.new n) (cs ++ [.asMutSlice])).held[(ownerAfter p d (Owner.new n) cs).held.length]? = some x)
    (hi : i < x.r.size) (h : Defined Stacked p (events p d (Owner.new n) (cs ++ .asMutSlice :: ds))) :
    (Defined Stacked p (events p d (Owner.new n)
      (cs ++ .asMutSlice :: (ds ++ [.get (ownerAfter p d (Owner.new n) cs).held.length i]))) ↔
      ¬ OthersAt x.tag (events p d (ownerAfter p d (Owner.new n) (cs ++ [.asMutSlice])) ds) (x.r.lo + i)) ∧
    (Defined Stacked p (events p d (Owner.new n)
      (cs ++ .asMutSlice :: (ds ++ [.set (ownerAfter p d (Owner.new n) cs).held.length i]))) ↔
      ¬ OthersAt x.tag (events p d (ownerAfter p d (Owner.new n) (cs ++ [.asMutSlice])) ds) (x.r.lo + i)) := by
  simp only [← slice_after, ← slice_events, Device.after_append] at *
  exact ((sliceMut p d).returned (o := (Owner.new n)) (cs := cs) (ds := ds) (c := .asMutSlice) (i := i) (pre := [_, _, _, _, _, _])
    rfl (((sliceDevice p d).after (Owner.new n) cs).next + 5)
    (.retag (.retag (.retag (.retag (.retag (.read .nil)))))) rfl rfl rfl hx hi).1 h

example : (ownerAfter ⟨0, 2⟩ 3 (Owner.new 2) ([.asSlice] ++ [.asMutSlice])).held[(ownerAfter ⟨0, 2⟩ 3 (Owner.new 2) [.asSlice]).held.length]? =
      some ⟨13, ⟨0, 2⟩⟩ ∧ 0 < (⟨13, ⟨0, 2⟩⟩ : Held).r.size ∧
    Defined Stacked ⟨0, 2⟩ (events ⟨0, 2⟩ 3 (Owner.new 2) ([.asSlice] ++ .asMutSlice :: [.set 1 0, .len])) :=
  ⟨rfl, by decide, C150_stacked_partial _ _ (.inl (by decide)) _ (by decide) _
    ⟨trivial, trivial, ⟨_, rfl, rfl, rfl, by decide, fun _ => rfl⟩, trivial, trivial⟩⟩

/-- C160: under Tree Borrows, in programs that own a sized slice: whatever the program is, what `as_mut_slice` returned
may be looked at exactly until something else writes there. -/
theorem C160_slice (p : Place) (d n : Nat) (cs ds : List Call) (i : Nat) (x : Held)
    (hx : (ownerAfter p d (Owner.new n) (cs ++ [.asMutSlice])).held[(ownerAfter p d (Owner.new n) cs).held.length]? = some x)
    (hi : i < x.r.size) (h : Defined Tree p (events p d (Owner.new n) (cs ++ .asMutSlice :: ds))) :
    Defined Tree p (events p d (Owner.new n)
      (cs ++ .asMutSlice :: (ds ++ [.get (ownerAfter p d (Owner.new n) cs).held.length i]))) ↔
    ¬ OthersWrite x.tag (events p d (ownerAfter p d (Owner.new n) (cs ++ [.asMutSlice])) ds) (x.r.lo + i) := by
  simp only [← slice_after, ← slice_events, Device.after_append] at *
  exact ((sliceMut p d).returned (o := (Owner.new n)) (cs := cs) (ds := ds) (c := .asMutSlice) (i := i) (pre := [_, _, _, _, _, _])
    rfl (((sliceDevice p d).after (Owner.new n) cs).next + 5)
    (.retag (.retag (.retag (.retag (.retag (.read .nil)))))) rfl rfl rfl hx hi).2 h

example : (ownerAfter ⟨0, 2⟩ 3 (Owner.new 2) ([.asSlice] ++ [.asMutSlice])).held[(ownerAfter ⟨0, 2⟩ 3 (Owner.new 2) [.asSlice]).held.length]? =
      some ⟨13, ⟨0, 2⟩⟩ ∧ 0 < (⟨13, ⟨0, 2⟩⟩ : Held).r.size ∧
    Defined Tree ⟨0, 2⟩ (events ⟨0, 2⟩ 3 (Owner.new 2) ([.asSlice] ++ .asMutSlice :: [.set 1 0, .len])) :=
  ⟨rfl, by decide, C150_tree _ _ (.inl (by decide)) _ (by decide) _
    ⟨trivial, trivial, ⟨_, rfl, rfl, rfl, by decide, trivial⟩, trivial, trivial⟩⟩

/-- C159: likewise for slots: whatever the program is, what `as_mut_slice`
returned may be looked at, and put to, exactly until something else is read or written there, or a reference to it is
made. -/
theorem C159_slot (p : Place) (d n : Nat) (cs ds : List SlotCall) (i : Nat) (x : Held)
    (hx : (slotAfter p d (Owner.new n) (cs ++ [.asMutSlice])).held[(slotAfter p d (Owner.new n) cs).held.length]? = some x)
    (hi : i < x.r.size) (h : Defined Stacked p (slotEvents p d (Owner.new n) (cs ++ .asMutSlice :: ds))) :
    (Defined Stacked p (slotEvents p d (Owner.new n)
      (cs ++ .asMutSlice :: (ds ++ [.get (slotAfter p d (Owner.new n) cs).held.length i]))) ↔
      ¬ OthersAt x.tag (slotEvents p d (slotAfter p d (Owner.new n) (cs ++ [.asMutSlice])) ds) (x.r.lo + i)) ∧
    (Defined Stacked p (slotEvents p d (Owner.new n)
      (cs ++ .asMutSlice :: (ds ++ [.set (slotAfter p d (Owner.new n) cs).held.length i]))) ↔
      ¬ OthersAt x.tag (slotEvents p d (slotAfter p d (Owner.new n) (cs ++ [.asMutSlice])) ds) (x.r.lo + i)) := by
  simp only [← slot_after, ← slot_events, Device.after_append] at *
  exact ((slotMut p d).returned (o := (Owner.new n)) (cs := cs) (ds := ds) (c := .asMutSlice) (i := i) (pre := [_, _, _, _, _, _, _, _])
    rfl (((slotDevice p d).after (Owner.new n) cs).next + 6)
    (.retag (.retag (.read (.retag (.retag (.retag (.read (.retag .nil)))))))) rfl rfl rfl hx hi).1 h

example : (slotAfter ⟨0, 2⟩ 3 (Owner.new 0) ([.len] ++ [.asMutSlice])).held[(slotAfter ⟨0, 2⟩ 3 (Owner.new 0) [.len]).held.length]? =
      some ⟨9, ⟨0, 2⟩⟩ ∧ 0 < (⟨9, ⟨0, 2⟩⟩ : Held).r.size ∧
    Defined Stacked ⟨0, 2⟩ (slotEvents ⟨0, 2⟩ 3 (Owner.new 0) ([.len] ++ .asMutSlice :: [.copyFromSlice 2])) :=
  ⟨rfl, by decide, C151_stacked _ _ (by show 0 + 2 < 3; omega) _ (by decide) _
    ⟨trivial, trivial, (by decide : 2 ≤ 2), trivial⟩⟩

/-- C160: likewise for slots: whatever the program is, what `as_mut_slice` returned
may be looked at exactly until something else writes there. -/
theorem C160_slot (p : Place) (d n : Nat) (cs ds : List SlotCall) (i : Nat) (x : Held)
    (hx : (slotAfter p d (Owner.new n) (cs ++ [.asMutSlice])).held[(slotAfter p d (Owner.new n) cs).held.length]? = some x)
    (hi : i < x.r.size) (h : Defined Tree p (slotEvents p d (Owner.new n) (cs ++ .asMutSlice :: ds))) :
    Defined Tree p (slotEvents p d (Owner.new n)
      (cs ++ .asMutSlice :: (ds ++ [.get (slotAfter p d (Owner.new n) cs).held.length i]))) ↔
    ¬ OthersWrite x.tag (slotEvents p d (slotAfter p d (Owner.new n) (cs ++ [.asMutSlice])) ds) (x.r.lo + i) := by
  simp only [← slot_after, ← slot_events, Device.after_append] at *
  exact ((slotMut p d).returned (o := (Owner.new n)) (cs := cs) (ds := ds) (c := .asMutSlice) (i := i) (pre := [_, _, _, _, _, _, _, _])
    rfl (((slotDevice p d).after (Owner.new n) cs).next + 6)
    (.retag (.retag (.read (.retag (.retag (.retag (.read (.retag .nil)))))))) rfl rfl rfl hx hi).2 h

example : (slotAfter ⟨0, 2⟩ 3 (Owner.new 0) ([.len] ++ [.asMutSlice])).held[(slotAfter ⟨0, 2⟩ 3 (Owner.new 0) [.len]).held.length]? =
      some ⟨9, ⟨0, 2⟩⟩ ∧ 0 < (⟨9, ⟨0, 2⟩⟩ : Held).r.size ∧
    Defined Tree ⟨0, 2⟩ (slotEvents ⟨0, 2⟩ 3 (Owner.new 0) ([.len] ++ .asMutSlice :: [.copyFromSlice 2])) :=
  ⟨rfl, by decide, C151_tree _ _ (by show 0 + 2 < 3; omega) _ (by decide) _
    ⟨trivial, trivial, (by decide : 2 ≤ 2), trivial⟩⟩

/-- C159: likewise for iterators: whatever the program is, what `as_mut_slice`
returned may be looked at, and put to, exactly until something else is read or written there, or a reference to it is
made. -/
theorem C159_iter (p : Place) (n : Nat) (cs ds : List IterCall) (i : Nat) (x : Held)
    (hx : (iterAfter p (Cursor.new n) (cs ++ [.asMutSlice])).held[(iterAfter p (Cursor.new n) cs).held.length]? = some x)
    (hi : i < x.r.size) (h : Defined Stacked p (iterEvents p (Cursor.new n) (cs ++ .asMutSlice :: ds))) :
    (Defined Stacked p (iterEvents p (Cursor.new n)
      (cs ++ .asMutSlice :: (ds ++ [.get (iterAfter p (Cursor.new n) cs).held.length i]))) ↔
      ¬ OthersAt x.tag (iterEvents p (iterAfter p (Cursor.new n) (cs ++ [.asMutSlice])) ds) (x.r.lo + i)) ∧
    (Defined Stacked p (iterEvents p (Cursor.new n)
      (cs ++ .asMutSlice :: (ds ++ [.set (iterAfter p (Cursor.new n) cs).held.length i]))) ↔
      ¬ OthersAt x.tag (iterEvents p (iterAfter p (Cursor.new n) (cs ++ [.asMutSlice])) ds) (x.r.lo + i)) := by
  simp only [← iter_after, ← iter_events, Device.after_append] at *
  exact ((iterMut p).returned (o := (Cursor.new n)) (cs := cs) (ds := ds) (c := .asMutSlice) (i := i) (pre := [_, _, _, _])
    rfl (((iterDevice p).after (Cursor.new n) cs).next + 3)
    (.retag (.retag (.retag (.read .nil)))) rfl rfl rfl hx hi).1 h

example : (iterAfter ⟨0, 2⟩ (Cursor.new 2) ([.next] ++ [.asMutSlice])).held[(iterAfter ⟨0, 2⟩ (Cursor.new 2) [.next]).held.length]? =
      some ⟨8, ⟨1, 1⟩⟩ ∧ 0 < (⟨8, ⟨1, 1⟩⟩ : Held).r.size ∧
    Defined Stacked ⟨0, 2⟩ (iterEvents ⟨0, 2⟩ (Cursor.new 2) ([.next] ++ .asMutSlice :: [.nextBack])) :=
  ⟨rfl, by decide, C153_stacked _ _ (by decide) _ ⟨trivial, trivial, trivial, trivial⟩⟩

/-- C160: likewise for iterators: whatever the program is, what `as_mut_slice` returned
may be looked at exactly until something else writes there. -/
theorem C160_iter (p : Place) (n : Nat) (cs ds : List IterCall) (i : Nat) (x : Held)
    (hx : (iterAfter p (Cursor.new n) (cs ++ [.asMutSlice])).held[(iterAfter p (Cursor.new n) cs).held.length]? = some x)
    (hi : i < x.r.size) (h : Defined Tree p (iterEvents p (Cursor.new n) (cs ++ .asMutSlice :: ds))) :
    Defined Tree p (iterEvents p (Cursor.new n)
      (cs ++ .asMutSlice :: (ds ++ [.get (iterAfter p (Cursor.new n) cs).held.length i]))) ↔
    ¬ OthersWrite x.tag (iterEvents p (iterAfter p (Cursor.new n) (cs ++ [.asMutSlice])) ds) (x.r.lo + i) := by
  simp only [← iter_after, ← iter_events, Device.after_append] at *
  exact ((iterMut p).returned (o := (Cursor.new n)) (cs := cs) (ds := ds) (c := .asMutSlice) (i := i) (pre := [_, _, _, _])
    rfl (((iterDevice p).after (Cursor.new n) cs).next + 3)
    (.retag (.retag (.retag (.read .nil)))) rfl rfl rfl hx hi).2 h

example : (iterAfter ⟨0, 2⟩ (Cursor.new 2) ([.next] ++ [.asMutSlice])).held[(iterAfter ⟨0, 2⟩ (Cursor.new 2) [.next]).held.length]? =
      some ⟨8, ⟨1, 1⟩⟩ ∧ 0 < (⟨8, ⟨1, 1⟩⟩ : Held).r.size ∧
    Defined Tree ⟨0, 2⟩ (iterEvents ⟨0, 2⟩ (Cursor.new 2) ([.next] ++ .asMutSlice :: [.nextBack])) :=
  ⟨rfl, by decide, C153_tree _ _ (by decide) _ ⟨trivial, trivial, trivial, trivial⟩⟩

end Oct.Props
