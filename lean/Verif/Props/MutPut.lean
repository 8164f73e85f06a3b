import Verif.Proofs.MutPut
import Verif.Props.MutKept
import Verif.Props.Borrows
import Verif.Props.SlotBorrows
import Verif.Props.IterBorrows
/-
C161: under Tree Borrows, what `as_mut_slice` returned may be put to exactly until something else writes where it is, or,
once it was put to, anything else is used there.
-/
namespace Oct.Props
open Spec Alias

/-- C161: under Tree Borrows, in programs that own a sized slice: whatever the program is, what `as_mut_slice` returned
may be put to exactly until something else writes there, or, once it was put to there, something else is read there or a
reference to it is made. -/
theorem C161_slice (p : Place) (d n : Nat) (cs ds : List Call) (i : Nat) (x : Held)
    (hx : (ownerAfter p d (Owner.new n) (cs ++ [.asMutSlice])).held[(ownerAfter p d (Owner.new n) cs).held.length]? = some x)
    (hi : i < x.r.size)
    (hb : p.buf.has (x.r.lo + i) = true) (h : Defined Tree p (events p d (Owner.new n) (cs ++ .asMutSlice :: ds))) :
    Defined Tree p (events p d (Owner.new n)
      (cs ++ .asMutSlice :: (ds ++ [.set (ownerAfter p d (Owner.new n) cs).held.length i]))) ↔
    ¬ Spoilt x.tag (events p d (ownerAfter p d (Owner.new n) (cs ++ [.asMutSlice])) ds) (x.r.lo + i) := by
  simp only [← slice_after, ← slice_events, Device.after_append] at *
  have hw := whole_of_buf hb
  exact (sliceMut p d).putTo (o := (Owner.new n)) (cs := cs) (ds := ds) (c := .asMutSlice) (i := i) (pre := [_, _, _, _, _, _])
    rfl (((sliceDevice p d).after (Owner.new n) cs).next + 5)
    (.retag (.retag (.retag (.retag (.retag (.read .nil)))))) rfl rfl rfl hx hi hw
    (.step (fun h => nomatch h) hw (.step (fun h => nomatch h) hw (.step (fun h => nomatch h) hb (.step (fun h => nomatch h) hb (.skip (.read .nil)))))) h

example : (ownerAfter ⟨0, 2⟩ 3 (Owner.new 2) ([.asSlice] ++ [.asMutSlice])).held[(ownerAfter ⟨0, 2⟩ 3 (Owner.new 2) [.asSlice]).held.length]? =
      some ⟨13, ⟨0, 2⟩⟩ ∧ 0 < (⟨13, ⟨0, 2⟩⟩ : Held).r.size ∧ (⟨0, 2⟩ : Place).buf.has ((⟨13, ⟨0, 2⟩⟩ : Held).r.lo + 0) = true ∧
    Defined Tree ⟨0, 2⟩ (events ⟨0, 2⟩ 3 (Owner.new 2) ([.asSlice] ++ .asMutSlice :: [.set 1 0, .len])) :=
  ⟨rfl, by decide, by decide, C150_tree _ _ (.inl (by decide)) _ (by decide) _
    ⟨trivial, trivial, ⟨_, rfl, rfl, rfl, by decide, trivial⟩, trivial, trivial⟩⟩

/-- C161: likewise for slots: whatever the program is, what `as_mut_slice` returned
may be put to exactly until something else writes there, or, once it was put to there, something else is read there or a
reference to it is made. -/
theorem C161_slot (p : Place) (d n : Nat) (cs ds : List SlotCall) (i : Nat) (x : Held)
    (hx : (slotAfter p d (Owner.new n) (cs ++ [.asMutSlice])).held[(slotAfter p d (Owner.new n) cs).held.length]? = some x)
    (hi : i < x.r.size) (h : Defined Tree p (slotEvents p d (Owner.new n) (cs ++ .asMutSlice :: ds))) :
    Defined Tree p (slotEvents p d (Owner.new n)
      (cs ++ .asMutSlice :: (ds ++ [.set (slotAfter p d (Owner.new n) cs).held.length i]))) ↔
    ¬ Spoilt x.tag (slotEvents p d (slotAfter p d (Owner.new n) (cs ++ [.asMutSlice])) ds) (x.r.lo + i) := by
  simp only [← slot_after, ← slot_events, Device.after_append] at *
  have hb : p.buf.has (x.r.lo + i) = true := by
    have e := held_last (hs := ((slotDevice p d).after (Owner.new n) cs).held) (y := ⟨_, p.buf⟩) hx
    rw [e] at hi ⊢
    rw [has_iff]
    exact ⟨Nat.le_add_right _ _, Nat.add_lt_add_left hi _⟩
  have hw := whole_of_buf hb
  exact (slotMut p d).putTo (o := (Owner.new n)) (cs := cs) (ds := ds) (c := .asMutSlice) (i := i) (pre := [_, _, _, _, _, _, _, _])
    rfl (((slotDevice p d).after (Owner.new n) cs).next + 6)
    (.retag (.retag (.read (.retag (.retag (.retag (.read (.retag .nil)))))))) rfl rfl rfl hx hi hw
    (.skip (.skip (.read (.step (fun h => nomatch h) hb (.step (fun h => nomatch h) hb (.skip (.read (.skip .nil)))))))) h

example : (slotAfter ⟨0, 2⟩ 3 (Owner.new 0) ([.len] ++ [.asMutSlice])).held[(slotAfter ⟨0, 2⟩ 3 (Owner.new 0) [.len]).held.length]? =
      some ⟨9, ⟨0, 2⟩⟩ ∧ 0 < (⟨9, ⟨0, 2⟩⟩ : Held).r.size ∧
    Defined Tree ⟨0, 2⟩ (slotEvents ⟨0, 2⟩ 3 (Owner.new 0) ([.len] ++ .asMutSlice :: [.copyFromSlice 2])) :=
  ⟨rfl, by decide, C151_tree _ _ (by show 0 + 2 < 3; omega) _ (by decide) _
    ⟨trivial, trivial, (by decide : 2 ≤ 2), trivial⟩⟩

/-- C161: likewise for iterators: whatever the program is, what `as_mut_slice` returned
may be put to exactly until something else writes there, or, once it was put to there, something else is read there or a
reference to it is made. -/
theorem C161_iter (p : Place) (n : Nat) (cs ds : List IterCall) (i : Nat) (x : Held)
    (hx : (iterAfter p (Cursor.new n) (cs ++ [.asMutSlice])).held[(iterAfter p (Cursor.new n) cs).held.length]? = some x)
    (hi : i < x.r.size)
    (hb : p.buf.has (x.r.lo + i) = true) (h : Defined Tree p (iterEvents p (Cursor.new n) (cs ++ .asMutSlice :: ds))) :
    Defined Tree p (iterEvents p (Cursor.new n)
      (cs ++ .asMutSlice :: (ds ++ [.set (iterAfter p (Cursor.new n) cs).held.length i]))) ↔
    ¬ Spoilt x.tag (iterEvents p (iterAfter p (Cursor.new n) (cs ++ [.asMutSlice])) ds) (x.r.lo + i) := by
  simp only [← iter_after, ← iter_events, Device.after_append] at *
  have hw := whole_of_buf hb
  exact (iterMut p).putTo (o := (Cursor.new n)) (cs := cs) (ds := ds) (c := .asMutSlice) (i := i) (pre := [_, _, _, _])
    rfl (((iterDevice p).after (Cursor.new n) cs).next + 3)
    (.retag (.retag (.retag (.read .nil)))) rfl rfl rfl hx hi hw
    (.step (fun h => nomatch h) hw (.step (fun h => nomatch h) hb (.step (fun h => nomatch h) hb (.read .nil)))) h

example : (iterAfter ⟨0, 2⟩ (Cursor.new 2) ([.next] ++ [.asMutSlice])).held[(iterAfter ⟨0, 2⟩ (Cursor.new 2) [.next]).held.length]? =
      some ⟨8, ⟨1, 1⟩⟩ ∧ 0 < (⟨8, ⟨1, 1⟩⟩ : Held).r.size ∧ (⟨0, 2⟩ : Place).buf.has ((⟨8, ⟨1, 1⟩⟩ : Held).r.lo + 0) = true ∧
    Defined Tree ⟨0, 2⟩ (iterEvents ⟨0, 2⟩ (Cursor.new 2) ([.next] ++ .asMutSlice :: [.nextBack])) :=
  ⟨rfl, by decide, by decide, C153_tree _ _ (by decide) _ ⟨trivial, trivial, trivial, trivial⟩⟩

/-- C161: so the two rules differ here, too: to ask for the length after `as_mut_slice` does not keep what it returned from
being put to under Tree Borrows, and does under Stacked Borrows. -/
theorem C161_differ (p : Place) (d n : Nat) (cs : List Call) (i : Nat) (x : Held)
    (hx : (ownerAfter p d (Owner.new n) (cs ++ [.asMutSlice])).held[(ownerAfter p d (Owner.new n) cs).held.length]? = some x)
    (hi : i < x.r.size) (hb : p.buf.has (x.r.lo + i) = true)
    (ht : Defined Tree p (events p d (Owner.new n) (cs ++ [.asMutSlice, .len])))
    (hs : Defined Stacked p (events p d (Owner.new n) (cs ++ [.asMutSlice, .len]))) :
    Defined Tree p (events p d (Owner.new n)
      (cs ++ [.asMutSlice, .len, .set (ownerAfter p d (Owner.new n) cs).held.length i])) ∧
    ¬ Defined Stacked p (events p d (Owner.new n)
      (cs ++ [.asMutSlice, .len, .set (ownerAfter p d (Owner.new n) cs).held.length i])) := by
  have none : ∀ t r, Event.write t r ∉ events p d (ownerAfter p d (Owner.new n) (cs ++ [.asMutSlice])) [.len] := fun t r h => by
    simp [events, Call.go, Place.len, bind, Make.bind, retag, Alias.read] at h
  refine ⟨(C161_slice p d n cs [.len] i x hx hi hb ht).mpr fun h => ?_, fun h =>
    ((C159_slice p d n cs [.len] i x hx hi hs).2).mp h ?_⟩
  · rcases h with ⟨t, r, h, _⟩ | ⟨fs, gs, e, ⟨r, h, _⟩, _⟩
    · exact none t r h
    · exact none _ r (e ▸ List.mem_append_left gs h)
  · exact ⟨.retag .shared ownerTag (ownerAfter p d (Owner.new n) (cs ++ [.asMutSlice])).next p.whole, .head _,
      (fun h => nomatch h), whole_of_buf hb⟩

example : (ownerAfter ⟨0, 2⟩ 3 (Owner.new 2) ([] ++ [.asMutSlice])).held[(ownerAfter ⟨0, 2⟩ 3 (Owner.new 2) []).held.length]? =
      some ⟨7, ⟨0, 2⟩⟩ ∧ 0 < (⟨7, ⟨0, 2⟩⟩ : Held).r.size ∧
    (⟨0, 2⟩ : Place).buf.has ((⟨7, ⟨0, 2⟩⟩ : Held).r.lo + 0) = true ∧
    Defined Tree ⟨0, 2⟩ (events ⟨0, 2⟩ 3 (Owner.new 2) ([] ++ [.asMutSlice, .len])) ∧
    Defined Stacked ⟨0, 2⟩ (events ⟨0, 2⟩ 3 (Owner.new 2) ([] ++ [.asMutSlice, .len])) :=
  ⟨rfl, by decide, by decide, C150_tree _ _ (.inl (by decide)) _ (by decide) _ ⟨trivial, trivial, trivial⟩,
    C150_stacked_partial _ _ (.inl (by decide)) _ (by decide) _ ⟨trivial, trivial, trivial⟩⟩

end Oct.Props
