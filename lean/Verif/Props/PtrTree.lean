import Verif.Proofs.PtrRun
import Verif.Props.SlotBorrows
/-
C164: under Tree Borrows, the pointer that `as_mut_ptr` of slots returned may be used for as long as a reference could
be that `as_mut_slice` returned instead.
-/
namespace Oct.Props
open Spec Alias

/-- C164: under Tree Borrows, in programs that own a slot: whatever the program is, what `as_mut_ptr` returned may be
looked at exactly until something else writes there, and put to exactly until something else writes there, or it was put to
and then something else is read there or a reference to it is made. -/
theorem C164_slot (p : Place) (d n : Nat) (cs ds : List SlotCall) (i : Nat) (x : Held)
    (hx : (slotAfter p d (Owner.new n) (cs ++ [.asMutPtr])).held[(slotAfter p d (Owner.new n) cs).held.length]? = some x)
    (hi : i < x.r.size) (h : Defined Tree p (slotEvents p d (Owner.new n) (cs ++ .asMutPtr :: ds))) :
    (Defined Tree p (slotEvents p d (Owner.new n)
      (cs ++ .asMutPtr :: (ds ++ [.get (slotAfter p d (Owner.new n) cs).held.length i]))) ↔
      ¬ OthersWrite x.tag (slotEvents p d (slotAfter p d (Owner.new n) (cs ++ [.asMutPtr])) ds) (x.r.lo + i)) ∧
    (Defined Tree p (slotEvents p d (Owner.new n)
      (cs ++ .asMutPtr :: (ds ++ [.set (slotAfter p d (Owner.new n) cs).held.length i]))) ↔
      ¬ Spoilt x.tag (slotEvents p d (slotAfter p d (Owner.new n) (cs ++ [.asMutPtr])) ds) (x.r.lo + i)) := by
  simp only [← slot_after, ← slot_events, Device.after_append] at *
  exact slot_ptr_tree hx hi h

example : (slotAfter ⟨0, 2⟩ 3 (Owner.new 1) ([.len] ++ [.asMutPtr])).held[(slotAfter ⟨0, 2⟩ 3 (Owner.new 1) [.len]).held.length]? =
      some ⟨5, ⟨0, 2⟩⟩ ∧ 0 < (⟨5, ⟨0, 2⟩⟩ : Held).r.size ∧
    Defined Tree ⟨0, 2⟩ (slotEvents ⟨0, 2⟩ 3 (Owner.new 1) ([.len] ++ .asMutPtr :: [.set 0 1, .asSlice])) :=
  ⟨rfl, by decide, C151_tree _ _ (by show 0 + 2 < 3; omega) _ (by decide) _
    ⟨trivial, trivial, ⟨_, rfl, rfl, rfl, by decide⟩, trivial, trivial⟩⟩

/-- C164: so whatever the program before is, and wherever in the buffer: after `as_slice` the pointer may be put to if it was
not yet, and may not if it was. -/
theorem C164_once (p : Place) (d n : Nat) (cs : List SlotCall) (i : Nat) (hi : i < p.cap)
    (h : Defined Tree p (slotEvents p d (Owner.new n) (cs ++ [.asMutPtr, .asSlice])))
    (h' : Defined Tree p (slotEvents p d (Owner.new n)
      (cs ++ [.asMutPtr, .set (slotAfter p d (Owner.new n) cs).held.length i, .asSlice]))) :
    Defined Tree p (slotEvents p d (Owner.new n)
      (cs ++ [.asMutPtr, .asSlice, .set (slotAfter p d (Owner.new n) cs).held.length i])) ∧
    ¬ Defined Tree p (slotEvents p d (Owner.new n)
      (cs ++ [.asMutPtr, .set (slotAfter p d (Owner.new n) cs).held.length i, .asSlice,
        .set (slotAfter p d (Owner.new n) cs).held.length i])) := by
  have app : ∀ c, slotAfter p d (Owner.new n) (cs ++ [c]) = slotAfter p d (slotAfter p d (Owner.new n) cs) [c] := fun c => by
    simp only [← slot_after, Device.after_append]
  have last : ∀ y : Held, ((slotAfter p d (Owner.new n) cs).held ++ [y])[(slotAfter p d (Owner.new n) cs).held.length]? = some y :=
    fun y => by simp
  have none : ∀ (o : Owner) t r, Event.write t r ∉ slotEvents p d o [.asSlice] := fun o t r h => by
    simp [slotEvents, SlotCall.go, Place.slotSlice, Place.slotPtr, Place.slotLen, bind, Make.bind, retag, Alias.read] at h
  have here : p.buf.has (p.buf.lo + i) = true := by
    rw [has_iff]
    exact ⟨Nat.le_add_right _ _, Nat.add_lt_add_left hi _⟩
  refine ⟨((C164_slot p d n cs [.asSlice] i _ (by rw [app]; exact last _) hi h).2).mpr fun h => ?_, fun h2 =>
    ((C164_slot p d n cs [.set _ i, .asSlice] i _ (by rw [app]; exact last _) hi h').2).mp h2 ?_⟩
  · rcases h with ⟨t, r, h, _⟩ | ⟨fs, gs, e, ⟨r, h, _⟩, _⟩
    · exact none _ t r h
    · exact none _ _ r (e ▸ List.mem_append_left gs h)
  · have hget : (slotAfter p d (Owner.new n) (cs ++ [.asMutPtr])).held[(slotAfter p d (Owner.new n) cs).held.length]? =
        some ⟨(slotAfter p d (Owner.new n) cs).next + 2, p.buf⟩ := by
      rw [app]; exact last _
    refine .inr ⟨[.write ((slotAfter p d (Owner.new n) cs).next + 2) ⟨p.buf.lo + i, 1⟩],
      slotEvents p d (slotAfter p d (Owner.new n) (cs ++ [.asMutPtr])) [.asSlice], ?_,
      ⟨⟨p.buf.lo + i, 1⟩, .head _, one_has _⟩,
      ⟨.retag .shared ownerTag _ p.buf, .tail _ (.tail _ (.tail _ (.head _))), (fun h => nomatch h), here⟩⟩
    simp only [slotEvents, SlotCall.go, hget]

example : 1 < (⟨0, 2⟩ : Place).cap ∧
    Defined Tree ⟨0, 2⟩ (slotEvents ⟨0, 2⟩ 3 (Owner.new 1) ([.len] ++ [.asMutPtr, .asSlice])) ∧
    Defined Tree ⟨0, 2⟩ (slotEvents ⟨0, 2⟩ 3 (Owner.new 1) ([.len] ++ [.asMutPtr, .set 0 1, .asSlice])) :=
  ⟨by decide, C151_tree _ _ (by show 0 + 2 < 3; omega) _ (by decide) _ ⟨trivial, trivial, trivial, trivial⟩,
    C151_tree _ _ (by show 0 + 2 < 3; omega) _ (by decide) _
      ⟨trivial, trivial, ⟨_, rfl, rfl, rfl, by decide⟩, trivial, trivial⟩⟩

end Oct.Props
