import Verif.Proofs.PtrKept
import Verif.Props.MutKept
/-
C163: under Stacked Borrows, the pointer that `as_mut_ptr` of slots returned may be looked at, and put to, exactly until
anything else writes where it points, or a `&mut` to it is made.
-/
namespace Oct.Props
open Spec Alias

/-- C163: under Stacked Borrows, in programs that own a slot: whatever the program is, what `as_mut_ptr` returned may be
looked at, and put to, exactly until something else writes there, or a `&mut` to it is made. That others look there, or
make a `&` to it, does not end it. -/
theorem C163_slot (p : Place) (d n : Nat) (cs ds : List SlotCall) (i : Nat) (x : Held)
    (hx : (slotAfter p d (Owner.new n) (cs ++ [.asMutPtr])).held[(slotAfter p d (Owner.new n) cs).held.length]? = some x)
    (hi : i < x.r.size) (h : Defined Stacked p (slotEvents p d (Owner.new n) (cs ++ .asMutPtr :: ds))) :
    (Defined Stacked p (slotEvents p d (Owner.new n)
      (cs ++ .asMutPtr :: (ds ++ [.get (slotAfter p d (Owner.new n) cs).held.length i]))) ↔
      ¬ TakenAt x.tag (slotEvents p d (slotAfter p d (Owner.new n) (cs ++ [.asMutPtr])) ds) (x.r.lo + i)) ∧
    (Defined Stacked p (slotEvents p d (Owner.new n)
      (cs ++ .asMutPtr :: (ds ++ [.set (slotAfter p d (Owner.new n) cs).held.length i]))) ↔
      ¬ TakenAt x.tag (slotEvents p d (slotAfter p d (Owner.new n) (cs ++ [.asMutPtr])) ds) (x.r.lo + i)) := by
  simp only [← slot_after, ← slot_events, Device.after_append] at *
  exact slot_ptr_exactly hx hi h

example : (slotAfter ⟨0, 2⟩ 3 (Owner.new 1) ([.len] ++ [.asMutPtr])).held[(slotAfter ⟨0, 2⟩ 3 (Owner.new 1) [.len]).held.length]? =
      some ⟨5, ⟨0, 2⟩⟩ ∧ 0 < (⟨5, ⟨0, 2⟩⟩ : Held).r.size ∧
    Defined Stacked ⟨0, 2⟩ (slotEvents ⟨0, 2⟩ 3 (Owner.new 1) ([.len] ++ .asMutPtr :: [.asSlice])) :=
  ⟨rfl, by decide, C151_stacked _ _ (by show 0 + 2 < 3; omega) _ (by decide) _ ⟨trivial, trivial, trivial, trivial⟩⟩

/-- C163: so `as_slice` in between leaves usable the pointer that `as_mut_ptr` returned, where it ends the reference that
`as_mut_slice` returned: whatever the program before is, and wherever in the buffer. -/
theorem C163_differ (p : Place) (d n : Nat) (cs : List SlotCall) (i : Nat) (hi : i < p.cap)
    (hp : Defined Stacked p (slotEvents p d (Owner.new n) (cs ++ [.asMutPtr, .asSlice])))
    (hm : Defined Stacked p (slotEvents p d (Owner.new n) (cs ++ [.asMutSlice, .asSlice]))) :
    Defined Stacked p (slotEvents p d (Owner.new n)
      (cs ++ [.asMutPtr, .asSlice, .set (slotAfter p d (Owner.new n) cs).held.length i])) ∧
    ¬ Defined Stacked p (slotEvents p d (Owner.new n)
      (cs ++ [.asMutSlice, .asSlice, .set (slotAfter p d (Owner.new n) cs).held.length i])) := by
  have app : ∀ c, slotAfter p d (Owner.new n) (cs ++ [c]) = slotAfter p d (slotAfter p d (Owner.new n) cs) [c] := fun c => by
    simp only [← slot_after, Device.after_append]
  have last : ∀ y : Held, ((slotAfter p d (Owner.new n) cs).held ++ [y])[(slotAfter p d (Owner.new n) cs).held.length]? = some y :=
    fun y => by simp
  refine ⟨((C163_slot p d n cs [.asSlice] i _ (by rw [app]; exact last _) hi hp).2).mpr fun h => ?_, fun h =>
    ((C159_slot p d n cs [.asSlice] i _ (by rw [app]; exact last _) hi hm).2).mp h ?_⟩
  · rcases h with ⟨t, r, h, _⟩ | ⟨t, q, r, h, _⟩ <;>
      simp [slotEvents, SlotCall.go, Place.slotSlice, Place.slotPtr, Place.slotLen, bind, Make.bind, retag, Alias.read] at h
  · refine ⟨.retag .shared ownerTag _ p.buf, .tail _ (.tail _ (.tail _ (.head _))), (fun h => nomatch h), ?_⟩
    rw [has_iff]
    exact ⟨Nat.le_add_right _ _, Nat.add_lt_add_left hi _⟩

example : 1 < (⟨0, 2⟩ : Place).cap ∧
    Defined Stacked ⟨0, 2⟩ (slotEvents ⟨0, 2⟩ 3 (Owner.new 1) ([.len] ++ [.asMutPtr, .asSlice])) ∧
    Defined Stacked ⟨0, 2⟩ (slotEvents ⟨0, 2⟩ 3 (Owner.new 1) ([.len] ++ [.asMutSlice, .asSlice])) :=
  ⟨by decide, C151_stacked _ _ (by show 0 + 2 < 3; omega) _ (by decide) _ ⟨trivial, trivial, trivial, trivial⟩,
    C151_stacked _ _ (by show 0 + 2 < 3; omega) _ (by decide) _ ⟨trivial, trivial, trivial, trivial⟩⟩

end Oct.Props
