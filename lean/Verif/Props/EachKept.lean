import Verif.Proofs.EachKept
import Verif.Props.Borrows
/-
C165: under Stacked Borrows, of the pointers that `each_mut` of sized slices returned only the last may be used at all, and it
may exactly until anything else writes where it points, or a `&mut` to it is made.
-/
namespace Oct.Props
open Spec Alias

/-- C165: under Stacked Borrows, in programs that own a sized slice: whatever the program is, what `each_mut` returned for
the `j`-th item may be looked at, and put to, exactly if that is the last item and nothing else wrote there since, nor was a
`&mut` to it made. -/
theorem C165_each (p : Place) (d n : Nat) (cs ds : List Call) (j : Nat) (x : Held)
    (hj : j < (ownerAfter p d (Owner.new n) cs).len)
    (hx : (ownerAfter p d (Owner.new n) (cs ++ [.eachMut])).held[(ownerAfter p d (Owner.new n) cs).held.length + j]? = some x)
    (hb : p.buf.has x.r.lo = true) (h : Defined Stacked p (events p d (Owner.new n) (cs ++ .eachMut :: ds))) :
    (Defined Stacked p (events p d (Owner.new n)
      (cs ++ .eachMut :: (ds ++ [.get ((ownerAfter p d (Owner.new n) cs).held.length + j) 0]))) ↔
      j + 1 = (ownerAfter p d (Owner.new n) cs).len ∧
      ¬ TakenAt x.tag (events p d (ownerAfter p d (Owner.new n) (cs ++ [.eachMut])) ds) x.r.lo) ∧
    (Defined Stacked p (events p d (Owner.new n)
      (cs ++ .eachMut :: (ds ++ [.set ((ownerAfter p d (Owner.new n) cs).held.length + j) 0]))) ↔
      j + 1 = (ownerAfter p d (Owner.new n) cs).len ∧
      ¬ TakenAt x.tag (events p d (ownerAfter p d (Owner.new n) (cs ++ [.eachMut])) ds) x.r.lo) := by
  simp only [← slice_after, ← slice_events, Device.after_append] at *
  exact each_ptr hj hx hb h

example : 1 < (ownerAfter ⟨0, 2⟩ 3 (Owner.new 2) [.len]).len ∧
    (ownerAfter ⟨0, 2⟩ 3 (Owner.new 2) ([.len] ++ [.eachMut])).held[(ownerAfter ⟨0, 2⟩ 3 (Owner.new 2) [.len]).held.length + 1]? =
      some ⟨9, ⟨1, 1⟩⟩ ∧ (⟨0, 2⟩ : Place).buf.has (⟨9, ⟨1, 1⟩⟩ : Held).r.lo = true ∧
    Defined Stacked ⟨0, 2⟩ (events ⟨0, 2⟩ 3 (Owner.new 2) ([.len] ++ .eachMut :: [.set 1 0, .asSlice])) :=
  ⟨by decide, rfl, by decide, C150_stacked_partial _ _ (.inl (by decide)) _ (by decide) _
    ⟨trivial, trivial, ⟨_, rfl, rfl, rfl, by decide, fun _ => rfl⟩, trivial, trivial⟩⟩

/-- C165: so none of the others may be used, neither at once nor after anything. -/
theorem C165_others (p : Place) (d n : Nat) (cs ds : List Call) (j : Nat) (x : Held)
    (hj : j + 1 < (ownerAfter p d (Owner.new n) cs).len)
    (hx : (ownerAfter p d (Owner.new n) (cs ++ [.eachMut])).held[(ownerAfter p d (Owner.new n) cs).held.length + j]? = some x)
    (hb : p.buf.has x.r.lo = true) :
    ¬ Defined Stacked p (events p d (Owner.new n)
      (cs ++ .eachMut :: (ds ++ [.get ((ownerAfter p d (Owner.new n) cs).held.length + j) 0]))) ∧
    ¬ Defined Stacked p (events p d (Owner.new n)
      (cs ++ .eachMut :: (ds ++ [.set ((ownerAfter p d (Owner.new n) cs).held.length + j) 0]))) := by
  have before : ∀ c, Defined Stacked p (events p d (Owner.new n) (cs ++ .eachMut :: (ds ++ [c]))) →
      Defined Stacked p (events p d (Owner.new n) (cs ++ .eachMut :: ds)) := fun c h l => by
    obtain ⟨s, hs⟩ := h l
    rw [← List.cons_append, ← List.append_assoc, ← slice_events p d, Device.events_append, runAt_append] at hs
    obtain ⟨s1, h1, _⟩ := Option.bind_eq_some_iff.mp hs
    exact ⟨s1, by rw [← slice_events p d]; exact h1⟩
  refine ⟨fun h => ?_, fun h => ?_⟩
  · have := ((C165_each p d n cs ds j x (by omega) hx hb (before _ h)).1.mp h).1
    omega
  · have := ((C165_each p d n cs ds j x (by omega) hx hb (before _ h)).2.mp h).1
    omega

example : 0 + 1 < (ownerAfter ⟨0, 2⟩ 3 (Owner.new 2) [.len]).len ∧
    (ownerAfter ⟨0, 2⟩ 3 (Owner.new 2) ([.len] ++ [.eachMut])).held[(ownerAfter ⟨0, 2⟩ 3 (Owner.new 2) [.len]).held.length + 0]? =
      some ⟨6, ⟨0, 1⟩⟩ ∧ (⟨0, 2⟩ : Place).buf.has (⟨6, ⟨0, 1⟩⟩ : Held).r.lo = true :=
  ⟨by decide, rfl, by decide⟩

end Oct.Props
