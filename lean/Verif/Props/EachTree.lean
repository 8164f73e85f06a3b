import Verif.Proofs.EachTree
import Verif.Props.EachKept
/-
C166: under Tree Borrows, every pointer that `each_mut` of sized slices returned may be used, and each exactly for as long as
a reference to its item could be.
-/
namespace Oct.Props
open Spec Alias

/-- C166: under Tree Borrows, in programs that own a sized slice: whatever the program is, what `each_mut` returned for the
`j`-th item, whichever item that is, may be looked at exactly until something else writes there, and put to exactly until
something else writes there, or it was put to and then something else is read there or a reference to it is made. -/
theorem C166_each (p : Place) (d n : Nat) (cs ds : List Call) (j : Nat) (x : Held)
    (hj : j < (ownerAfter p d (Owner.new n) cs).len)
    (hx : (ownerAfter p d (Owner.new n) (cs ++ [.eachMut])).held[(ownerAfter p d (Owner.new n) cs).held.length + j]? = some x)
    (hb : p.buf.has x.r.lo = true) (h : Defined Tree p (events p d (Owner.new n) (cs ++ .eachMut :: ds))) :
    (Defined Tree p (events p d (Owner.new n)
      (cs ++ .eachMut :: (ds ++ [.get ((ownerAfter p d (Owner.new n) cs).held.length + j) 0]))) ↔
      ¬ OthersWrite x.tag (events p d (ownerAfter p d (Owner.new n) (cs ++ [.eachMut])) ds) x.r.lo) ∧
    (Defined Tree p (events p d (Owner.new n)
      (cs ++ .eachMut :: (ds ++ [.set ((ownerAfter p d (Owner.new n) cs).held.length + j) 0]))) ↔
      ¬ Spoilt x.tag (events p d (ownerAfter p d (Owner.new n) (cs ++ [.eachMut])) ds) x.r.lo) := by
  simp only [← slice_after, ← slice_events, Device.after_append] at *
  exact each_tree hj hx hb h

example : 0 < (ownerAfter ⟨0, 2⟩ 3 (Owner.new 2) [.len]).len ∧
    (ownerAfter ⟨0, 2⟩ 3 (Owner.new 2) ([.len] ++ [.eachMut])).held[(ownerAfter ⟨0, 2⟩ 3 (Owner.new 2) [.len]).held.length + 0]? =
      some ⟨6, ⟨0, 1⟩⟩ ∧ (⟨0, 2⟩ : Place).buf.has (⟨6, ⟨0, 1⟩⟩ : Held).r.lo = true ∧
    Defined Tree ⟨0, 2⟩ (events ⟨0, 2⟩ 3 (Owner.new 2) ([.len] ++ .eachMut :: [.set 0 0, .set 1 0, .asSlice])) :=
  ⟨by decide, rfl, by decide, C150_tree _ _ (.inl (by decide)) _ (by decide) _
    ⟨trivial, trivial, ⟨_, rfl, rfl, rfl, by decide, trivial⟩, ⟨_, rfl, rfl, rfl, by decide, trivial⟩, trivial, trivial⟩⟩

/-- C166: so whatever the program before is: any of them may be put to at once, and all but the last only under this model. -/
theorem C166_differ (p : Place) (d n : Nat) (cs : List Call) (j : Nat) (x : Held)
    (hj : j + 1 < (ownerAfter p d (Owner.new n) cs).len)
    (hx : (ownerAfter p d (Owner.new n) (cs ++ [.eachMut])).held[(ownerAfter p d (Owner.new n) cs).held.length + j]? = some x)
    (hb : p.buf.has x.r.lo = true) (h : Defined Tree p (events p d (Owner.new n) (cs ++ [.eachMut]))) :
    Defined Tree p (events p d (Owner.new n) (cs ++ [.eachMut, .set ((ownerAfter p d (Owner.new n) cs).held.length + j) 0])) ∧
    ¬ Defined Stacked p (events p d (Owner.new n)
      (cs ++ [.eachMut, .set ((ownerAfter p d (Owner.new n) cs).held.length + j) 0])) := by
  refine ⟨((C166_each p d n cs [] j x (by omega) hx hb h).2).mpr fun h => ?_, (C165_others p d n cs [] j x hj hx hb).2⟩
  rcases h with ⟨t, r, h, _⟩ | ⟨fs, gs, e, ⟨r, h, _⟩, _⟩
  · cases h
  · have : Event.write x.tag r ∈ events p d (ownerAfter p d (Owner.new n) (cs ++ [.eachMut])) [] := e ▸ List.mem_append_left gs h
    cases this

example : 0 + 1 < (ownerAfter ⟨0, 2⟩ 3 (Owner.new 2) [.len]).len ∧
    (ownerAfter ⟨0, 2⟩ 3 (Owner.new 2) ([.len] ++ [.eachMut])).held[(ownerAfter ⟨0, 2⟩ 3 (Owner.new 2) [.len]).held.length + 0]? =
      some ⟨6, ⟨0, 1⟩⟩ ∧ (⟨0, 2⟩ : Place).buf.has (⟨6, ⟨0, 1⟩⟩ : Held).r.lo = true ∧
    Defined Tree ⟨0, 2⟩ (events ⟨0, 2⟩ 3 (Owner.new 2) ([.len] ++ [.eachMut])) :=
  ⟨by decide, rfl, by decide, C150_tree _ _ (.inl (by decide)) _ (by decide) _ ⟨trivial, trivial, trivial⟩⟩

end Oct.Props
