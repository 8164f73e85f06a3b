import Verif.Model.SlotMemory
import Verif.Spec.Memory
/-
How slots own memory.
-/
namespace Oct.Spec
open Oct

/-- A `Box` with these octets: an allocation of just that size, or none at all if there are none. -/
def Owns (m : Mem Byte) (s : RawSlice) (d : List Byte) : Prop :=
  s.len = d.length ∧ (s.len ≠ 0 → s.ptr.off = 0 ∧ m s.ptr.alloc = some (d.map some))

/-- The slot in memory is the slot `S`, and its length is within its buffer. -/
def ShowsSlot (m : Mem Byte) (s : RawSlot) (S : Slot) : Prop :=
  Owns m s.buf S.buf ∧ s.len = S.len ∧ S.len ≤ S.buf.length

/-- The slots in memory are the slots `L`. No two have the same allocation, and apart from their
allocations memory is as it is in `base`, which has none of theirs. -/
structure ShowsHeap (base : Mem Byte) (h : SlotHeap) (L : List Slot) : Prop where
  length : h.slots.length = L.length
  shows_ : ∀ (i : Nat) (s : RawSlot) (S : Slot), h.slots[i]? = some s → L[i]? = some S →
    ShowsSlot h.mem s S
  apart : ∀ (i j : Nat) (s s' : RawSlot), i ≠ j → h.slots[i]? = some s → h.slots[j]? = some s' →
    s.buf.len ≠ 0 → s'.buf.len ≠ 0 → s.buf.ptr.alloc ≠ s'.buf.ptr.alloc
  fresh : ∀ (i : Nat) (s : RawSlot), h.slots[i]? = some s → s.buf.len ≠ 0 →
    base s.buf.ptr.alloc = none
  rest : ∀ a, (∀ (i : Nat) (s : RawSlot), h.slots[i]? = some s → s.buf.len ≠ 0 →
    s.buf.ptr.alloc ≠ a) → h.mem a = base a

end Oct.Spec
