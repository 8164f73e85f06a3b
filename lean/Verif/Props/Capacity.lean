import Verif.Model.Capacity
import Verif.Props.SizedStrings
/-
C100: the capacity of strings made from sized strings.
-/
namespace Oct.Props
open Oct Spec

variable {ε ε' : Type}

/-- C100. A string made from a sized string that is not empty holds the same text, and its capacity
is `N` exactly if the sized string is full. Missing: sized strings that are not full (for which the
capacity is not `N`, see `C100_false_capacity`), and empty ones (see `C100_false_empty`). -/
theorem C100_into_string_partial (s : SizedStr) (bs : List Byte)
    (h : (s.asBytes : Res ε (List Byte)) = .ok bs) (hne : bs ≠ []) :
    ∃ t : Owned Byte, (s.intoString : Res ε' _) = .ok t ∧ t.items = bs ∧
      (t.capacity = s.capacity ↔ s.len = s.capacity) := by
  have hb : (s.intoBoxedStr : Res ε' _) = .ok bs :=
    (C27_into_vec_partial (ε' := ε') s.inner bs h 1 (by decide) hne).1
  refine ⟨⟨bs, bs.length⟩, ?_, rfl, ?_⟩
  · unfold SizedStr.intoString
    rw [hb]
    rfl
  · have := SizedSlice.asSlice_len h
    show bs.length = _ ↔ s.inner.len = _
    rw [this]

example : ((SizedStr.fromRawParts [104, 105] 2).asBytes : Res Unit _) = .ok [104, 105] ∧
    ((SizedStr.fromRawParts [104, 105] 2).intoString : Res Unit _) = .ok ⟨[104, 105], 2⟩ :=
  ⟨rfl, rfl⟩

/-- C100: vectors made from sized slices, likewise. -/
theorem C100_into_vec_partial {α : Type} (s : SizedSlice α) (l : List α)
    (h : (s.asSlice : Res ε (List α)) = .ok l) (itemSize : Nat) (hi : itemSize ≠ 0) (hl : l ≠ []) :
    (s.intoOwned itemSize : Res ε' _) = .ok ⟨l, l.length⟩ := by
  have hb := (C27_into_vec_partial (ε' := ε') s l h itemSize hi hl).1
  unfold SizedSlice.intoOwned
  rw [hb]
  rfl

/-- C100 is false: the string made from a `SizedStr<4>` that holds "hi" has capacity two, not four. -/
theorem C100_false_capacity :
    ∃ (text : Str) (s : SizedStr) (t : Owned Byte), SizedStr.new 4 text = .ok s ∧
      (s.intoString : Res ε' _) = .ok t ∧ s.capacity = 4 ∧ t.capacity = 2 :=
  ⟨⟨[104, 105], by decide⟩, _, ⟨[104, 105], 2⟩, rfl, rfl, rfl, rfl⟩

/-- C100 is false of the empty string: it is not turned into a string at all, for the allocation of
zero octets is undefined behaviour. -/
theorem C100_false_empty (n : Nat) :
    ∃ s : SizedStr, SizedStr.new n ⟨[], by decide⟩ = .ok s ∧
      (s.intoString : Res ε' _) = .ub .zeroAlloc := by
  have h : ∀ s : SizedStr, s.inner.len = 0 → (s.intoString : Res ε' _) = .ub .zeroAlloc := by
    intro s h
    unfold SizedStr.intoString SizedStr.intoBoxedStr SizedSlice.intoBoxedSlice
    rw [h, if_pos (Nat.mul_zero 1)]
    rfl
  exact ⟨_, rfl, h _ rfl⟩

end Oct.Props
