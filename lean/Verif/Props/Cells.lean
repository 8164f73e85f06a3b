import Verif.Proofs.Cells
import Verif.Props.Memory
/-
C77 and C80: what the operations on memory demand and do, cell by cell. These pin down the unsafe
operations that the models of streams, slots and vectors in memory are made of.
-/
namespace Oct.Props
open Oct Spec
set_option linter.unusedVariables false

/-- C77. `ptr.add(n)` is defined exactly if there are `n` cells from the pointer on. -/
theorem C77_pointer {α : Type} (m : Mem α) (p q : Ptr) (n : Nat) (u : Ub) :
    (m.add p n = .ok q ↔ InBounds m p n ∧ q = ⟨p.alloc, p.off + n⟩) ∧
    (m.add p n = .error u ↔ ¬ InBounds m p n ∧ u = .outOfBounds) :=
  ⟨Mem.add_iff, Mem.add_error⟩

example : InBounds sampleMem ⟨0, 1⟩ 3 ∧ ¬ InBounds sampleMem ⟨0, 1⟩ 4 ∧ ¬ InBounds sampleMem ⟨7, 0⟩ 1 :=
  ⟨.inr ⟨_, rfl, by decide⟩, by
    rintro (h | ⟨c, h1, h2⟩)
    · exact absurd h (by decide)
    · cases h1; exact absurd h2 (by decide), by
    rintro (h | ⟨c, h1, h2⟩)
    · exact absurd h (by decide)
    · exact nomatch h1⟩

/-- C77. `copy_nonoverlapping` is defined exactly if there are enough cells on both sides and none is
on both; and then the cells of the destination become those of the source, and nothing else happens. -/
theorem C77_copy {α : Type} (m : Mem α) (src dst : Ptr) (n : Nat) :
    ((∃ m', m.copyNonoverlapping src dst n = .ok m') ↔ InBounds m src n ∧ InBounds m dst n ∧
      ∀ i j, i < n → j < n → ¬ (src.alloc = dst.alloc ∧ src.off + i = dst.off + j)) ∧
    ∀ m', m.copyNonoverlapping src dst n = .ok m' →
      (∀ a, (m' a).map List.length = (m a).map List.length) ∧
      ∀ a i, cell m' a i = if a = dst.alloc ∧ dst.off ≤ i ∧ i < dst.off + n
        then cell m src.alloc (src.off + (i - dst.off)) else cell m a i := by
  constructor
  · constructor
    · rintro ⟨m', h⟩
      unfold Mem.copyNonoverlapping at h
      split at h
      · exact nomatch h
      · rename_i l hl
        split at h
        · rename_i ha
          split at h
          · exact nomatch h
          · rename_i m1 hs
            refine ⟨Mem.inBounds_load.mpr ⟨l, hl⟩, ?_, Mem.apart_iff.mp ha⟩
            have := Mem.store_iff.mp ⟨m1, hs⟩
            rwa [Mem.load_length hl] at this
        · exact nomatch h
    · rintro ⟨h1, h2, h3⟩
      obtain ⟨l, hl⟩ := Mem.inBounds_load.mp h1
      rw [← Mem.load_length hl] at h2
      obtain ⟨m', hm⟩ := Mem.store_iff.mpr h2
      refine ⟨m', ?_⟩
      unfold Mem.copyNonoverlapping
      rw [hl]
      simp only
      rw [if_pos (Mem.apart_iff.mpr h3), hm]
  · intro m' h
    unfold Mem.copyNonoverlapping at h
    split at h
    · exact nomatch h
    · rename_i l hl
      split at h
      · split at h
        · exact nomatch h
        · rename_i m1 hs
          cases h
          refine ⟨Mem.store_sizes hs, fun a i => ?_⟩
          rw [Mem.store_cell hs, Mem.load_length hl]
          split
          · rw [Mem.load_cell hl _ (by omega)]
          · rfl
      · exact nomatch h

example : InBounds sampleMem ⟨1, 0⟩ 2 ∧ InBounds sampleMem ⟨0, 1⟩ 2 ∧
    ∀ i j, i < 2 → j < 2 → ¬ ((1 : Nat) = 0 ∧ 0 + i = 1 + j) :=
  ⟨.inr ⟨_, rfl, by decide⟩, .inr ⟨_, rfl, by decide⟩, fun _ _ _ _ h => absurd h.1 (by decide)⟩

/-- C77. Why a copy is undefined: the source is looked at first, then whether the regions are apart. -/
theorem C77_copy_undefined {α : Type} (m : Mem α) (src dst : Ptr) (n : Nat) (u : Ub)
    (h : m.copyNonoverlapping src dst n = .error u) :
    (u = .overlap ∧ ∃ i j, i < n ∧ j < n ∧ src.alloc = dst.alloc ∧ src.off + i = dst.off + j) ∨
    (u = .outOfBounds ∧ (¬ InBounds m src n ∨ ¬ InBounds m dst n)) := by
  unfold Mem.copyNonoverlapping at h
  split at h
  · rename_i hl
    cases h
    refine .inr ⟨rfl, .inl fun hb => ?_⟩
    obtain ⟨l, hl'⟩ := Mem.inBounds_load.mp hb
    rw [hl] at hl'
    exact nomatch hl'
  · rename_i l hl
    split at h
    · split at h
      · rename_i hs
        cases h
        refine .inr ⟨rfl, .inr fun hb => ?_⟩
        rw [← Mem.load_length hl] at hb
        obtain ⟨m', hm⟩ := Mem.store_iff.mpr hb
        rw [hs] at hm
        exact nomatch hm
      · exact nomatch h
    · rename_i ha
      cases h
      refine .inl ⟨rfl, Classical.byContradiction fun hn => ha (Mem.apart_iff.mpr fun i j hi hj hij => ?_)⟩
      exact hn ⟨i, j, hi, hj, hij⟩

example : ∃ u, sampleMem.copyNonoverlapping ⟨0, 0⟩ ⟨0, 1⟩ 2 = .error u := ⟨_, rfl⟩

/-- C77. A slice can be looked at exactly if all its cells are there and initialised, and its elements
are what the cells have. -/
theorem C77_slice {α : Type} (m : Mem α) (p : Ptr) (n : Nat) (l : List α) :
    m.values p n = .ok l ↔ l.length = n ∧ ∀ i, i < n → cell m p.alloc (p.off + i) = some l[i]? :=
  Mem.values_iff

example : sampleMem.values ⟨0, 2⟩ 2 = .ok [3, 4] := rfl

/-- C80. `ptr.add(i).write(v)` is defined exactly if there is a cell, and changes nothing else. -/
theorem C80_write_cell {α : Type} (m : Mem α) (p : Ptr) (i : Nat) (v : α) :
    ((∃ m', m.writeAt p i v = .ok m') ↔ InBounds m p (i + 1)) ∧
    ∀ m', m.writeAt p i v = .ok m' → (∀ a, (m' a).map List.length = (m a).map List.length) ∧
      ∀ a j, cell m' a j = if a = p.alloc ∧ j = p.off + i then some (some v) else cell m a j := by
  have hb : InBounds m p (i + 1) ↔ InBounds m p i ∧ InBounds m ⟨p.alloc, p.off + i⟩ 1 := by
    constructor
    · rintro (h | ⟨c, h1, h2⟩)
      · omega
      · exact ⟨.inr ⟨c, h1, by omega⟩, .inr ⟨c, h1, by show p.off + i + 1 ≤ _; omega⟩⟩
    · rintro ⟨-, h | ⟨c, h1, h2⟩⟩
      · omega
      · exact .inr ⟨c, h1, by have : p.off + i + 1 ≤ _ := h2; omega⟩
  constructor
  · rw [hb]
    constructor
    · rintro ⟨m', h⟩
      unfold Mem.writeAt at h
      split at h
      · exact nomatch h
      · rename_i q hq
        obtain ⟨h1, rfl⟩ := Mem.add_iff.mp hq
        split at h
        · rename_i m1 hs
          exact ⟨h1, Mem.store_iff.mp ⟨m1, hs⟩⟩
        · exact nomatch h
    · rintro ⟨h1, h2⟩
      obtain ⟨m', hm⟩ := Mem.store_iff (l := [some v]) |>.mpr h2
      refine ⟨m', ?_⟩
      unfold Mem.writeAt
      rw [Mem.add_iff.mpr ⟨h1, rfl⟩]
      simp only
      rw [hm]
  · intro m' h
    unfold Mem.writeAt at h
    split at h
    · exact nomatch h
    · rename_i q hq
      obtain ⟨h1, rfl⟩ := Mem.add_iff.mp hq
      split at h
      · rename_i m1 hs
        cases h
        refine ⟨Mem.store_sizes hs, fun a j => ?_⟩
        rw [Mem.store_cell hs]
        simp only [List.length_singleton]
        by_cases hj : a = p.alloc ∧ j = p.off + i
        · rw [if_pos hj, if_pos ⟨hj.1, by omega, by omega⟩, hj.2, Nat.sub_self]
          rfl
        · rw [if_neg hj, if_neg (fun h => hj ⟨h.1, by omega⟩)]
      · exact nomatch h

example : InBounds sampleMem ⟨0, 0⟩ (3 + 1) := .inr ⟨_, rfl, by decide⟩

/-- C80. `Vec::set_len` is defined exactly if the length is within the capacity and all items are
initialised, and changes nothing else. -/
theorem C80_set_len {α : Type} (v v' : RawVec) (len : Nat) (m : Mem α) :
    v.setLen len m = .ok v' ↔ len ≤ v.cap ∧ v' = ⟨v.ptr, len, v.cap⟩ ∧
      ∀ i, i < len → ∃ x, cell m v.ptr.alloc (v.ptr.off + i) = some (some x) := by
  constructor
  · intro h
    unfold RawVec.setLen at h
    split at h
    · split at h
      · rename_i l hl
        cases h
        refine ⟨by assumption, rfl, fun i hi => ?_⟩
        obtain ⟨h1, h2⟩ := Mem.values_iff.mp hl
        refine ⟨l[i], ?_⟩
        rw [h2 i hi, List.getElem?_eq_getElem]
      · exact nomatch h
    · exact nomatch h
  · rintro ⟨h1, rfl, h2⟩
    unfold RawVec.setLen
    rw [if_pos h1]
    have : ∃ l, m.values v.ptr len = .ok l := by
      induction len with
      | zero => exact ⟨[], rfl⟩
      | succ n ih =>
        obtain ⟨l, hl⟩ := ih (by omega) (fun i hi => h2 i (by omega))
        obtain ⟨x, hx⟩ := h2 n (by omega)
        obtain ⟨hl1, hl2⟩ := Mem.values_iff.mp hl
        refine ⟨l ++ [x], Mem.values_iff.mpr ⟨by simp [hl1], fun i hi => ?_⟩⟩
        by_cases hin : i < n
        · rw [hl2 i hin, List.getElem?_append_left (by omega)]
        · have : i = n := by omega
          subst this
          rw [hx, List.getElem?_append_right (by omega), hl1, Nat.sub_self]
          rfl
    obtain ⟨l, hl⟩ := this
    rw [hl]

example : (⟨⟨0, 0⟩, 0, 4⟩ : RawVec).setLen 3 sampleMem = .ok ⟨⟨0, 0⟩, 3, 4⟩ := rfl

end Oct.Props
