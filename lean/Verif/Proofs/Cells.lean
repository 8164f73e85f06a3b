import Verif.Proofs.Memory
import Verif.Model.BuildMemory
/- Memory cell by cell. -/
namespace Oct
open Spec

namespace Mem
variable {α : Type}

theorem inBounds_load {m : Mem α} {p : Ptr} {n : Nat} : InBounds m p n ↔ ∃ l, m.load p n = some l := by
  by_cases hn : n = 0
  · subst hn; exact ⟨fun _ => ⟨[], rfl⟩, fun _ => .inl rfl⟩
  · constructor
    · rintro (h | ⟨c, h1, h2⟩)
      · exact absurd h hn
      · exact ⟨_, (load_some hn).mpr ⟨c, h1, h2, rfl⟩⟩
    · rintro ⟨l, h⟩
      obtain ⟨c, h1, h2, -⟩ := (load_some hn).mp h
      exact .inr ⟨c, h1, h2⟩

theorem load_cell {m : Mem α} {p : Ptr} {n : Nat} {l : List (Option α)} (h : m.load p n = some l) (i : Nat)
    (hi : i < n) : cell m p.alloc (p.off + i) = l[i]? := by
  obtain ⟨c, h1, h2, rfl⟩ := (load_some (show n ≠ 0 by omega)).mp h
  rw [List.getElem?_take, if_pos hi, List.getElem?_drop, cell, h1]
  rfl

theorem add_iff {m : Mem α} {p q : Ptr} {n : Nat} :
    m.add p n = .ok q ↔ InBounds m p n ∧ q = ⟨p.alloc, p.off + n⟩ := by
  constructor
  · intro h
    unfold add at h
    split at h
    · rename_i hn
      subst hn
      exact ⟨.inl rfl, by cases h; rfl⟩
    · split at h
      · exact nomatch h
      · rename_i c hc
        split at h
        · exact ⟨.inr ⟨c, hc, by assumption⟩, by cases h; rfl⟩
        · exact nomatch h
  · rintro ⟨h, rfl⟩
    obtain ⟨l, hl⟩ := inBounds_load.mp h
    exact add_ok hl n (Nat.le_refl n)

theorem add_error {m : Mem α} {p : Ptr} {n : Nat} {u : Ub} :
    m.add p n = .error u ↔ ¬ InBounds m p n ∧ u = .outOfBounds := by
  constructor
  · intro h
    refine ⟨fun hb => ?_, ?_⟩
    · rw [add_iff.mpr ⟨hb, rfl⟩] at h
      exact nomatch h
    · unfold add at h
      split at h
      · exact nomatch h
      · split at h
        · cases h; rfl
        · split at h
          · exact nomatch h
          · cases h; rfl
  · rintro ⟨h, rfl⟩
    unfold add
    split
    · exact absurd (.inl (by assumption)) h
    · cases hc : m p.alloc with
      | none => rfl
      | some c =>
        simp only
        split
        · exact absurd (.inr ⟨c, hc, by assumption⟩) h
        · rfl

theorem apart_iff {p q : Ptr} {n : Nat} :
    Apart p n q n ↔ ∀ i j, i < n → j < n → ¬ (p.alloc = q.alloc ∧ p.off + i = q.off + j) := by
  constructor
  · rintro (h | h | h | h | h) i j hi hj ⟨e1, e2⟩
    · omega
    · omega
    · exact h e1
    · omega
    · omega
  · intro h
    by_cases hn : n = 0
    · exact .inl hn
    · by_cases ha : p.alloc = q.alloc
      · by_cases h1 : p.off + n ≤ q.off
        · exact .inr (.inr (.inr (.inl h1)))
        · by_cases h2 : q.off + n ≤ p.off
          · exact .inr (.inr (.inr (.inr h2)))
          · by_cases h3 : p.off ≤ q.off
            · exact absurd ⟨ha, by omega⟩ (h (q.off - p.off) 0 (by omega) (by omega))
            · exact absurd ⟨ha, by omega⟩ (h 0 (p.off - q.off) (by omega) (by omega))
      · exact .inr (.inr (.inl ha))

theorem store_iff {m : Mem α} {p : Ptr} {l : List (Option α)} :
    (∃ m', m.store p l = some m') ↔ InBounds m p l.length := by
  constructor
  · rintro ⟨m', h⟩
    unfold store at h
    split at h
    · exact .inl (by simp [*])
    · split at h
      · exact nomatch h
      · rename_i c hc
        split at h
        · exact .inr ⟨c, hc, by assumption⟩
        · exact nomatch h
  · intro h
    obtain ⟨l0, hl⟩ := inBounds_load.mp h
    obtain ⟨m', h', -⟩ := store_ok hl 0 l (by omega)
    exact ⟨m', h'⟩

theorem store_cell {m m' : Mem α} {p : Ptr} {l : List (Option α)} (h : m.store p l = some m')
    (a i : Nat) : cell m' a i = if a = p.alloc ∧ p.off ≤ i ∧ i < p.off + l.length then l[i - p.off]?
      else cell m a i := by
  unfold store at h
  split at h
  · rename_i hl
    subst hl
    cases h
    rw [if_neg (by simp)]
  · split at h
    · exact nomatch h
    · rename_i c hc
      split at h
      · rename_i hb
        have h := (Option.some.inj h).symm
        subst h
        by_cases ha : a = p.alloc
        · subst ha
          simp only [cell, if_true, hc, Option.bind_some, List.getElem?_append, List.getElem?_take,
            List.getElem?_drop, List.length_append, List.length_take]
          have e1 : min p.off c.length = p.off := by omega
          rw [e1]
          by_cases h1 : i < p.off
          · rw [if_pos (by omega), if_pos h1, if_pos h1, if_neg (by omega)]
          · by_cases h2 : i < p.off + l.length
            · rw [if_pos h2, if_neg h1, if_pos ⟨trivial, by omega, h2⟩]
            · rw [if_neg h2, if_neg (by omega)]
              congr 1
              omega
        · rw [if_neg (fun h => ha h.1)]
          simp only [cell, if_neg ha]
      · exact nomatch h

theorem store_sizes {m m' : Mem α} {p : Ptr} {l : List (Option α)} (h : m.store p l = some m') (a : Nat) :
    (m' a).map List.length = (m a).map List.length := by
  obtain ⟨l0, hl⟩ := inBounds_load.mp (store_iff.mp ⟨m', h⟩)
  obtain ⟨m1, h1, -, h2⟩ := store_ok hl 0 l (by omega)
  have e : m.store p l = some m1 := h1
  rw [h] at e
  cases e
  exact h2.1 a

theorem values_iff {m : Mem α} {p : Ptr} {n : Nat} {l : List α} :
    m.values p n = .ok l ↔ l.length = n ∧ ∀ i, i < n → cell m p.alloc (p.off + i) = some l[i]? := by
  constructor
  · intro h
    unfold values at h
    split at h
    · exact nomatch h
    · rename_i l0 hl
      split at h
      · rename_i vs hv
        cases h
        rw [initAll_eq_some] at hv
        subst hv
        refine ⟨by simpa using load_length hl, fun i hi => ?_⟩
        rw [load_cell hl i hi, List.getElem?_map]
        have := load_length hl
        rw [List.length_map] at this
        rw [List.getElem?_eq_getElem (by omega)]
        rfl
      · exact nomatch h
  · rintro ⟨hl, h⟩
    apply values_of_load
    by_cases hn : n = 0
    · subst hn
      rw [List.eq_nil_of_length_eq_zero hl]
      rfl
    · have hlast := h (n - 1) (by omega)
      cases hc : m p.alloc with
      | none => rw [cell, hc] at hlast; exact nomatch hlast
      | some c =>
        have hb : p.off + n ≤ c.length := by
          rw [cell, hc, Option.bind_some] at hlast
          have := (List.getElem?_eq_some_iff.mp hlast).1
          omega
        refine (load_some hn).mpr ⟨c, hc, hb, ?_⟩
        apply List.ext_getElem?
        intro i
        rw [List.getElem?_map, List.getElem?_take, List.getElem?_drop]
        by_cases hi : i < n
        · rw [if_pos hi]
          have := h i hi
          rw [cell, hc, Option.bind_some] at this
          rw [this, List.getElem?_eq_getElem (by omega)]
          rfl
        · rw [if_neg hi, List.getElem?_eq_none (by omega)]
          rfl

end Mem

end Oct
