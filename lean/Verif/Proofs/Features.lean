import Verif.Spec.Features
/-
Statements on all configurations, from statements on the lists alone.
-/
namespace Oct
open Spec

theorem uses_resolve : ∀ p a8 a16 a32 a64 ap : Bool, ∀ u ∈ condUses,
    u.cond.holds ⟨true, true, p, a8, a16, a32, a64, ap⟩ = true →
      u.name.stands.holds ⟨true, true, p, a8, a16, a32, a64, ap⟩ = true := by
  decide +kernel

/-- A use whose name stands under the same condition, or under a part of it, always resolves. -/
def CondUse.evident (u : CondUse) : Bool :=
  u.name.stands == .always || u.name.stands == u.cond ||
    match u.cond with
    | .both a b => u.name.stands == a || u.name.stands == b
    | _ => false

theorem CondUse.resolves_of_evident {u : CondUse} (h : u.evident = true) : AlwaysResolves u := by
  intro c hc
  unfold CondUse.evident at h
  simp only [Bool.or_eq_true, beq_iff_eq] at h
  rcases h with (h | h) | h
  · rw [h]; rfl
  · rw [h]; exact hc
  · split at h
    · rename_i a b hab
      rw [hab] at hc
      simp only [Cond.holds, Bool.and_eq_true] at hc
      simp only [Bool.or_eq_true, beq_iff_eq] at h
      rcases h with h | h
      · rw [h]; exact hc.1
      · rw [h]; exact hc.2
    · exact absurd h (by simp)

/-- All atomics, but no feature. -/
def bare : Config := ⟨false, false, false, true, true, true, true, true⟩

/-- `alloc` alone. -/
def allocOnly : Config := { bare with alloc := true }

/-- `std` alone. -/
def stdOnly : Config := { bare with std := true }

theorem uses_fail : ∀ u ∈ condUses, u.evident = false →
    (u.cond.holds bare = true ∧ u.name.stands.holds bare = false) ∨
    (u.cond.holds allocOnly = true ∧ u.name.stands.holds allocOnly = false) ∨
    (u.cond.holds stdOnly = true ∧ u.name.stands.holds stdOnly = false) := by
  decide +kernel

/-- If each impl of `s` for one of the types has an impl of `t` under the same condition, then each
of the types that implements `s` implements `t`. -/
theorem implemented_of {s t : CondTrait} {p : ImplHead → Prop}
    (h : ∀ i ∈ condImpls, i.trait = s → p i.head →
      ∃ j ∈ condImpls, j.trait = t ∧ j.head = i.head ∧ j.cond = i.cond)
    {c : Config} {d : ImplHead} (hd : p d) (hi : Implemented c s d) : Implemented c t d := by
  obtain ⟨i, hm, hs, rfl, hc⟩ := hi
  obtain ⟨j, hj, ht, hh, he⟩ := h i hm hs hd
  exact ⟨j, hj, ht, hh, by rw [he]; exact hc⟩

end Oct
