import Verif.Proofs.KeptRun
/-
Two programs that own a slot, of which each of the two models of aliasing allows one.
-/
namespace Oct.Alias
open Spec

/-- Writes by the pointer of `as_mut_ptr`, and again after `as_slice`. -/
def rewrites (i : Nat) : List SlotCall := [.asMutPtr, .set 0 i, .asSlice, .set 0 i]

/-- Looks at what `as_slice` returned after `as_mut_slice`. -/
def relooks (i : Nat) : List SlotCall := [.asSlice, .asMutSlice, .get 0 i]

theorem rewrites_events (p : Place) (d n i : Nat) : slotEvents p d (Owner.new n) (rewrites i) =
    [.retag .excl 0 2 p.head, .read 2 p.head, .retag .excl 0 3 p.buf, .retag .raw 3 4 p.buf, .write 4 ⟨p.at_ + i, 1⟩,
      .retag .shared 0 5 p.head, .retag .shared 5 6 p.head, .read 6 p.head, .retag .shared 0 7 p.buf,
      .retag .shared 7 8 p.buf, .retag .shared 5 9 p.head, .read 9 p.head, .retag .shared 8 10 (p.items n),
      .write 4 ⟨p.at_ + i, 1⟩] := rfl

theorem relooks_events (p : Place) (d n i : Nat) : slotEvents p d (Owner.new n) (relooks i) =
    [.retag .shared 0 2 p.head, .retag .shared 2 3 p.head, .read 3 p.head, .retag .shared 0 4 p.buf, .retag .shared 4 5 p.buf,
      .retag .shared 2 6 p.head, .read 6 p.head, .retag .shared 5 7 (p.items n), .retag .excl 0 8 p.head,
      .retag .excl 8 9 p.head, .read 9 p.head, .retag .excl 0 10 p.buf, .retag .raw 10 11 p.buf, .retag .shared 8 12 p.head,
      .read 12 p.head, .retag .shared 0 13 p.buf, .retag .excl 11 14 p.buf, .read 7 ⟨p.at_ + i, 1⟩] := rfl

/-- Where a location is. -/
theorem locations (p : Place) {n i : Nat} (hn : n ≤ p.cap) (hi : i < n) (l : Nat) :
    p.whole.has l = (p.buf.has l || p.head.has l) ∧ (p.buf.has l && p.head.has l) = false ∧
    ((p.items n).has l = true → p.buf.has l = true) ∧ ((⟨p.at_ + i, 1⟩ : Region).has l = true → (p.items n).has l = true) := by
  have e (a b : Bool) : (a = b) ↔ (a = true ↔ b = true) := by cases a <;> cases b <;> simp
  refine ⟨?_, ?_, ?_, ?_⟩
  · rw [e, Bool.or_eq_true, has_iff, has_iff, has_iff]
    show (p.at_ ≤ l ∧ l < p.at_ + (p.cap + 1)) ↔ (p.at_ ≤ l ∧ l < p.at_ + p.cap) ∨ (p.at_ + p.cap ≤ l ∧ l < p.at_ + p.cap + 1)
    omega
  · rw [← Bool.not_eq_true, Bool.and_eq_true, has_iff, has_iff]
    show ¬ ((p.at_ ≤ l ∧ l < p.at_ + p.cap) ∧ (p.at_ + p.cap ≤ l ∧ l < p.at_ + p.cap + 1))
    omega
  · rw [has_iff, has_iff]
    show (p.at_ ≤ l ∧ l < p.at_ + n) → (p.at_ ≤ l ∧ l < p.at_ + p.cap)
    omega
  · rw [has_iff, has_iff]
    show (p.at_ + i ≤ l ∧ l < p.at_ + i + 1) → (p.at_ ≤ l ∧ l < p.at_ + n)
    omega

theorem rewrites_stacked (p : Place) (d : Nat) {n i : Nat} (hn : n ≤ p.cap) (hi : i < n) :
    Defined Stacked p (slotEvents p d (Owner.new n) (rewrites i)) := fun l => by
  rw [rewrites_events]
  obtain ⟨h1, h2, h3, h4⟩ := locations p hn hi l
  simp only [runAt, Event.act]
  rw [h1]
  generalize p.buf.has l = B at *
  generalize p.head.has l = H at *
  generalize (p.items n).has l = N at *
  generalize (⟨p.at_ + i, 1⟩ : Region).has l = I at *
  cases B <;> cases H <;> cases N <;> cases I <;> first
    | exact ⟨_, rfl⟩
    | exact absurd h2 (by decide)
    | exact absurd (h3 rfl) (by decide)
    | exact absurd (h4 rfl) (by decide)

theorem rewrites_tree (p : Place) (d : Nat) {n i : Nat} (hn : n ≤ p.cap) (hi : i < n) :
    ¬ Defined Tree p (slotEvents p d (Owner.new n) (rewrites i)) := fun h => by
  obtain ⟨s, h⟩ := h (p.at_ + i)
  rw [rewrites_events] at h
  obtain ⟨h1, h2, h3, h4⟩ := locations p hn hi (p.at_ + i)
  have hI : (⟨p.at_ + i, 1⟩ : Region).has (p.at_ + i) = true := one_has _
  have hN := h4 hI
  have hB := h3 hN
  rw [hB, Bool.true_and] at h2
  simp only [runAt, Event.act, h1, h2, hB, hN, hI] at h
  cases h

theorem relooks_tree (p : Place) (d : Nat) {n i : Nat} (hn : n ≤ p.cap) (hi : i < n) :
    Defined Tree p (slotEvents p d (Owner.new n) (relooks i)) := fun l => by
  rw [relooks_events]
  obtain ⟨h1, h2, h3, h4⟩ := locations p hn hi l
  simp only [runAt, Event.act]
  rw [h1]
  generalize p.buf.has l = B at *
  generalize p.head.has l = H at *
  generalize (p.items n).has l = N at *
  generalize (⟨p.at_ + i, 1⟩ : Region).has l = I at *
  cases B <;> cases H <;> cases N <;> cases I <;> first
    | exact ⟨_, rfl⟩
    | exact absurd h2 (by decide)
    | exact absurd (h3 rfl) (by decide)
    | exact absurd (h4 rfl) (by decide)

theorem relooks_stacked (p : Place) (d : Nat) {n i : Nat} (hn : n ≤ p.cap) (hi : i < n) :
    ¬ Defined Stacked p (slotEvents p d (Owner.new n) (relooks i)) := fun h => by
  obtain ⟨s, h⟩ := h (p.at_ + i)
  rw [relooks_events] at h
  obtain ⟨h1, h2, h3, h4⟩ := locations p hn hi (p.at_ + i)
  have hI : (⟨p.at_ + i, 1⟩ : Region).has (p.at_ + i) = true := one_has _
  have hN := h4 hI
  have hB := h3 hN
  rw [hB, Bool.true_and] at h2
  simp only [runAt, Event.act, h1, h2, hB, hN, hI] at h
  cases h

end Oct.Alias
