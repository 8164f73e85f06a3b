import Verif.Proofs.LeaksTy
import Verif.Props.Track
/-
C82, C83: exactly which types lose allocations.
-/
namespace Oct.Props
open Oct Spec
set_option linter.unusedVariables false

/-- C82, exactly: a decoding can fail with something lost if and only if the type is `Leaky`. -/
theorem C82_exactly (t : Ty) (hw : t.WF) :
    (∃ (I : Input) (n : Nat), (∀ v, (t.decode I).1 ≠ .ok v) ∧ (t.track I n).lost ≠ []) ↔ Leaky t := by
  have h := t.track_acct hw
  constructor
  · rintro ⟨I, n, hb, hl⟩
    exact (h.bad I n fun v hv => hb v ((C81_decodes t I n).1.symm.trans hv)).2 hl
  · intro hl
    obtain ⟨w, hw'⟩ := h.l hl
    refine ⟨⟨[] ++ w, 0⟩, 0, fun v hv => (hw' [] 0).1 v ((C81_decodes t _ 0).1.trans hv), (hw' [] 0).2⟩

/-- C82. The octets that a leaky type loses something with do so at the end of any input, whatever has
been allocated before. -/
theorem C82_anywhere (t : Ty) (hw : t.WF) (hl : Leaky t) :
    ∃ bs : List Byte, ∀ (pre : List Byte) (n : Nat),
      (∀ v, (t.decode ⟨pre ++ bs, pre.length⟩).1 ≠ .ok v) ∧
      ∃ a ∈ (t.track ⟨pre ++ bs, pre.length⟩ n).lost, n ≤ a ∧ a < (t.track ⟨pre ++ bs, pre.length⟩ n).next ∧
        a ∉ (t.track ⟨pre ++ bs, pre.length⟩ n).freed := by
  obtain ⟨w, h⟩ := (t.track_acct hw).l hl
  refine ⟨w, fun pre n => ⟨fun v hv => (h pre n).1 v ((C81_decodes t _ n).1.trans hv), ?_⟩⟩
  obtain ⟨a, ha⟩ := List.exists_mem_of_ne_nil _ (h pre n).2
  obtain ⟨-, h2, -⟩ := C81_balance t ⟨pre ++ w, pre.length⟩ n
  have h3 := h2 a
  have hp := List.count_pos_iff.mpr ha
  refine ⟨a, ha, ?_⟩
  by_cases hr : n ≤ a ∧ a < (t.track ⟨pre ++ w, pre.length⟩ n).next
  · refine ⟨hr.1, hr.2, fun hf => ?_⟩
    have := List.count_pos_iff.mpr hf
    rw [if_pos hr] at h3
    omega
  · rw [if_neg hr] at h3; omega

/-- C82. If a type is not leaky, then a decoding that does not succeed has freed everything that it
allocated, whatever the input is. -/
theorem C82_freed (t : Ty) (hw : t.WF) (ht : ¬ Leaky t) (I : Input) (n : Nat)
    (h : ∀ v, (t.decode I).1 ≠ .ok v) :
    ∀ a, (t.track I n).freed.count a = if n ≤ a ∧ a < (t.track I n).next then 1 else 0 := by
  intro a
  obtain ⟨h1, h2, h3⟩ := C81_balance t I n
  obtain ⟨e1, e2⟩ := h3 fun v hv => h v ((C81_decodes t I n).1 ▸ hv)
  have h4 := h2 a
  have e3 : (t.track I n).lost = [] := Classical.byContradiction fun hl =>
    ht ((C82_exactly t hw).mp ⟨I, n, h, hl⟩)
  rw [e1, e2, e3] at h4
  simpa using h4

/-- C83, exactly: something can be decoded that does not own everything that was allocated and not
freed for it, if and only if the type is `Spilling`. -/
theorem C83_exactly (t : Ty) (hw : t.WF) :
    (∃ (I : Input) (n : Nat) (v : t.Val) (a : Nat), (t.decode I).1 = .ok v ∧ n ≤ a ∧
      a < (t.track I n).next ∧ a ∉ (t.track I n).owned ∧ a ∉ (t.track I n).freed) ↔ Spilling t := by
  have h := t.track_acct hw
  constructor
  · rintro ⟨I, n, v, a, hv, h1, h2, h3, h4⟩
    refine (h.ok I n v ((C81_decodes t I n).1.trans hv)).2.2 ?_
    have hb := (C81_balance t I n).2.1 a
    rw [if_pos ⟨h1, h2⟩, List.count_eq_zero_of_not_mem h3, List.count_eq_zero_of_not_mem h4] at hb
    by_cases hk : 0 < (t.track I n).kept.count a
    · exact .inl (List.ne_nil_of_mem (List.count_pos_iff.mp hk))
    · exact .inr (List.ne_nil_of_mem (a := a) (List.count_pos_iff.mp (by omega)))
  · intro hs
    obtain ⟨w, v, hw'⟩ := h.s hs
    obtain ⟨h1, -, h2⟩ := hw' [] [] 0
    have : ∃ a, 0 < (t.track ⟨[] ++ (w ++ []), 0⟩ 0).kept.count a
        + (t.track ⟨[] ++ (w ++ []), 0⟩ 0).lost.count a := by
      rcases h2 with h2 | h2
      all_goals
        obtain ⟨a, ha⟩ := List.exists_mem_of_ne_nil _ h2
        have := List.count_pos_iff.mpr ha
        exact ⟨a, by simp only [List.length_nil] at this; omega⟩
    obtain ⟨a, ha⟩ := this
    have hb := (C81_balance t ⟨[] ++ (w ++ []), 0⟩ 0).2.1 a
    by_cases hr : 0 ≤ a ∧ a < (t.track ⟨[] ++ (w ++ []), 0⟩ 0).next
    · rw [if_pos hr] at hb
      exact ⟨⟨[] ++ (w ++ []), 0⟩, 0, v, a, (C81_decodes t _ 0).1.symm.trans h1, hr.1, hr.2,
        fun hm => by have := List.count_pos_iff.mpr hm; omega,
        fun hm => by have := List.count_pos_iff.mpr hm; omega⟩
    · rw [if_neg hr] at hb; omega

/-- C83. If a type is not spilling, then a value that has been decoded owns everything that decoding it
allocated and did not free. -/
theorem C83_owned (t : Ty) (hw : t.WF) (ht : ¬ Spilling t) (I : Input) (n : Nat) (v : t.Val)
    (h : (t.decode I).1 = .ok v) :
    ∀ a, (t.track I n).owned.count a + (t.track I n).freed.count a
      = if n ≤ a ∧ a < (t.track I n).next then 1 else 0 := by
  intro a
  have h2 := (C81_balance t I n).2.1 a
  have hs : ¬ (t.track I n).Spills := fun hs =>
    ht (((t.track_acct hw).ok I n v ((C81_decodes t I n).1.trans h)).2.2 hs)
  have e1 : (t.track I n).kept = [] := Classical.byContradiction fun h' => hs (.inl h')
  have e2 : (t.track I n).lost = [] := Classical.byContradiction fun h' => hs (.inr h')
  rw [e1, e2] at h2
  simpa using h2

/-- C83. Something can be decoded that has allocations (its own, or in the cells of a sized slice) if and
only if the type is `Owning`. -/
theorem C83_owning (t : Ty) (hw : t.WF) :
    (∃ (I : Input) (n : Nat) (v : t.Val), (t.decode I).1 = .ok v ∧
      ((t.track I n).owned ≠ [] ∨ (t.track I n).kept ≠ [] ∨ (t.track I n).lost ≠ [])) ↔ Owning t := by
  have h := t.track_acct hw
  constructor
  · rintro ⟨I, n, v, hv, ho⟩
    exact (h.ok I n v ((C81_decodes t I n).1.trans hv)).2.1 ho
  · intro ho
    obtain ⟨w, v, hw'⟩ := h.o ho
    obtain ⟨h1, -, h2⟩ := hw' [] [] 0
    exact ⟨_, 0, v, (C81_decodes t _ 0).1.symm.trans h1, h2⟩

/-- Vectors of boxes are leaky; boxes of vectors, and vectors of boxes that cannot fail, are not. -/
example : Leaky (.seq .vec boxed) ∧ ¬ Leaky (.wrap .box (.seq .vec (.num (.int .u8)))) ∧
    ¬ Leaky (.seq .vec (.wrap .box (.unit .unit))) := by
  refine ⟨.inr ⟨trivial, trivial⟩, ?_, ?_⟩
  · rintro (h | ⟨h, -⟩) <;> exact h
  · rintro (h | ⟨-, h⟩) <;> exact h

/-- A pair of a sized slice of texts and a number is leaky, since the number may be missing: the texts
are not freed. So is a map whose keys have such slices. In the other order, nothing is lost. -/
example : Leaky (.tuple (.cons (.sizedSlice (.str .string) 1) (.cons .bool .nil))) ∧
    Leaky (.hashMap (.sizedSlice (.str .string) 1) .bool) ∧
    ¬ Leaky (.tuple (.cons .bool (.cons (.sizedSlice (.str .string) 1) .nil))) := by
  refine ⟨.inr (.inr ⟨⟨by decide, trivial⟩, .inl trivial⟩),
    .inr (.inr (.inl ⟨⟨by decide, trivial⟩, trivial⟩)), ?_⟩
  rintro (h | ⟨-, (⟨-, h⟩ | ⟨h, -⟩) | ⟨-, h⟩ | ⟨-, h⟩⟩ | ⟨h, -⟩)
  · exact h
  · exact h
  · omega
  · exact h
  · exact h
  · exact h

/-- Sized slices of texts spill, and so does what has them in it. -/
example : Spilling (.seq .linkedList (.option (.sizedSlice (.str .string) 1))) ∧
    ¬ Spilling (.sizedSlice (.str .string) 0) ∧ ¬ Spilling (.seq .vec (.str .string)) ∧
    Owning (.seq .vec .bool) ∧ ¬ Owning (.array (.seq .vec .infallible) 3) :=
  ⟨⟨by decide, trivial⟩, fun h => h.1 rfl, id, trivial, fun h => h.2⟩

end Oct.Props
