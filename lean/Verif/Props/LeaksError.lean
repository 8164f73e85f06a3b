import Verif.Proofs.LeaksError
import Verif.Props.Track
/-
C53, C82: for which types `decode` can return an error, and which types lose allocations then.
-/
namespace Oct.Props
open Oct Spec
set_option linter.unusedVariables false

/-- C53. There are octets for which `decode` returns an error if and only if the type is `Refusing`. -/
theorem C53_possible (t : Ty) (hw : t.WF) :
    (∃ (I : Input) (e : DecErr), (t.decode I).1 = .err e) ↔ Refusing t := by
  have h := t.err_acct hw
  constructor
  · rintro ⟨I, e, he⟩
    exact (h.up I 0 ⟨e, (C81_decodes t I 0).1.trans he⟩).1
  · intro hr
    obtain ⟨w, hw'⟩ := h.e hr
    obtain ⟨e, he⟩ := (hw' [] [] 0).1
    exact ⟨_, e, (C81_decodes t _ 0).1.symm.trans he⟩

/-- C53. For types that are not `Refusing`, a decoding has a value, or it panics, or its behaviour is
undefined; the error type of the type might as well have no values. -/
theorem C53_impossible (t : Ty) (hw : t.WF) (ht : ¬ Refusing t) (I : Input) :
    (∃ v, (t.decode I).1 = .ok v) ∨ (∃ p, (t.decode I).1 = .panic p) ∨ ∃ u, (t.decode I).1 = .ub u := by
  cases h : (t.decode I).1 with
  | ok v => exact .inl ⟨v, rfl⟩
  | err e => exact absurd ((C53_possible t hw).mp ⟨I, e, h⟩) ht
  | panic p => exact .inr (.inl ⟨p, rfl⟩)
  | ub u => exact .inr (.inr ⟨u, rfl⟩)

/-- C82, exactly, for errors: `decode` can return an error with something lost if and only if the type is
`LeakyOnError`. -/
theorem C82_error_exactly (t : Ty) (hw : t.WF) :
    (∃ (I : Input) (n : Nat) (e : DecErr), (t.decode I).1 = .err e ∧ (t.track I n).lost ≠ []) ↔
      LeakyOnError t := by
  have h := t.err_acct hw
  constructor
  · rintro ⟨I, n, e, he, hl⟩
    exact (h.up I n ⟨e, (C81_decodes t I n).1.trans he⟩).2 hl
  · intro hl
    obtain ⟨w, hw'⟩ := h.l hl
    obtain ⟨⟨e, he⟩, h2⟩ := hw' [] [] 0
    exact ⟨_, 0, e, (C81_decodes t _ 0).1.symm.trans he, h2⟩

/-- C82. The octets that such a type loses something with do so wherever they are in an input, whatever
comes after them, and whatever has been allocated before. -/
theorem C82_error_anywhere (t : Ty) (hw : t.WF) (hl : LeakyOnError t) :
    ∃ bs : List Byte, ∀ (pre rest : List Byte) (n : Nat),
      (∃ e, (t.decode ⟨pre ++ bs ++ rest, pre.length⟩).1 = .err e) ∧
      ∃ a ∈ (t.track ⟨pre ++ bs ++ rest, pre.length⟩ n).lost, n ≤ a ∧
        a < (t.track ⟨pre ++ bs ++ rest, pre.length⟩ n).next ∧
        a ∉ (t.track ⟨pre ++ bs ++ rest, pre.length⟩ n).freed := by
  obtain ⟨w, h⟩ := (t.err_acct hw).l hl
  refine ⟨w, fun pre rest n => ?_⟩
  have h := h pre rest n
  rw [← List.append_assoc] at h
  obtain ⟨⟨e, he⟩, h2⟩ := h
  refine ⟨⟨e, (C81_decodes t _ n).1.symm.trans he⟩, ?_⟩
  obtain ⟨a, ha⟩ := List.exists_mem_of_ne_nil _ h2
  have h3 := (C81_balance t ⟨pre ++ w ++ rest, pre.length⟩ n).2.1 a
  have hp := List.count_pos_iff.mpr ha
  refine ⟨a, ha, ?_⟩
  by_cases hr : n ≤ a ∧ a < (t.track ⟨pre ++ w ++ rest, pre.length⟩ n).next
  · refine ⟨hr.1, hr.2, fun hf => ?_⟩
    have := List.count_pos_iff.mpr hf
    rw [if_pos hr] at h3
    omega
  · rw [if_neg hr] at h3; omega

/-- C82. If a type is not `LeakyOnError`, then `decode` has freed everything that it allocated when it
returns an error, whatever the input is. -/
theorem C82_error_freed (t : Ty) (hw : t.WF) (ht : ¬ LeakyOnError t) (I : Input) (n : Nat) (e : DecErr)
    (h : (t.decode I).1 = .err e) :
    ∀ a, (t.track I n).freed.count a = if n ≤ a ∧ a < (t.track I n).next then 1 else 0 := by
  intro a
  obtain ⟨h1, h2, h3⟩ := C81_balance t I n
  obtain ⟨e1, e2⟩ := h3 fun v hv => by
    rw [(C81_decodes t I n).1, h] at hv; cases hv
  have h4 := h2 a
  have e3 : (t.track I n).lost = [] := Classical.byContradiction fun hl =>
    ht ((C82_error_exactly t hw).mp ⟨I, n, e, h, hl⟩)
  rw [e1, e2, e3] at h4
  simpa using h4

/-- Texts, and pairs with a sized slice behind a number, can be rejected; numbers and vectors of them cannot,
nor can sized slices of the greatest capacity, nor what is behind a part that has no values. -/
example : Refusing (.str .string) ∧ Refusing (.tuple (.cons .bool (.cons (.sizedSlice .bool 4) .nil))) ∧
    ¬ Refusing (.seq .vec (.num (.int .u8))) ∧ ¬ Refusing (.sizedSlice .bool 65535) ∧
    ¬ Refusing (.tuple (.cons .infallible (.cons .char .nil))) := by
  refine ⟨trivial, .inr ⟨trivial, .inl (.inl (by decide))⟩, id, ?_, ?_⟩
  · rintro (h | h)
    · omega
    · exact h
  · rintro (h | ⟨h, -⟩) <;> exact h

/-- An enumeration of one variant can be rejected, since there are other discriminants. -/
example : Refusing (.enum (.int .u8) (.cons none .nil .nil)) :=
  .inl ⟨1, trivial, by decide, fun j hj => by
    obtain rfl : j = 0 := Nat.lt_one_iff.mp hj
    decide⟩

/-- Vectors of boxes of characters lose boxes when a later character is rejected. Vectors of boxes of numbers
lose boxes only when the input ends, which is a panic. -/
example : LeakyOnError (.seq .vec (.wrap .box .char)) ∧ ¬ LeakyOnError (.seq .vec (.wrap .box (.num (.int .u8)))) ∧
    Leaky (.seq .vec (.wrap .box (.num (.int .u8)))) := by
  refine ⟨.inr ⟨trivial, trivial⟩, ?_, .inr ⟨trivial, trivial⟩⟩
  rintro (h | ⟨-, h⟩) <;> exact h

end Oct.Props
