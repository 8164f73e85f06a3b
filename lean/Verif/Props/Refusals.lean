import Verif.Proofs.Refuses
import Verif.Props.Samples
/-
C59, C60: what encode errors say.
-/
namespace Oct.Props
open Oct Spec
set_option linter.unusedVariables false

/-- `e` is the error `cause`, inside any number of collections, enumerations and cells. -/
inductive EncCausedBy (cause : EncErr) : EncErr → Prop
  | refl : EncCausedBy cause cause
  | badLength {e} : EncCausedBy cause e → EncCausedBy cause (.badLength e)
  | badItem {e} : EncCausedBy cause e → EncCausedBy cause (.badItem e)
  | item (i : Nat) {e} : EncCausedBy cause e → EncCausedBy cause (.item i e)
  | pair (i : Nat) {e} : EncCausedBy cause e → EncCausedBy cause (.pair i e)
  | badDiscriminant {e} : EncCausedBy cause e → EncCausedBy cause (.badDiscriminant e)
  | badField {e} : EncCausedBy cause e → EncCausedBy cause (.badField e)
  | badValue {e} : EncCausedBy cause e → EncCausedBy cause (.badValue e)

/-- C59. The generic error is determined by the cause, however deep it is, and keeps it: the number
that does not fit and whether it was signed. -/
theorem C59_causes (e : EncErr) :
    (∀ n, EncCausedBy (.usize n) e → e.toGeneric = .gLargeUsize n) ∧
    (∀ x, EncCausedBy (.isize x) e → e.toGeneric = .gLargeIsize x) ∧
    (∀ n, EncCausedBy (.gLargeUsize n) e → e.toGeneric = .gLargeUsize n) ∧
    (∀ x, EncCausedBy (.gLargeIsize x) e → e.toGeneric = .gLargeIsize x) ∧
    (EncCausedBy .badBorrow e → e.toGeneric = .badBorrow) := by
  have key : ∀ c, EncCausedBy c e → e.toGeneric = c.toGeneric := by
    intro c h
    induction h with
    | refl => rfl
    | badLength _ ih => exact ih
    | badItem _ ih => exact ih
    | item i _ ih => exact ih
    | pair i _ ih => exact ih
    | badDiscriminant _ ih => exact ih
    | badField _ ih => exact ih
    | badValue _ ih => exact ih
  exact ⟨fun n h => key _ h, fun n h => key _ h, fun n h => key _ h, fun n h => key _ h,
    fun h => key _ h⟩

/-- C59: every error has one of these causes. -/
theorem C59_complete (e : EncErr) :
    (∃ n, EncCausedBy (.usize n) e) ∨ (∃ x, EncCausedBy (.isize x) e) ∨
    (∃ n, EncCausedBy (.gLargeUsize n) e) ∨ (∃ x, EncCausedBy (.gLargeIsize x) e) ∨
    EncCausedBy .badBorrow e := by
  have lift : ∀ {e e' : EncErr}, (∀ c, EncCausedBy c e → EncCausedBy c e') →
      ((∃ n, EncCausedBy (.usize n) e) ∨ (∃ x, EncCausedBy (.isize x) e) ∨
        (∃ n, EncCausedBy (.gLargeUsize n) e) ∨ (∃ x, EncCausedBy (.gLargeIsize x) e) ∨
        EncCausedBy .badBorrow e) →
      ((∃ n, EncCausedBy (.usize n) e') ∨ (∃ x, EncCausedBy (.isize x) e') ∨
        (∃ n, EncCausedBy (.gLargeUsize n) e') ∨ (∃ x, EncCausedBy (.gLargeIsize x) e') ∨
        EncCausedBy .badBorrow e') := by
    rintro e e' hl (⟨n, h⟩ | ⟨n, h⟩ | ⟨n, h⟩ | ⟨n, h⟩ | h)
    · exact .inl ⟨n, hl _ h⟩
    · exact .inr (.inl ⟨n, hl _ h⟩)
    · exact .inr (.inr (.inl ⟨n, hl _ h⟩))
    · exact .inr (.inr (.inr (.inl ⟨n, hl _ h⟩)))
    · exact .inr (.inr (.inr (.inr (hl _ h))))
  induction e with
  | usize n => exact .inl ⟨n, .refl⟩
  | isize n => exact .inr (.inl ⟨n, .refl⟩)
  | gLargeUsize n => exact .inr (.inr (.inl ⟨n, .refl⟩))
  | gLargeIsize n => exact .inr (.inr (.inr (.inl ⟨n, .refl⟩)))
  | badBorrow => exact .inr (.inr (.inr (.inr .refl)))
  | badLength _ ih => exact lift (fun _ => .badLength) ih
  | badItem _ ih => exact lift (fun _ => .badItem) ih
  | item i _ ih => exact lift (fun _ => .item i) ih
  | pair i _ ih => exact lift (fun _ => .pair i) ih
  | badDiscriminant _ ih => exact lift (fun _ => .badDiscriminant) ih
  | badField _ ih => exact lift (fun _ => .badField) ih
  | badValue _ ih => exact lift (fun _ => .badValue) ih

/-- The length of a vector of 70000 in an array in a structure. -/
example : (EncErr.badItem (.item 3 (.badLength (.usize 70000)))).toGeneric = .gLargeUsize 70000 :=
  (C59_causes _).1 70000 (.badItem (.item 3 (.badLength .refl)))

/-- C60. Encoding gives an error exactly when the value is refused with that error and what is
written before fits, and then exactly that has been written. -/
theorem C60_refused (t : Ty) (v : t.Val) (o o' : Output) (ho : o.position ≤ o.capacity)
    (e : EncErr) :
    t.encode v o = (.err e, o') ↔
    ∃ bs, Refuses t v bs e ∧ bs.length ≤ o.remaining ∧
      o' = ⟨o.buf.take o.pos ++ bs ++ o.buf.drop (o.pos + bs.length), o.pos + bs.length⟩ := by
  obtain ⟨w, r, hm, hR⟩ := Ty.encode_refuses t v
  obtain ⟨h1, h2⟩ := hm o ho
  constructor
  · intro h
    by_cases hl : w.length ≤ o.remaining
    · rw [h1 hl] at h
      obtain ⟨hr, hp⟩ := Prod.mk.inj h
      exact ⟨w, (hR w e).mpr ⟨rfl, hr⟩, hl, hp.symm⟩
    · obtain ⟨w', _, _, hp⟩ := h2 (by omega)
      rw [hp] at h
      exact absurd (Prod.mk.inj h).1 (by simp)
  · rintro ⟨bs, hb, hl, rfl⟩
    obtain ⟨rfl, rfl⟩ := (hR bs e).mp hb
    exact h1 hl

/-- C60: a value is refused with one error only, after the same octets always, and never if it has an
encoding. -/
theorem C60_deterministic (t : Ty) (v : t.Val) :
    (∀ a b e f, Refuses t v a e → Refuses t v b f → a = b ∧ e = f) ∧
    (Encodable t v → ∀ a e, ¬ Refuses t v a e) := by
  obtain ⟨w, r, hm, hR⟩ := Ty.encode_refuses t v
  constructor
  · intro a b e f h h'
    obtain ⟨rfl, h1⟩ := (hR a e).mp h
    obtain ⟨rfl, h2⟩ := (hR b f).mp h'
    exact ⟨rfl, Res.err.inj (h1.symm.trans h2)⟩
  · intro hE a e h
    obtain ⟨rfl, h1⟩ := (hR a e).mp h
    have h2 := ((Ty.encode_encodes t v).emits hE).unique hm
    rw [h1] at h2
    exact absurd h2.2 (by simp)

/-- The third of `[usize; 3]` is refused, after two have been written. -/
example : (Ty.array .usize 3).encode ⟨[(1 : Nat), (2 : Nat), (65536 : Nat)], rfl⟩
    (Output.new [9, 9, 9, 9, 9]) = (.err (.badItem (.item 2 (.usize 65536))), ⟨[1, 0, 2, 0, 9], 4⟩) :=
  (C60_refused (.array .usize 3) _ _ _ (by decide) _).mpr
    ⟨[1, 0, 2, 0], ⟨[(1 : Nat), (2 : Nat)], (65536 : Nat), [], [], .usize 65536, rfl, by
        intro (y : Nat) hy
        have hy' : y ∈ ([1, 2] : List Nat) := hy
        have : y ≤ 65535 := by
          simp at hy'
          omega
        exact this,
      ⟨by decide, rfl, rfl⟩, rfl, rfl⟩, by decide, rfl⟩

end Oct.Props
