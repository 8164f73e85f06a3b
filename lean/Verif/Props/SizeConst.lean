import Verif.Proofs.SizeConst
/-
C118: whether `MAX_ENCODED_SIZE` can be computed.
-/
namespace Oct.Props
open Oct Spec
set_option linter.unusedVariables false

/-- C118 (part). On a target with `w` bits, `MAX_ENCODED_SIZE` is computed without an overflow exactly
if all constants that it is computed from are in the range of `usize`, and then has the value without
overflow. Missing: that it always can be computed, see `C118_false`. -/
theorem C118_computed_partial (w : Nat) (hw : 16 ≤ w) (sizeOf : Ty → Nat) (t : Ty) (n : Nat) :
    t.sizeConst w sizeOf = some n ↔
      n = t.maxSize sizeOf ∧ ∀ u, SizeReads t u → u.maxSize sizeOf < 2 ^ w := by
  rcases Ty.sizeConst_computed w hw sizeOf t with ⟨h, hc, hm⟩ | ⟨h, hc⟩
  · rw [h]
    exact ⟨fun k => ⟨(Option.some.inj k).symm, hc⟩, fun k => k.1 ▸ rfl⟩
  · rw [h]
    exact ⟨nofun, fun k => absurd k.2 hc⟩

/-- An array of `2^(w-2)` octets, which is no larger in memory than half of what there is. -/
abbrev quarterTy (w : Nat) : Ty := .wrap .box (.array (.num (.int .u8)) (2 ^ (w - 2)))

/-- Four boxes of such arrays. -/
abbrev fourBoxesTy (w : Nat) : Ty :=
  .tuple (.cons (quarterTy w) (.cons (quarterTy w) (.cons (quarterTy w) (.cons (quarterTy w) .nil))))

example (s : Ty → Nat) : (Ty.range (.sizedStr 14)).sizeConst 16 s = some 32 := by
  simp [Ty.sizeConst, constAdd, constMul]

/-- C118 is false on every target: the constant of a tuple of four boxes overflows, though the constants
of its parts do not. -/
theorem C118_false (w : Nat) (hw : 16 ≤ w) (sizeOf : Ty → Nat) :
    (fourBoxesTy w).HasSized ∧ (quarterTy w).sizeConst w sizeOf = some (2 ^ (w - 2)) ∧
    (fourBoxesTy w).sizeConst w sizeOf = none := by
  have e : 2 ^ w = 2 ^ (w - 2) * 4 := by
    rw [show 4 = 2 ^ 2 from rfl, ← Nat.pow_add, show w - 2 + 2 = w by omega]
  have hpos : 0 < 2 ^ (w - 2) := Nat.two_pow_pos _
  have hm : (quarterTy w).maxSize sizeOf = 2 ^ (w - 2) := by
    simp [Ty.maxSize, NumKind.bytes, IntKind.bytes]
  have hq : (quarterTy w).sizeConst w sizeOf = some (2 ^ (w - 2)) := by
    refine (C118_computed_partial w hw sizeOf _ _).2 ⟨hm.symm, fun u hu => ?_⟩
    cases hu with
    | self => rw [hm]; omega
    | wrap _ _ _ hu =>
      cases hu with
      | self => rw [Ty.maxSize] at hm; rw [hm]; omega
      | array _ _ _ hu =>
        cases hu
        exact small_lt hw (by simp [Ty.maxSize, NumKind.bytes, IntKind.bytes])
  refine ⟨⟨trivial, trivial, trivial, trivial, trivial⟩, hq, ?_⟩
  cases h : (fourBoxesTy w).sizeConst w sizeOf with
  | none => rfl
  | some n =>
    have := ((C118_computed_partial w hw sizeOf _ _).1 h).2 _ (.self _)
    rw [Ty.maxSize, Fields.maxSize, Fields.maxSize, Fields.maxSize, Fields.maxSize, Fields.maxSize,
      hm] at this
    omega

/-- C118 (part). A type whose constant is computed leaves those of its parts to be computed as well, so
that there is no type that can be used whose parts cannot. Missing: as above; and the parts of a
`Result`, whose constants are not read. -/
theorem C118_parts_partial (w : Nat) (hw : 16 ≤ w) (sizeOf : Ty → Nat) (t u : Ty) (n : Nat)
    (h : t.sizeConst w sizeOf = some n) (hu : SizeReads t u) :
    u.sizeConst w sizeOf = some (u.maxSize sizeOf) :=
  (C118_computed_partial w hw sizeOf u _).2
    ⟨rfl, fun x hx => ((C118_computed_partial w hw sizeOf t n).1 h).2 x (hu.trans hx)⟩

example (s : Ty → Nat) : (Ty.range (.sizedStr 14)).sizeConst 16 s = some 32 ∧
    SizeReads (.range (.sizedStr 14)) (.sizedStr 14) :=
  ⟨by simp [Ty.sizeConst, constAdd, constMul], .range _ _ (.self _)⟩

end Oct.Props
