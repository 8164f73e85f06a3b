import Verif.Spec.Leaks
import Verif.Spec.Accepts
/-
For which types `decode` can return an error at all, and which types lose allocations when it does.
-/
namespace Oct.Spec
open Oct

mutual

/-- Types for which `decode` can return `Err`. What is before the part that is rejected must have a value. -/
def Refusing : Ty → Prop
  | .char | .nonZero _ | .bound _ | .ipAddr | .socketAddr | .str _ | .cStr _ | .sizedStr _ => True
  | .wrap _ t => Refusing t
  | .array t n => n ≠ 0 ∧ Refusing t
  | .seq _ t => Refusing t
  | .hashMap k v => Refusing k ∨ Decodable k ∧ Refusing v
  | .hashSet k => Refusing k
  | .option t => Refusing t
  | .result t e => Refusing t ∨ Refusing e
  | .range t => Refusing t
  | .rangeInclusive t => Refusing t
  | .lock _ t => Refusing t
  | .refCell t => Refusing t
  -- Some number of seconds that fits in `i64` does not fit in the platform's clock.
  | .systemTime p => -(2 : Int) ^ 63 * nanosPerSec < p.lo ∨ p.hi < ((2 : Int) ^ 63 - 1) * nanosPerSec
  -- The length can be too great if it does not take all of its two octets to say the capacity.
  | .sizedSlice t n => n < 65535 ∨ Refusing t
  | .tuple fs => RefusingFields fs
  | .struct fs => RefusingFields fs
  -- There is an unassigned discriminant, or the fields of a variant can be rejected.
  | .enum r vs => (∃ x, ReprEncodable r x ∧ r.InRange x ∧
      ∀ j < (explicitDiscs vs).length, x ≠ discOf (explicitDiscs vs) j) ∨
      RefusingVariants r (explicitDiscs vs) vs 0
  | .num _ | .bool | .usize | .isize | .unit _ | .infallible | .duration | .ipv4 | .ipv6 | .socketAddrV4
  | .socketAddrV6 => False

/-- One of the fields, if those before have values. -/
def RefusingFields : Fields → Prop
  | .nil => False
  | .cons t fs => Refusing t ∨ Decodable t ∧ RefusingFields fs

/-- One of the variants whose discriminant can be encoded. -/
def RefusingVariants (r : Repr) (explicit : List (Option Nat)) : Variants → Nat → Prop
  | .nil, _ => False
  | .cons _ fs vs, j =>
    ReprEncodable r (discOf explicit j) ∧ RefusingFields fs ∨ RefusingVariants r explicit vs (j + 1)

end

mutual

/-- Types for which `decode` can return `Err` when something has been allocated that is not freed then: as
`Leaky`, but what fails must return an error. -/
def LeakyOnError : Ty → Prop
  | .wrap _ t => LeakyOnError t
  | .array t n => n ≠ 0 ∧ LeakyOnError t ∨ 2 ≤ n ∧ Owning t ∧ Refusing t
  | .seq .linkedList t => LeakyOnError t ∨ Spilling t ∧ Refusing t
  | .seq _ t => LeakyOnError t ∨ Owning t ∧ Refusing t
  | .hashMap k v => LeakyOnError k ∨ Decodable k ∧ LeakyOnError v ∨ Spilling k ∧ Refusing v ∨
      (Spilling k ∧ Decodable v ∨ Decodable k ∧ Spilling v) ∧ (Refusing k ∨ Refusing v)
  | .hashSet k => LeakyOnError k ∨ Spilling k ∧ Refusing k
  | .option t => LeakyOnError t
  | .result t e => LeakyOnError t ∨ LeakyOnError e
  | .bound t => LeakyOnError t
  | .range t => LeakyOnError t ∨ Spilling t ∧ Refusing t
  | .rangeInclusive t => LeakyOnError t ∨ Spilling t ∧ Refusing t
  | .lock _ t => LeakyOnError t
  | .refCell t => LeakyOnError t
  | .sizedSlice t n => n ≠ 0 ∧ LeakyOnError t ∨ 2 ≤ n ∧ Owning t ∧ Refusing t
  | .tuple fs => LeakyOnErrorFields fs
  | .struct fs => LeakyOnErrorFields fs
  | .enum r vs => LeakyOnErrorVariants r (explicitDiscs vs) vs 0
  | _ => False

/-- One of the fields; or a field behind one whose sized slices have allocations. -/
def LeakyOnErrorFields : Fields → Prop
  | .nil => False
  | .cons t fs => LeakyOnError t ∨ Decodable t ∧ LeakyOnErrorFields fs ∨ Spilling t ∧ RefusingFields fs

/-- One of the variants whose discriminant can be encoded. -/
def LeakyOnErrorVariants (r : Repr) (explicit : List (Option Nat)) : Variants → Nat → Prop
  | .nil, _ => False
  | .cons _ fs vs, j =>
    ReprEncodable r (discOf explicit j) ∧ LeakyOnErrorFields fs ∨ LeakyOnErrorVariants r explicit vs (j + 1)

end

end Oct.Spec
