import Verif.Model.Reserve
import Verif.Spec.Stops
/-
Types of which decoding can ask for a buffer that is too large. Refers to types, and to what the machine
can reserve, but not to the modelled code.
-/
namespace Oct.Spec

mutual

/-- Decoding can get to a collection whose buffer may be too large. -/
def Overflows (T : Target) : Ty → Prop
  | .wrap _ t => Overflows T t
  | .array t n => n ≠ 0 ∧ Overflows T t
  | .seq .linkedList t => Overflows T t
  | .seq .vec t => T.isizeMax < 65535 * T.size t ∨ Overflows T t
  | .seq .slice t => T.isizeMax < 65535 * T.size t ∨ Overflows T t
  | .hashMap k v =>
    (∃ n ≤ 65535, T.tableFits (T.size (.tuple (.cons k (.cons v .nil)))) n = false) ∨ Overflows T k ∨
      Decodable k ∧ Overflows T v
  | .hashSet k => (∃ n ≤ 65535, T.tableFits (T.size k) n = false) ∨ Overflows T k
  | .option t => Overflows T t
  | .result t e => Overflows T t ∨ Overflows T e
  | .bound t => Overflows T t
  | .range t => Overflows T t
  | .rangeInclusive t => Overflows T t
  | .lock _ t => Overflows T t
  | .refCell t => Overflows T t
  | .sizedSlice t n => n ≠ 0 ∧ Overflows T t
  | .tuple fs => OverflowsFields T fs
  | .struct fs => OverflowsFields T fs
  | .enum r vs => OverflowsVariants T r (explicitDiscs vs) vs 0
  | .num _ | .bool | .char | .usize | .isize | .nonZero _ | .unit _ | .infallible | .duration
  | .systemTime _ | .ipv4 | .ipv6 | .ipAddr | .socketAddrV4 | .socketAddrV6 | .socketAddr | .str _
  | .cStr _ | .sizedStr _ => False

/-- A field, if the ones before have values. -/
def OverflowsFields (T : Target) : Fields → Prop
  | .nil => False
  | .cons t fs => Overflows T t ∨ Decodable t ∧ OverflowsFields T fs

/-- The fields of one of the variants whose discriminant can be encoded. -/
def OverflowsVariants (T : Target) (r : Repr) (explicit : List (Option Nat)) : Variants → Nat → Prop
  | .nil, _ => False
  | .cons _ fs vs, j =>
    ReprEncodable r (discOf explicit j) ∧ OverflowsFields T fs ∨
      OverflowsVariants T r explicit vs (j + 1)

end

/-- The largest collection of this type fits. -/
def Roomy (T : Target) : Ty → Prop
  | .seq .vec t | .seq .slice t => 65535 * T.size t ≤ T.isizeMax
  | .hashMap k v => ∀ n ≤ 65535, T.tableFits (T.size (.tuple (.cons k (.cons v .nil)))) n = true
  | .hashSet k => ∀ n ≤ 65535, T.tableFits (T.size k) n = true
  | _ => True

end Oct.Spec
