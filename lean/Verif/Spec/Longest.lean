import Verif.Model.SizedEncode
import Verif.Spec.Format
import Verif.Spec.RoundTrip
/-
The length of the longest encoding of a type, from the format alone.
-/
namespace Oct.Spec

/-- The larger of two lengths, of which either may be missing. -/
def larger : Option Nat → Option Nat → Option Nat
  | none, b => b
  | some a, none => some a
  | some a, some b => some (max a b)

/-- The sum of two lengths, if there are both. -/
def both : Option Nat → Option Nat → Option Nat
  | some a, some b => some (a + b)
  | _, _ => none

mutual

/-- How many octets the longest encoding of a type has; `none` if there is no encoding. Types
without `SizedEncode` are left out. -/
def longest : Ty → Option Nat
  | .num k => some k.bytes
  | .bool => some 1
  | .char => some 4
  | .usize => some 2
  | .isize => some 2
  | .nonZero r => some r.bytes
  | .unit _ => some 0
  | .infallible => none
  | .wrap _ t => longest t
  | .array t n => if n = 0 then some 0 else (longest t).map (· * n)
  | .seq _ _ => none
  | .hashMap _ _ => none
  | .hashSet _ => none
  | .option t => some (1 + (longest t).getD 0)
  | .result t e => (larger (longest t) (longest e)).map (1 + ·)
  | .bound t => some (1 + (longest t).getD 0)
  | .range t => (longest t).map (2 * ·)
  | .rangeInclusive t => (longest t).map (2 * ·)
  | .lock _ t => longest t
  | .refCell t => longest t
  | .duration => some 12
  | .systemTime _ => some 8
  | .ipv4 => some 4
  | .ipv6 => some 16
  | .ipAddr => some 17
  | .socketAddrV4 => some 6
  | .socketAddrV6 => some 26
  | .socketAddr => some 27
  | .str _ => none
  | .cStr _ => none
  | .sizedStr n => some (2 + min n 65535)
  | .sizedSlice t n => some (2 + (longest t).getD 0 * min n 65535)
  | .tuple fs => longestFields fs
  | .struct fs => longestFields fs
  | .enum r vs => longestVariants r (explicitDiscs vs) vs 0

/-- See `longest`. -/
def longestFields : Fields → Option Nat
  | .nil => some 0
  | .cons t fs => both (longest t) (longestFields fs)

/-- See `longest`; `j` is the number of the first variant. -/
def longestVariants (r : Repr) (explicit : List (Option Nat)) : Variants → (j : Nat) → Option Nat
  | .nil, _ => none
  | .cons _ fs vs, j =>
    larger
      (if ReprEncodable r (discOf explicit j) then (longestFields fs).map (r.bytes + ·) else none)
      (longestVariants r explicit vs (j + 1))

end

/-- Among the values that have an encoding, the longest encoding has this length; or there are no
such values. -/
def IsLongest {α : Type} (encodable : α → Prop) (w : α → List UInt8) : Option Nat → Prop
  | none => ∀ v, ¬ encodable v
  | some n => (∃ v, encodable v ∧ (w v).length = n) ∧ ∀ v, encodable v → (w v).length ≤ n

/-- The types on which the declared maximum is attained: not a `Result` (`size_of` is used) and not a
sized slice (the length is left out); with values that have encodings; no text beyond 65535
octets. -/
def Attained : Ty → Prop
  | .result _ _ => False
  | .sizedSlice _ _ => False
  | .infallible => False
  | .sizedStr n => n ≤ 65535
  | .enum r vs => vs ≠ .nil ∧ ∀ j, j < (explicitDiscs vs).length →
      ReprEncodable r (discOf (explicitDiscs vs) j)
  | _ => True

end Oct.Spec
