import Verif.Model.SizedEncode
import Verif.Spec.RoundTrip
/-
Sizes: where the declared maximum is right, what it ought to be, and the types of fixed size.
-/
namespace Oct.Spec

/-- The types on which the declared maximum is right: not a sized slice (its length prefix is not
counted), and a `Result` only if `size_of` (which is used in place of the maxima of the members)
happens to be large enough. -/
def SizeOk (sizeOf : Ty → Nat) : Ty → Prop
  | .result t e => t.maxSize sizeOf ≤ max (sizeOf t) (sizeOf e) ∧
      e.maxSize sizeOf ≤ max (sizeOf t) (sizeOf e)
  | .sizedSlice _ _ => False
  | _ => True

/-- In addition to `SizeOk`: no enumeration without variants (its maximum is zero, but decoding it
reads the discriminant) and, if failing outcomes count (`all`), no sized string (a sized string reads
its text before comparing the length with the capacity). -/
def DecodeSizeOk (sizeOf : Ty → Nat) (all : Bool) (t : Ty) : Prop :=
  SizeOk sizeOf t ∧
    match t with
    | .sizedStr _ => all = false
    | .enum _ vs => vs ≠ .nil
    | _ => True

mutual

/-- An upper bound on the length of the encodings of a type with `SizedEncode`, from the format
alone. -/
def sizeBound : Ty → Nat
  | .num k => k.bytes
  | .bool => 1
  | .char => 4
  | .usize => 2
  | .isize => 2
  | .nonZero r => r.bytes
  | .unit _ => 0
  | .infallible => 0
  | .wrap _ t => sizeBound t
  | .array t n => sizeBound t * n
  | .seq _ _ => 0
  | .hashMap _ _ => 0
  | .hashSet _ => 0
  | .option t => 1 + sizeBound t
  | .result t e => 1 + max (sizeBound t) (sizeBound e)
  | .bound t => 1 + sizeBound t
  | .range t => sizeBound t * 2
  | .rangeInclusive t => sizeBound t * 2
  | .lock _ t => sizeBound t
  | .refCell t => sizeBound t
  | .duration => 12
  | .systemTime _ => 8
  | .ipv4 => 4
  | .ipv6 => 16
  | .ipAddr => 17
  | .socketAddrV4 => 6
  | .socketAddrV6 => 26
  | .socketAddr => 27
  | .str _ => 0
  | .cStr _ => 0
  | .sizedStr n => 2 + n
  | .sizedSlice t n => 2 + sizeBound t * n
  | .tuple fs => sizeBoundFields fs
  | .struct fs => sizeBoundFields fs
  | .enum r vs => sizeBoundVariants r vs

/-- See `sizeBound`. -/
def sizeBoundFields : Fields → Nat
  | .nil => 0
  | .cons t fs => sizeBound t + sizeBoundFields fs

/-- See `sizeBound`. -/
def sizeBoundVariants (r : Repr) : Variants → Nat
  | .nil => 0
  | .cons _ fs vs => max (r.bytes + sizeBoundFields fs) (sizeBoundVariants r vs)

end

mutual

/-- The size of the types all of whose values have encodings of the same length, as far as that is
visible from the structure of the type. -/
def fixedSize : Ty → Option Nat
  | .num k => some k.bytes
  | .bool => some 1
  | .char => some 4
  | .usize => some 2
  | .isize => some 2
  | .nonZero r => some r.bytes
  | .unit _ => some 0
  | .wrap _ t => fixedSize t
  | .array t n => (fixedSize t).map (n * ·)
  | .range t => (fixedSize t).map (2 * ·)
  | .rangeInclusive t => (fixedSize t).map (2 * ·)
  | .lock _ t => fixedSize t
  | .refCell t => fixedSize t
  | .duration => some 12
  | .systemTime _ => some 8
  | .ipv4 => some 4
  | .ipv6 => some 16
  | .socketAddrV4 => some 6
  | .socketAddrV6 => some 26
  | .tuple fs => fixedSizeFields fs
  | .struct fs => fixedSizeFields fs
  | _ => none

/-- See `fixedSize`. -/
def fixedSizeFields : Fields → Option Nat
  | .nil => some 0
  | .cons t fs =>
    match fixedSize t, fixedSizeFields fs with
    | some a, some b => some (a + b)
    | _, _ => none

end

end Oct.Spec
