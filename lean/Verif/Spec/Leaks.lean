import Verif.Spec.Track
import Verif.Spec.Stops
/-
Exactly which types lose allocations when they are decoded.
-/
namespace Oct.Spec
open Oct

mutual

/-- Types for which something can be decoded that has allocations: of its own, or in the cells of sized
slices. -/
def Owning : Ty → Prop
  | .wrap .arc t | .wrap .box t | .wrap .rc t => Decodable t
  | .wrap _ t => Owning t
  | .array t n => n ≠ 0 ∧ Owning t
  | .seq _ t => Decodable t
  | .hashMap k v => Decodable k ∧ Decodable v
  | .hashSet k => Decodable k
  | .option t => Owning t
  | .result t e => Owning t ∨ Owning e
  | .bound t => Owning t
  | .range t => Owning t
  | .rangeInclusive t => Owning t
  | .lock _ t => Owning t
  | .refCell t => Owning t
  | .str _ => True
  | .cStr _ => True
  | .sizedSlice t n => n ≠ 0 ∧ Owning t
  | .tuple fs => OwningFields fs
  | .struct fs => OwningFields fs
  | .enum r vs => OwningVariants r (explicitDiscs vs) vs 0
  | _ => False

/-- One of the fields, if the others have values. -/
def OwningFields : Fields → Prop
  | .nil => False
  | .cons t fs => Owning t ∧ DecodableFields fs ∨ Decodable t ∧ OwningFields fs

/-- One of the variants whose discriminant can be encoded. -/
def OwningVariants (r : Repr) (explicit : List (Option Nat)) : Variants → Nat → Prop
  | .nil, _ => False
  | .cons _ fs vs, j =>
    ReprEncodable r (discOf explicit j) ∧ OwningFields fs ∨ OwningVariants r explicit vs (j + 1)

end

mutual

/-- Types for which something can be decoded that has allocations in the cells of a sized slice: nobody
frees these. -/
def Spilling : Ty → Prop
  | .wrap _ t => Spilling t
  | .array t n => n ≠ 0 ∧ Spilling t
  | .seq _ t => Spilling t
  | .hashMap k v => Spilling k ∧ Decodable v ∨ Decodable k ∧ Spilling v
  | .hashSet k => Spilling k
  | .option t => Spilling t
  | .result t e => Spilling t ∨ Spilling e
  | .bound t => Spilling t
  | .range t => Spilling t
  | .rangeInclusive t => Spilling t
  | .lock _ t => Spilling t
  | .refCell t => Spilling t
  | .sizedSlice t n => n ≠ 0 ∧ Owning t
  | .tuple fs => SpillingFields fs
  | .struct fs => SpillingFields fs
  | .enum r vs => SpillingVariants r (explicitDiscs vs) vs 0
  | _ => False

/-- One of the fields, if the others have values. -/
def SpillingFields : Fields → Prop
  | .nil => False
  | .cons t fs => Spilling t ∧ DecodableFields fs ∨ Decodable t ∧ SpillingFields fs

/-- One of the variants whose discriminant can be encoded. -/
def SpillingVariants (r : Repr) (explicit : List (Option Nat)) : Variants → Nat → Prop
  | .nil, _ => False
  | .cons _ fs vs, j =>
    ReprEncodable r (discOf explicit j) ∧ SpillingFields fs ∨ SpillingVariants r explicit vs (j + 1)

end

mutual

/-- Types for which a decoding can fail when something has been allocated that is not freed then:
there are items, entries or fields in front of it whose allocations are lost. Items in raw cells (of
`Vec`, of arrays and of sized slices) lose all of theirs, others only what is in the cells of sized
slices. -/
def Leaky : Ty → Prop
  | .wrap _ t => Leaky t
  | .array t n => n ≠ 0 ∧ Leaky t ∨ 2 ≤ n ∧ Owning t ∧ Eats t
  | .seq .linkedList t => Leaky t ∨ Spilling t ∧ Eats t
  | .seq _ t => Leaky t ∨ Owning t ∧ Eats t
  | .hashMap k v => Leaky k ∨ Decodable k ∧ Leaky v ∨ Spilling k ∧ Eats v ∨
      (Spilling k ∧ Decodable v ∨ Decodable k ∧ Spilling v) ∧ (Eats k ∨ Eats v)
  | .hashSet k => Leaky k ∨ Spilling k ∧ Eats k
  | .option t => Leaky t
  | .result t e => Leaky t ∨ Leaky e
  | .bound t => Leaky t
  | .range t => Leaky t ∨ Spilling t ∧ Eats t
  | .rangeInclusive t => Leaky t ∨ Spilling t ∧ Eats t
  | .lock _ t => Leaky t
  | .refCell t => Leaky t
  | .sizedSlice t n => n ≠ 0 ∧ Leaky t ∨ 2 ≤ n ∧ Owning t ∧ Eats t
  | .tuple fs => LeakyFields fs
  | .struct fs => LeakyFields fs
  | .enum r vs => LeakyVariants r (explicitDiscs vs) vs 0
  | _ => False

/-- One of the fields; or a field behind one whose sized slices have allocations. -/
def LeakyFields : Fields → Prop
  | .nil => False
  | .cons t fs => Leaky t ∨ Decodable t ∧ LeakyFields fs ∨ Spilling t ∧ EatsFields fs

/-- One of the variants whose discriminant can be encoded. -/
def LeakyVariants (r : Repr) (explicit : List (Option Nat)) : Variants → Nat → Prop
  | .nil, _ => False
  | .cons _ fs vs, j =>
    ReprEncodable r (discOf explicit j) ∧ LeakyFields fs ∨ LeakyVariants r explicit vs (j + 1)

end

end Oct.Spec
