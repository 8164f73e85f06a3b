import Verif.Spec.Recursive
import Verif.Spec.RoundTrip
import Verif.Model.Cost
/-
What decoding may cost, by type.
-/
namespace Oct.Spec

mutual

/-- Whether each encoding of the type has an octet can be told. -/
def eatsDec : (t : Ty) → Decidable (Eats t)
  | .num _ => .isTrue trivial
  | .bool => .isTrue trivial
  | .char => .isTrue trivial
  | .usize => .isTrue trivial
  | .isize => .isTrue trivial
  | .nonZero _ => .isTrue trivial
  | .unit _ => .isFalse id
  | .infallible => .isTrue trivial
  | .wrap _ t => eatsDec t
  | .array t n => have := eatsDec t; inferInstanceAs (Decidable (n ≠ 0 ∧ Eats t))
  | .seq _ _ => .isTrue trivial
  | .hashMap _ _ => .isTrue trivial
  | .hashSet _ => .isTrue trivial
  | .option _ => .isTrue trivial
  | .result _ _ => .isTrue trivial
  | .bound _ => .isTrue trivial
  | .range t => eatsDec t
  | .rangeInclusive t => eatsDec t
  | .lock _ t => eatsDec t
  | .refCell t => eatsDec t
  | .duration => .isTrue trivial
  | .systemTime _ => .isTrue trivial
  | .ipv4 => .isTrue trivial
  | .ipv6 => .isTrue trivial
  | .ipAddr => .isTrue trivial
  | .socketAddrV4 => .isTrue trivial
  | .socketAddrV6 => .isTrue trivial
  | .socketAddr => .isTrue trivial
  | .str _ => .isTrue trivial
  | .cStr _ => .isTrue trivial
  | .sizedStr _ => .isTrue trivial
  | .sizedSlice _ _ => .isTrue trivial
  | .tuple fs => eatsFieldsDec fs
  | .struct fs => eatsFieldsDec fs
  | .enum _ _ => .isTrue trivial

/-- See `eatsDec`. -/
def eatsFieldsDec : (fs : Fields) → Decidable (EatsFields fs)
  | .nil => .isFalse id
  | .cons t fs =>
    have := eatsDec t
    have := eatsFieldsDec fs
    inferInstanceAs (Decidable (Eats t ∨ EatsFields fs))

end

instance (t : Ty) : Decidable (Eats t) := eatsDec t

/-- How often the cost of one item of a collection may occur per octet: twice if each item has an octet,
else as often as a length can say. -/
def perOctet (eats : Prop) [Decidable eats] : Nat := if eats then 2 else 65535

mutual

/-- What decoding may cost per octet. -/
def rate (w : Weights) : Ty → Nat
  | .wrap .arc t | .wrap .box t | .wrap .rc t => w.call + w.alloc + rate w t
  | .wrap _ t => w.call + rate w t
  | .array t n => w.call + n * rate w t
  | .seq .linkedList t => w.call + perOctet (Eats t) * (w.alloc + rate w t)
  | .seq _ t => w.call + w.alloc + perOctet (Eats t) * (w.cell + rate w t)
  | .hashMap k v => w.call + w.alloc + perOctet (Eats k ∨ Eats v) * (w.cell + (rate w k + rate w v))
  | .hashSet k => w.call + w.alloc + perOctet (Eats k) * (w.cell + rate w k)
  | .option t => w.call + rate w t
  | .result t e => w.call + max (rate w t) (rate w e)
  | .bound t => w.call + rate w t
  | .range t | .rangeInclusive t => w.call + (rate w t + rate w t)
  | .lock _ t | .refCell t => w.call + rate w t
  | .str _ | .cStr _ => w.call + (w.alloc + w.cell)
  | .sizedSlice t n => w.call + n * rate w t
  | .tuple fs | .struct fs => w.call + rateFields w fs
  | .enum _ vs => w.call + rateVariants w vs
  | _ => w.call

/-- All fields. -/
def rateFields (w : Weights) : Fields → Nat
  | .nil => 0
  | .cons t fs => rate w t + rateFields w fs

/-- The costliest variant. -/
def rateVariants (w : Weights) : Variants → Nat
  | .nil => 0
  | .cons _ fs vs => max (rateFields w fs) (rateVariants w vs)

end

mutual

/-- What may have been reserved for items that were then not there: in each of the buffers that were
being filled, one inside another. -/
def pending (w : Weights) : Ty → Nat
  | .wrap _ t | .array t _ | .seq .linkedList t | .option t | .bound t | .range t | .rangeInclusive t
  | .lock _ t | .refCell t | .sizedSlice t _ => pending w t
  | .seq _ t => 65535 * w.cell + pending w t
  | .hashMap k v => 65535 * w.cell + max (pending w k) (pending w v)
  | .hashSet k => 65535 * w.cell + pending w k
  | .result t e => max (pending w t) (pending w e)
  | .tuple fs | .struct fs => pendingFields w fs
  | .enum _ vs => pendingVariants w vs
  | _ => 0

/-- One field at a time. -/
def pendingFields (w : Weights) : Fields → Nat
  | .nil => 0
  | .cons t fs => max (pending w t) (pendingFields w fs)

/-- One variant at a time. -/
def pendingVariants (w : Weights) : Variants → Nat
  | .nil => 0
  | .cons _ fs vs => max (pendingFields w fs) (pendingVariants w vs)

end

mutual

/-- How many collections of any length are inside one another. -/
def nest : Ty → Nat
  | .wrap _ t | .array t _ | .option t | .bound t | .range t | .rangeInclusive t
  | .lock _ t | .refCell t | .sizedSlice t _ => nest t
  | .seq _ t => 1 + nest t
  | .hashMap k v => 1 + max (nest k) (nest v)
  | .hashSet k => 1 + nest k
  | .result t e => max (nest t) (nest e)
  | .tuple fs | .struct fs => nestFields fs
  | .enum _ vs => nestVariants vs
  | _ => 0

/-- See `nest`. -/
def nestFields : Fields → Nat
  | .nil => 0
  | .cons t fs => max (nest t) (nestFields fs)

/-- See `nest`. -/
def nestVariants : Variants → Nat
  | .nil => 0
  | .cons _ fs vs => max (nestFields fs) (nestVariants vs)

end

mutual

/-- How many parts a type is made of, counting the items of arrays and of sized slices (all of them) one by
one, and those of other collections once. -/
def parts : Ty → Nat
  | .wrap _ t | .option t | .bound t | .lock _ t | .refCell t | .seq _ t | .hashSet t => 1 + parts t
  | .array t n | .sizedSlice t n => 1 + n * parts t
  | .hashMap k v => 1 + (parts k + parts v)
  | .range t | .rangeInclusive t => 1 + (parts t + parts t)
  | .result t e => 1 + (parts t + parts e)
  | .tuple fs | .struct fs => 1 + partsFields fs
  | .enum _ vs => 1 + partsVariants vs
  | _ => 1

/-- See `parts`. -/
def partsFields : Fields → Nat
  | .nil => 0
  | .cons t fs => parts t + partsFields fs

/-- See `parts`. -/
def partsVariants : Variants → Nat
  | .nil => 0
  | .cons _ fs vs => partsFields fs + partsVariants vs

end

/-- Each item of a collection of any length has an octet. -/
def Frugal (t : Ty) : Prop :=
  Everywhere (fun
    | .seq _ t => Eats t
    | .hashMap k v => Eats k ∨ Eats v
    | .hashSet k => Eats k
    | _ => True) t

/-- The number of octets consumed between two states of an input. -/
def consumed (I I' : Input) : Nat := I'.position - I.position

/-- Whether a value came out. -/
def came {α : Type} : Res DecErr α → Bool
  | .ok _ => true
  | _ => false

end Oct.Spec
