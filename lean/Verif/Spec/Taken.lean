import Verif.Spec.Longest
/-
How many octets decoding takes at most: when it gives a value, and whatever it gives. Refers to types
only, not to the modelled code.
-/
namespace Oct.Spec

/-- How far two parts get, one after the other: if the first gives a value then by what it takes for
that and as far as the second gets. -/
def far (a : Nat) (l : Option Nat) (b : Nat) : Nat :=
  match l with
  | none => a
  | some l => max a (l + b)

/-- How far a number of elements get: the last of them as far as possible. -/
def farItems (a : Nat) (l : Option Nat) (n : Nat) : Nat :=
  if n = 0 then 0 else l.getD 0 * (n - 1) + a

mutual

/-- How many octets are taken at most for a value; `none` if there is no value. Types without
`SizedEncode` are left out. Unlike the longest encoding (`longest`) it has all elements of a sized slice. -/
def mostTaken : Ty → Option Nat
  | .num k => some k.bytes
  | .bool => some 1
  | .char => some 4
  | .usize => some 2
  | .isize => some 2
  | .nonZero r => some r.bytes
  | .unit _ => some 0
  | .infallible => none
  | .wrap _ t => mostTaken t
  | .array t n => if n = 0 then some 0 else (mostTaken t).map (· * n)
  | .seq _ _ => none
  | .hashMap _ _ => none
  | .hashSet _ => none
  | .option t => some (1 + (mostTaken t).getD 0)
  | .result t e => (larger (mostTaken t) (mostTaken e)).map (1 + ·)
  | .bound t => some (1 + (mostTaken t).getD 0)
  | .range t => both (mostTaken t) (mostTaken t)
  | .rangeInclusive t => both (mostTaken t) (mostTaken t)
  | .lock _ t => mostTaken t
  | .refCell t => mostTaken t
  | .duration => some 12
  | .systemTime _ => some 8
  | .ipv4 => some 4
  | .ipv6 => some 16
  | .ipAddr => some 17
  | .socketAddrV4 => some 6
  | .socketAddrV6 => some 26
  | .socketAddr => some 27
  | .str _ => none
  | .cStr _ => none
  | .sizedStr n => some (2 + min n 65535)
  | .sizedSlice t n => if n = 0 then some 2 else (mostTaken t).map (fun l => 2 + l * n)
  | .tuple fs => mostTakenFields fs
  | .struct fs => mostTakenFields fs
  | .enum r vs => (mostTakenVariants r (explicitDiscs vs) vs 0).map (r.bytes + ·)

/-- See `mostTaken`. -/
def mostTakenFields : Fields → Option Nat
  | .nil => some 0
  | .cons t fs => both (mostTaken t) (mostTakenFields fs)

/-- See `mostTaken`; the discriminant is left out, and `j` is the number of the first variant. -/
def mostTakenVariants (r : Repr) (explicit : List (Option Nat)) : Variants → (j : Nat) → Option Nat
  | .nil, _ => none
  | .cons _ fs vs, j =>
    larger (if ReprEncodable r (discOf explicit j) then mostTakenFields fs else none)
      (mostTakenVariants r explicit vs (j + 1))

end

mutual

/-- How many octets are taken at most, whether or not for a value. Types without `SizedEncode` are left
out. The octets of a sized string are all taken before their number is looked at. -/
def furthest : Ty → Nat
  | .num k => k.bytes
  | .bool => 1
  | .char => 4
  | .usize => 2
  | .isize => 2
  | .nonZero r => r.bytes
  | .unit _ => 0
  | .infallible => 0
  | .wrap _ t => furthest t
  | .array t n => farItems (furthest t) (mostTaken t) n
  | .seq _ _ => 0
  | .hashMap _ _ => 0
  | .hashSet _ => 0
  | .option t => 1 + furthest t
  | .result t e => 1 + max (furthest t) (furthest e)
  | .bound t => 1 + furthest t
  | .range t => far (furthest t) (mostTaken t) (furthest t)
  | .rangeInclusive t => far (furthest t) (mostTaken t) (furthest t)
  | .lock _ t => furthest t
  | .refCell t => furthest t
  | .duration => 12
  | .systemTime _ => 8
  | .ipv4 => 4
  | .ipv6 => 16
  | .ipAddr => 17
  | .socketAddrV4 => 6
  | .socketAddrV6 => 26
  | .socketAddr => 27
  | .str _ => 0
  | .cStr _ => 0
  | .sizedStr _ => 2 + 65535
  | .sizedSlice t n => 2 + farItems (furthest t) (mostTaken t) n
  | .tuple fs => furthestFields fs
  | .struct fs => furthestFields fs
  | .enum r vs => r.bytes + furthestVariants r (explicitDiscs vs) vs 0

/-- See `furthest`. -/
def furthestFields : Fields → Nat
  | .nil => 0
  | .cons t fs => far (furthest t) (mostTaken t) (furthestFields fs)

/-- See `furthest`; the discriminant is left out, and `j` is the number of the first variant. -/
def furthestVariants (r : Repr) (explicit : List (Option Nat)) : Variants → (j : Nat) → Nat
  | .nil, _ => 0
  | .cons _ fs vs, j =>
    max (if ReprEncodable r (discOf explicit j) then furthestFields fs else 0)
      (furthestVariants r explicit vs (j + 1))

end

end Oct.Spec
