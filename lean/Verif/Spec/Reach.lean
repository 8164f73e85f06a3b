import Verif.Model.Ty
/-
Bounds on what decoding may consume and produce, by type. Refers to types and values only.
-/
namespace Oct.Spec

mutual

/-- The greatest number of octets that a value of the type can be read from: lengths are at most
65535. -/
def reach : Ty → Nat
  | .num k => k.bytes
  | .bool => 1
  | .char => 4
  | .usize | .isize => 2
  | .nonZero r => r.bytes
  | .unit _ | .infallible => 0
  | .wrap _ t => reach t
  | .array t n => n * reach t
  | .seq _ t => 2 + 65535 * reach t
  | .hashMap k v => 2 + 65535 * (reach k + reach v)
  | .hashSet k => 2 + 65535 * reach k
  | .option t => 1 + reach t
  | .result t e => 1 + max (reach t) (reach e)
  | .bound t => 1 + reach t
  | .range t | .rangeInclusive t => 2 * reach t
  | .lock _ t | .refCell t => reach t
  | .duration => 12
  | .systemTime _ => 8
  | .ipv4 => 4
  | .ipv6 => 16
  | .ipAddr => 17
  | .socketAddrV4 => 6
  | .socketAddrV6 => 26
  | .socketAddr => 27
  | .str _ | .cStr _ | .sizedStr _ => 2 + 65535
  | .sizedSlice t n => 2 + n * reach t
  | .tuple fs | .struct fs => reachFields fs
  | .enum r vs => r.bytes + reachVariants vs

/-- All fields. -/
def reachFields : Fields → Nat
  | .nil => 0
  | .cons t fs => reach t + reachFields fs

/-- The longest variant. -/
def reachVariants : Variants → Nat
  | .nil => 0
  | .cons _ fs vs => max (reachFields fs) (reachVariants vs)

end

mutual

/-- The number of elements in all the collections and texts of dynamic length that a value is made
of, at any depth. -/
def elements : (t : Ty) → t.Val → Nat
  | .wrap _ t, v => elements t v
  | .array t _, v => (v.val.map (elements t)).sum
  | .seq _ t, v => List.length v + (List.map (elements t) v).sum
  | .hashMap k v, m => m.val.length + (m.val.map fun p => elements k p.1 + elements v p.2).sum
  | .hashSet k, s => s.val.length + (s.val.map (elements k)).sum
  | .option t, v =>
    match v with
    | none => 0
    | some v => elements t v
  | .result t e, v =>
    match v with
    | .ok v => elements t v
    | .err v => elements e v
  | .bound t, v =>
    match v with
    | .included v => elements t v
    | .excluded v => elements t v
    | .unbounded => 0
  | .range t, v => elements t v.start + elements t v.stop
  | .rangeInclusive t, v => elements t v.start + elements t v.stop
  | .lock _ t, v => elements t v.val
  | .refCell t, v => elements t v.val
  | .str _, v => v.val.length
  | .cStr _, v => v.val.length
  | .sizedStr _, v => v.val.length
  | .sizedSlice t _, v => v.val.length + (v.val.map (elements t)).sum
  | .tuple fs, v => elementsFields fs v
  | .struct fs, v => elementsFields fs v
  | .enum _ vs, v => elementsVariants vs v
  | .num _, _ | .bool, _ | .char, _ | .usize, _ | .isize, _ | .nonZero _, _ | .unit _, _
  | .infallible, _ | .duration, _ | .systemTime _, _ | .ipv4, _ | .ipv6, _ | .ipAddr, _
  | .socketAddrV4, _ | .socketAddrV6, _ | .socketAddr, _ => 0

/-- See `elements`. -/
def elementsFields : (fs : Fields) → fs.Val → Nat
  | .nil, _ => 0
  | .cons t fs, v => elements t v.1 + elementsFields fs v.2

/-- See `elements`. -/
def elementsVariants : (vs : Variants) → vs.Val → Nat
  | .nil, v => nomatch v
  | .cons _ fs vs, v =>
    match v with
    | .inl v => elementsFields fs v
    | .inr v => elementsVariants vs v

end

end Oct.Spec
