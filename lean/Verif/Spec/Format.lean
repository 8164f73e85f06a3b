import Verif.Model.Ty
/-
Specification of the wire format, after the "Data model" of README.md and the documentation of the
`Encode` impls. It refers to the types and values of `Model/Ty.lean` only, not to the modelled code.
-/
namespace Oct.Spec

/-- The `n` octets of a number, least significant first: octet `i` is `x / 256^i mod 256`. -/
def leBytes (n : Nat) (x : Nat) : List UInt8 :=
  (List.range n).map fun i => UInt8.ofNat (x / 256 ^ i % 256)

/-- Two's complement of an integer on `n` octets, least significant first. -/
def leBytesInt (n : Nat) (x : Int) : List UInt8 := leBytes n (x % (2 : Int) ^ (8 * n)).toNat

/-- Octets of a primitive integer: its width for fixed-width types, sixteen bits for `usize` and
`isize`. -/
def reprWire (r : Repr) (x : Int) : List UInt8 := leBytesInt r.bytes x

/-- Primitive integers that have an encoding. -/
def ReprEncodable : Repr → Int → Prop
  | .int _, _ => True
  | .usize, x => x ≤ 65535
  | .isize, x => -32768 ≤ x ∧ x ≤ 32767

instance (r : Repr) (x : Int) : Decidable (ReprEncodable r x) := by
  cases r <;> unfold ReprEncodable <;> infer_instance

/-- The explicit discriminants of an enumeration, in order. -/
def explicitDiscs : Variants → List (Option Nat)
  | .nil => []
  | .cons d _ vs => d :: explicitDiscs vs

/-- Rust's rule for the discriminant of variant number `j` (The Rust Reference, "Enumerations",
implicit discriminants): if `i ≤ j` is the last variant up to `j` with an explicit discriminant `d`,
then `d + (j - i)`; if there is none, `j`. -/
def discOf (explicit : List (Option Nat)) (j : Nat) : Nat :=
  ((List.range (j + 1)).reverse.findSome? fun i =>
    (explicit[i]?.join).map fun d => d + (j - i)).getD j

mutual

/-- The octets that a value is encoded as. -/
def wire : (t : Ty) → t.Val → List UInt8
  | .num k, v => leBytes k.bytes (show BitVec (8 * k.bytes) from v).toNat
  | .bool, v => [if (show Bool from v) = true then 1 else 0]
  | .char, v => leBytes 4 (show Char from v).toNat
  | .usize, v => leBytes 2 v
  | .isize, v => leBytesInt 2 v
  | .nonZero r, v => reprWire r v.val
  | .unit _, _ => []
  | .infallible, _ => []
  | .wrap _ t, v => wire t v
  | .array t _, v => v.val.flatMap (wire t)
  | .seq _ t, v => leBytes 2 (List.length v) ++ List.flatMap (wire t) v
  | .hashMap k v, m => m.val.flatMap fun p => wire k p.1 ++ wire v p.2
  | .hashSet k, s => s.val.flatMap (wire k)
  | .option t, v =>
    match v with
    | none => [0]
    | some v => 1 :: wire t v
  | .result t e, v =>
    match v with
    | .ok v => 0 :: wire t v
    | .err v => 1 :: wire e v
  | .bound t, v =>
    match v with
    | .included v => 0 :: wire t v
    | .excluded v => 1 :: wire t v
    | .unbounded => [2]
  | .range t, v => wire t v.start ++ wire t v.stop
  | .rangeInclusive t, v => wire t v.start ++ wire t v.stop
  | .lock _ t, v => wire t v.val
  | .refCell t, v => wire t v.val
  | .duration, v => leBytes 8 v.secs.toNat ++ leBytes 4 v.nanos
  | .systemTime _, v => leBytesInt 8 (v.val.tdiv nanosPerSec)
  | .ipv4, v => v.val.reverse
  | .ipv6, v => v.val.reverse
  | .ipAddr, v =>
    match v with
    | .v4 a => 4 :: a.val.reverse
    | .v6 a => 6 :: a.val.reverse
  | .socketAddrV4, v => v.ip.val.reverse ++ leBytes 2 v.port.toNat
  | .socketAddrV6, v => v.ip.val.reverse ++ leBytes 2 v.port.toNat ++ leBytes 4 v.flowinfo.toNat
      ++ leBytes 4 v.scopeId.toNat
  | .socketAddr, v =>
    match v with
    | .v4 a => 4 :: (a.ip.val.reverse ++ leBytes 2 a.port.toNat)
    | .v6 a => 6 :: (a.ip.val.reverse ++ leBytes 2 a.port.toNat ++ leBytes 4 a.flowinfo.toNat
        ++ leBytes 4 a.scopeId.toNat)
  | .str _, v => leBytes 2 v.val.length ++ v.val
  | .cStr _, v => leBytes 2 v.val.length ++ v.val
  | .sizedStr _, v => leBytes 2 v.val.length ++ v.val
  | .sizedSlice t _, v => leBytes 2 v.val.length ++ v.val.flatMap (wire t)
  | .tuple fs, v => wireFields fs v
  | .struct fs, v => wireFields fs v
  | .enum r vs, v => wireVariants r (explicitDiscs vs) vs 0 v

/-- Fields in order. -/
def wireFields : (fs : Fields) → fs.Val → List UInt8
  | .nil, _ => []
  | .cons t fs, v => wire t v.1 ++ wireFields fs v.2

/-- The discriminant of the variant and its fields. `j` is the number of the first variant of
`vs`. -/
def wireVariants (r : Repr) (explicit : List (Option Nat)) :
    (vs : Variants) → (j : Nat) → vs.Val → List UInt8
  | .nil, _, v => nomatch v
  | .cons _ fs vs, j, v =>
    match v with
    | .inl v => reprWire r (discOf explicit j) ++ wireFields fs v
    | .inr v => wireVariants r explicit vs (j + 1) v

end

mutual

/-- The values that have an encoding. Everything is encodable except a `usize` above 65535, an
`isize` outside `-32768..=32767` (also as `NonZero` and as discriminant), a collection or text of
more than 65535 elements, a mutably borrowed `RefCell`, and (with overflow checks) the `SystemTime`
of exactly `-2^63` seconds. -/
def Encodable : (t : Ty) → t.Val → Prop
  | .usize, v => (show Nat from v) ≤ 65535
  | .isize, v => -32768 ≤ (show Int from v) ∧ (show Int from v) ≤ 32767
  | .nonZero r, v => ReprEncodable r v.val
  | .wrap _ t, v => Encodable t v
  | .array t _, v => ∀ x ∈ v.val, Encodable t x
  | .seq _ t, v => List.length v ≤ 65535 ∧ ∀ x ∈ (show List t.Val from v), Encodable t x
  | .hashMap k v, m => ∀ p ∈ m.val, Encodable k p.1 ∧ Encodable v p.2
  | .hashSet k, s => ∀ x ∈ s.val, Encodable k x
  | .option t, v =>
    match v with
    | none => True
    | some v => Encodable t v
  | .result t e, v =>
    match v with
    | .ok v => Encodable t v
    | .err v => Encodable e v
  | .bound t, v =>
    match v with
    | .included v => Encodable t v
    | .excluded v => Encodable t v
    | .unbounded => True
  | .range t, v => Encodable t v.start ∧ Encodable t v.stop
  | .rangeInclusive t, v => Encodable t v.start ∧ Encodable t v.stop
  | .lock _ t, v => Encodable t v.val
  | .refCell t, v => v.mutBorrowed = false ∧ Encodable t v.val
  | .systemTime p, v => ¬ (p.overflowChecks = true ∧ v.val = -(2 : Int) ^ 63 * nanosPerSec)
  | .str _, v => v.val.length ≤ 65535
  | .cStr _, v => v.val.length ≤ 65535
  | .sizedStr _, v => v.val.length ≤ 65535
  | .sizedSlice t _, v => v.val.length ≤ 65535 ∧ ∀ x ∈ v.val, Encodable t x
  | .tuple fs, v => EncodableFields fs v
  | .struct fs, v => EncodableFields fs v
  | .enum r vs, v => EncodableVariants r (explicitDiscs vs) vs 0 v
  | _, _ => True

/-- All fields are encodable. -/
def EncodableFields : (fs : Fields) → fs.Val → Prop
  | .nil, _ => True
  | .cons t fs, v => Encodable t v.1 ∧ EncodableFields fs v.2

/-- The discriminant and the fields of the variant are encodable. -/
def EncodableVariants (r : Repr) (explicit : List (Option Nat)) :
    (vs : Variants) → (j : Nat) → vs.Val → Prop
  | .nil, _, v => nomatch v
  | .cons _ fs vs, j, v =>
    match v with
    | .inl v => ReprEncodable r (discOf explicit j) ∧ EncodableFields fs v
    | .inr v => EncodableVariants r explicit vs (j + 1) v

end

end Oct.Spec
