import Verif.Spec.Format
import Verif.Spec.Derived
/-
The order of Rust's values, and that of octets: is the one that of the other?
-/
namespace Oct.Spec

/-- The order of two lists, one item after the other: a list is before those that go on. This is how Rust compares
slices, arrays and vectors (std), and so sized slices (oct/src/sized_slice/cmp.rs:31-36). -/
def itemwise {α : Type} (f : α → α → Ordering) : List α → List α → Ordering
  | [], [] => .eq
  | [], _ :: _ => .lt
  | _ :: _, [] => .gt
  | a :: l, b :: m => (f a b).then (itemwise f l m)

/-- The order of octets. -/
def octetwise : List UInt8 → List UInt8 → Ordering := itemwise fun x y => compare x.toNat y.toNat

/-- The number of the variant of an enumeration that a value has. `j` is that of the first. -/
def variantOf : (vs : Variants) → (j : Nat) → vs.Val → Nat
  | .nil, _, v => nomatch v
  | .cons _ _ vs, j, v =>
    match v with
    | .inl _ => j
    | .inr v => variantOf vs (j + 1) v

mutual

/-- `Ord::cmp`, of the types that have it: std's documentation, for those of the standard library; a sized string
compares as its text (oct/src/sized_str/cmp.rs:29-34); structures and enumerations as with `#[derive(Ord)]`: one field
after the other, variants by their discriminants. Of other types nothing is said here. -/
def valueOrder : (t : Ty) → t.Val → t.Val → Ordering
  | .num (.int k), a, b =>
    if k.signed then compare (BitVec.toInt (n := 8 * k.bytes) a) (BitVec.toInt (n := 8 * k.bytes) b)
    else compare (BitVec.toNat (w := 8 * k.bytes) a) (BitVec.toNat (w := 8 * k.bytes) b)
  | .bool, a, b => compare (Bool.toNat a) (Bool.toNat b)
  | .char, a, b => compare (Char.toNat a) (Char.toNat b)
  | .usize, a, b => compare (α := Nat) a b
  | .isize, a, b => compare (α := Int) a b
  | .nonZero _, a, b => compare a.val b.val
  | .wrap _ t, a, b => valueOrder t a b
  | .array t _, a, b => itemwise (valueOrder t) a.val b.val
  | .seq _ t, a, b => itemwise (valueOrder t) a b
  | .option t, a, b =>
    match a, b with
    | none, none => .eq
    | none, some _ => .lt
    | some _, none => .gt
    | some a, some b => valueOrder t a b
  | .result t e, a, b =>
    match a, b with
    | .ok a, .ok b => valueOrder t a b
    | .ok _, .err _ => .lt
    | .err _, .ok _ => .gt
    | .err a, .err b => valueOrder e a b
  | .refCell t, a, b => valueOrder t a.val b.val
  | .duration, a, b => (compare a.secs.toNat b.secs.toNat).then (compare a.nanos b.nanos)
  | .systemTime _, a, b => compare a.val b.val
  | .ipv4, a, b => octetwise a.val b.val
  | .ipv6, a, b => octetwise a.val b.val
  | .ipAddr, a, b =>
    match a, b with
    | .v4 a, .v4 b => octetwise a.val b.val
    | .v4 _, .v6 _ => .lt
    | .v6 _, .v4 _ => .gt
    | .v6 a, .v6 b => octetwise a.val b.val
  | .socketAddrV4, a, b => (octetwise a.ip.val b.ip.val).then (compare a.port.toNat b.port.toNat)
  | .socketAddrV6, a, b => (octetwise a.ip.val b.ip.val).then ((compare a.port.toNat b.port.toNat).then
      ((compare a.flowinfo.toNat b.flowinfo.toNat).then (compare a.scopeId.toNat b.scopeId.toNat)))
  | .socketAddr, a, b =>
    match a, b with
    | .v4 a, .v4 b => (octetwise a.ip.val b.ip.val).then (compare a.port.toNat b.port.toNat)
    | .v4 _, .v6 _ => .lt
    | .v6 _, .v4 _ => .gt
    | .v6 a, .v6 b => (octetwise a.ip.val b.ip.val).then ((compare a.port.toNat b.port.toNat).then
        ((compare a.flowinfo.toNat b.flowinfo.toNat).then (compare a.scopeId.toNat b.scopeId.toNat)))
  | .str _, a, b => octetwise a.val b.val
  | .cStr _, a, b => octetwise a.val b.val
  | .sizedStr _, a, b => octetwise a.val b.val
  | .sizedSlice t _, a, b => itemwise (valueOrder t) a.val b.val
  | .tuple fs, a, b => fieldOrder fs a b
  | .struct fs, a, b => fieldOrder fs a b
  | .enum _ vs, a, b => variantOrder (explicitDiscs vs) vs 0 a b
  | _, _, _ => .eq

/-- See `valueOrder`. -/
def fieldOrder : (fs : Fields) → fs.Val → fs.Val → Ordering
  | .nil, _, _ => .eq
  | .cons t fs, a, b => (valueOrder t a.1 b.1).then (fieldOrder fs a.2 b.2)

/-- See `valueOrder`. -/
def variantOrder (ex : List (Option Nat)) : (vs : Variants) → (j : Nat) → vs.Val → vs.Val → Ordering
  | .nil, _, a, _ => nomatch a
  | .cons _ fs vs, j, a, b =>
    match a, b with
    | .inl a, .inl b => fieldOrder fs a b
    | .inl _, .inr b => compare (discOf ex j) (discOf ex (variantOf vs (j + 1) b))
    | .inr a, .inl _ => compare (discOf ex (variantOf vs (j + 1) a)) (discOf ex j)
    | .inr a, .inr b => variantOrder ex vs (j + 1) a b

end

/-- Types that are not made of others, but for `SystemTime`, whose range depends on the platform. -/
def Leaf : Ty → Prop
  | .num _ | .bool | .char | .usize | .isize | .nonZero _ | .unit _ | .infallible | .duration | .ipv4 | .ipv6 | .ipAddr
  | .socketAddrV4 | .socketAddrV6 | .socketAddr | .str _ | .cStr _ | .sizedStr _ => True
  | _ => False

/-- The octets of values are ordered as the values are. -/
def Sorts (t : Ty) : Prop := ∀ a b : t.Val, Encodable t a → Encodable t b →
  octetwise (wire t a) (wire t b) = valueOrder t a b

mutual

/-- Types with `Ord`. -/
def HasOrder : Ty → Prop
  | .num .f32 | .num .f64 => False
  | .unit .rangeFull => False
  | .wrap k t => k ∉ [.lazyCell, .lazyLock, .rangeFrom, .rangeTo, .rangeToInclusive, .atomic] ∧ HasOrder t
  | .array t _ => HasOrder t
  | .seq _ t => HasOrder t
  | .hashMap _ _ | .hashSet _ => False
  | .option t => HasOrder t
  | .result t e => HasOrder t ∧ HasOrder e
  | .bound _ | .range _ | .rangeInclusive _ | .lock _ _ => False
  | .refCell t => HasOrder t
  | .sizedSlice t _ => HasOrder t
  | .tuple fs => HasOrderFields fs
  | .struct fs => HasOrderFields fs
  | .enum _ vs => HasOrderVariants vs
  | _ => True

/-- See `HasOrder`. -/
def HasOrderFields : Fields → Prop
  | .nil => True
  | .cons t fs => HasOrder t ∧ HasOrderFields fs

/-- See `HasOrder`. -/
def HasOrderVariants : Variants → Prop
  | .nil => True
  | .cons _ fs vs => HasOrderFields fs ∧ HasOrderVariants vs

end

mutual

/-- Types whose octets are ordered as their values are, by their looks: those made of octets and truth values only, with
no length before them that may be greater than one, and no discriminant greater than 255. -/
def Sortable : Ty → Prop
  | .num (.int .u8) | .bool | .nonZero (.int .u8) => True
  | .unit .unit | .unit .phantomData | .unit .phantomPinned | .infallible => True
  | .wrap k t => k ∉ [.lazyCell, .lazyLock, .rangeFrom, .rangeTo, .rangeToInclusive, .atomic] ∧ Sortable t
  | .array t _ => Sortable t
  | .option t => Sortable t
  | .result t e => Sortable t ∧ Sortable e
  | .refCell t => Sortable t
  | .sizedStr n => n ≤ 1
  | .sizedSlice t n => n ≤ 1 ∧ Sortable t
  | .tuple fs => SortableFields fs
  | .struct fs => SortableFields fs
  | .enum _ vs => (∀ i < variantCount vs, discOf (explicitDiscs vs) i < 256) ∧ SortableVariants vs
  | _ => False

/-- See `Sortable`. -/
def SortableFields : Fields → Prop
  | .nil => True
  | .cons t fs => Sortable t ∧ SortableFields fs

/-- See `Sortable`. -/
def SortableVariants : Variants → Prop
  | .nil => True
  | .cons _ fs vs => SortableFields fs ∧ SortableVariants vs

end

end Oct.Spec
