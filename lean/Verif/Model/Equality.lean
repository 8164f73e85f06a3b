import Verif.Model.Ty
/-
Rust's `==` of the types that `oct` can encode: oct/src/sized_slice/cmp.rs:38-43 and
oct/src/sized_str/cmp.rs:37-42 (both compare the contents), and `PartialEq` of the primitive types and
of the standard library. Structures and enumerations are taken to derive `PartialEq`.
-/
namespace Oct

mutual

/-- Types that can be keys of a hash map, i.e. that are `Eq` and `Hash`: all that are `PartialEq` but
floating-point numbers, hash maps and sets, `Cell` and `RefCell`. -/
def Ty.isKey : Ty → Bool
  | .num .f32 | .num .f64 | .hashMap _ _ | .hashSet _ | .lock _ _ | .refCell _ => false
  | .wrap .lazyCell _ | .wrap .lazyLock _ | .wrap .atomic _ | .wrap .cell _ => false
  | .wrap _ t | .array t _ | .seq _ t | .option t | .bound t | .range t | .rangeInclusive t
  | .sizedSlice t _ => t.isKey
  | .result t e => t.isKey && e.isKey
  | .tuple fs | .struct fs => fs.isKey
  | .enum _ vs => vs.isKey
  | _ => true

/-- See `Ty.isKey`. -/
def Fields.isKey : Fields → Bool
  | .nil => true
  | .cons t fs => t.isKey && fs.isKey

/-- See `Ty.isKey`. -/
def Variants.isKey : Variants → Bool
  | .nil => true
  | .cons _ fs vs => fs.isKey && vs.isKey

end

mutual

/-- Types that are `PartialEq`: all but locks, lazy values and atomics, if what they are made of is
so. SIMPLIFICATION: that the content of a `Cell` is `Copy` for this is not looked at. -/
def Ty.hasEq : Ty → Bool
  | .lock _ _ | .wrap .lazyCell _ | .wrap .lazyLock _ | .wrap .atomic _ => false
  | .wrap _ t | .array t _ | .seq _ t | .option t | .bound t | .range t | .rangeInclusive t
  | .refCell t | .sizedSlice t _ => t.hasEq
  | .hashMap k v => k.isKey && v.hasEq
  | .hashSet k => k.isKey
  | .result t e => t.hasEq && e.hasEq
  | .tuple fs | .struct fs => fs.hasEq
  | .enum _ vs => vs.hasEq
  | _ => true

/-- See `Ty.hasEq`. -/
def Fields.hasEq : Fields → Bool
  | .nil => true
  | .cons t fs => t.hasEq && fs.hasEq

/-- See `Ty.hasEq`. -/
def Variants.hasEq : Variants → Bool
  | .nil => true
  | .cons _ fs vs => fs.hasEq && vs.hasEq

end

/-- `==` of floating-point numbers, given as bit patterns (IEEE 754, `compareQuietEqual`): `half` is
the sign bit and `inf` the pattern of infinity. A pattern whose part below the sign bit is above `inf`
is a NaN, which is equal to nothing; both zeros are equal. -/
def floatEquals (half inf a b : Nat) : Bool :=
  a % half ≤ inf && b % half ≤ inf && (a == b || (a % half == 0 && b % half == 0))

/-- `==` of numbers, given as bit patterns. -/
def NumKind.equals : NumKind → Nat → Nat → Bool
  | .int _, a, b => a == b
  | .f32, a, b => floatEquals (2 ^ 31) 0x7F800000 a b
  | .f64, a, b => floatEquals (2 ^ 63) 0x7FF0000000000000 a b

/-- `==` of slices: as long, and item by item. -/
def listEquals {α : Type} (eq : α → α → Bool) : List α → List α → Bool
  | [], [] => true
  | x :: l, y :: l' => eq x y && listEquals eq l l'
  | _, _ => false

/-- `==` of hash maps: as many entries, and each has a counterpart of equal key and equal value. -/
def mapEquals {α β : Type} (eqK : α → α → Bool) (eqV : β → β → Bool) (l l' : List (α × β)) : Bool :=
  l.length == l'.length && l.all fun p => l'.any fun q => eqK p.1 q.1 && eqV p.2 q.2

/-- `==` of hash sets: as many elements, and each is contained in the other set. -/
def setEquals {α : Type} (eqK : α → α → Bool) (l l' : List α) : Bool :=
  l.length == l'.length && l.all fun x => l'.any (eqK x)

mutual

/-- Whether `v == w` gives `true`. (Comparing a mutably borrowed `RefCell` panics, so it does not.)
Pointers, references and transparent wrappers compare what is inside. -/
def Ty.equals : (t : Ty) → t.Val → t.Val → Bool
  | .num k, v, w =>
    k.equals (show BitVec (8 * k.bytes) from v).toNat (show BitVec (8 * k.bytes) from w).toNat
  | .bool, v, w => (show Bool from v) == w
  | .char, v, w => (show Char from v) == w
  | .usize, v, w => (show Nat from v) == w
  | .isize, v, w => (show Int from v) == w
  | .nonZero _, v, w => v.val == w.val
  | .unit _, _, _ => true
  | .infallible, v, _ => nomatch v
  | .wrap _ t, v, w => t.equals v w
  | .array t _, v, w => listEquals t.equals v.val w.val
  | .seq _ t, v, w => listEquals t.equals v w
  | .hashMap k v, m, m' => mapEquals k.equals v.equals m.val m'.val
  | .hashSet k, s, s' => setEquals k.equals s.val s'.val
  | .option t, v, w =>
    match v, w with
    | none, none => true
    | some v, some w => t.equals v w
    | _, _ => false
  | .result t e, v, w =>
    match v, w with
    | .ok v, .ok w => t.equals v w
    | .err v, .err w => e.equals v w
    | _, _ => false
  | .bound t, v, w =>
    match v, w with
    | .included v, .included w => t.equals v w
    | .excluded v, .excluded w => t.equals v w
    | .unbounded, .unbounded => true
    | _, _ => false
  | .range t, v, w => t.equals v.start w.start && t.equals v.stop w.stop
  | .rangeInclusive t, v, w =>
    t.equals v.start w.start && t.equals v.stop w.stop && v.exhausted == w.exhausted
  | .lock _ _, _, _ => false
  | .refCell t, v, w => !v.mutBorrowed && !w.mutBorrowed && t.equals v.val w.val
  | .duration, v, w => v.secs == w.secs && v.nanos == w.nanos
  | .systemTime _, v, w => v.val == w.val
  | .ipv4, v, w => v.val == w.val
  | .ipv6, v, w => v.val == w.val
  | .ipAddr, v, w => decide (v = w)
  | .socketAddrV4, v, w => decide (v = w)
  | .socketAddrV6, v, w => decide (v = w)
  | .socketAddr, v, w => decide (v = w)
  | .str _, v, w => v.val == w.val
  | .cStr _, v, w => v.val == w.val
  | .sizedStr _, v, w => v.val == w.val
  | .sizedSlice t _, v, w => listEquals t.equals v.val w.val
  | .tuple fs, v, w => fs.equals v w
  | .struct fs, v, w => fs.equals v w
  | .enum _ vs, v, w => vs.equals v w

/-- Field by field. -/
def Fields.equals : (fs : Fields) → fs.Val → fs.Val → Bool
  | .nil, _, _ => true
  | .cons t fs, v, w => t.equals v.1 w.1 && fs.equals v.2 w.2

/-- The same variant, with equal fields. -/
def Variants.equals : (vs : Variants) → vs.Val → vs.Val → Bool
  | .nil, v, _ => nomatch v
  | .cons _ fs vs, v, w =>
    match v, w with
    | .inl v, .inl w => fs.equals v w
    | .inr v, .inr w => vs.equals v w
    | _, _ => false

end

end Oct
