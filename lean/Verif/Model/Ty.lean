import Verif.Model.Prim
/-
The universe of types that `oct` can encode, and their values.

One constructor of `Ty` stands for one `Encode` impl of oct/src/encode/encode/mod.rs (or for a
family of impls with the same body), or for a type on which the derive macros are used.
-/
namespace Oct

/-- Fixed-width integer types. -/
inductive IntKind where
  | i8 | i16 | i32 | i64 | i128 | u8 | u16 | u32 | u64 | u128
  deriving DecidableEq, Repr

/-- `size_of` of the integer types. -/
def IntKind.bytes : IntKind → Nat
  | .i8 | .u8 => 1
  | .i16 | .u16 => 2
  | .i32 | .u32 => 4
  | .i64 | .u64 => 8
  | .i128 | .u128 => 16

/-- Whether the type is signed (two's complement). -/
def IntKind.signed : IntKind → Bool
  | .i8 | .i16 | .i32 | .i64 | .i128 => true
  | .u8 | .u16 | .u32 | .u64 | .u128 => false

/-- Numeric types with `impl_numeric!`: oct/src/encode/encode/mod.rs:932-943.
SIMPLIFICATION: a floating-point value is its bit pattern. -/
inductive NumKind where
  | int (k : IntKind)
  | f32
  | f64
  deriving DecidableEq, Repr

/-- `size_of` of the numeric types: oct/src/encode/sized_encode/mod.rs:290. -/
def NumKind.bytes : NumKind → Nat
  | .int k => k.bytes
  | .f32 => 4
  | .f64 => 8

/-- Enumeration representations: oct-macros/src/repr/mod.rs:40-53. The same list of types has
`NonZero` impls: oct/src/encode/encode/mod.rs:1055-1066. -/
inductive Repr where
  | int (k : IntKind)
  | usize
  | isize
  deriving DecidableEq

/-- `MAX_ENCODED_SIZE` of the representation (`usize` and `isize` are encoded as sixteen bits). -/
def Repr.bytes : Repr → Nat
  | .int k => k.bytes
  | .usize | .isize => 2

/-- Whether an integer is a value of the representation type. SIMPLIFICATION: `usize` and `isize`
are unbounded, which includes the values they have on every platform. -/
def Repr.InRange : Repr → Int → Prop
  | .int k, x =>
    if k.signed then -(2 : Int) ^ (8 * k.bytes - 1) ≤ x ∧ x < (2 : Int) ^ (8 * k.bytes - 1)
    else 0 ≤ x ∧ x < (2 : Int) ^ (8 * k.bytes)
  | .usize, x => 0 ≤ x
  | .isize, _ => True

instance (r : Repr) (x : Int) : Decidable (r.InRange x) := by
  cases r <;> unfold Repr.InRange <;> infer_instance

/-- Transparent wrappers: types whose impls forward to the inner type
(oct/src/encode/encode/mod.rs lines in the comments). The value of a wrapper is modelled as the
value inside. -/
inductive Wrap where
  | ref               -- &T: 149-156
  | refMut            -- &mut T: 158-165
  | tuple1            -- (T, ): 169-176
  | arc               -- Arc<T>: 219-226
  | box               -- Box<T>: 265-272
  | cell              -- Cell<T>: 274-281
  | cow               -- Cow<T>: 294-301
  | lazyCell          -- LazyCell<T>: 453-460 (the value is that of the forced cell)
  | lazyLock          -- LazyLock<T>: 464-471
  | rangeFrom         -- RangeFrom<T>: 567-574
  | rangeTo           -- RangeTo<T>: 597-604
  | rangeToInclusive  -- RangeToInclusive<T>: 606-613
  | rc                -- Rc<T>: 617-624
  | saturating        -- Saturating<T>: 690-697
  | wrapping          -- Wrapping<T>: 845-852
  | atomic            -- AtomicU8, ..: 906-928 (one relaxed load)
  deriving DecidableEq

/-- Zero-sized types: `()` 811-818, `PhantomData` 537-544, `PhantomPinned` 546-553,
`RangeFull` 576-583 of oct/src/encode/encode/mod.rs. -/
inductive UnitKind where
  | unit | phantomData | phantomPinned | rangeFull
  deriving DecidableEq

/-- Length-prefixed sequences: `[T]` 196-215, `Vec<T>` 836-843, `LinkedList<T>` 475-493 of
oct/src/encode/encode/mod.rs. -/
inductive SeqKind where
  | slice | vec | linkedList
  deriving DecidableEq

/-- `Mutex<T>` 497-507 and `RwLock<T>` 678-688 of oct/src/encode/encode/mod.rs. -/
inductive LockKind where
  | mutex | rwLock
  deriving DecidableEq

/-- `str` 752-760 and `String` 764-772 of oct/src/encode/encode/mod.rs. -/
inductive StrKind where
  | str | string
  deriving DecidableEq

/-- `CStr` 303-311 and `CString` 315-323 of oct/src/encode/encode/mod.rs. -/
inductive CStrKind where
  | cStr | cString
  deriving DecidableEq

/-- Nanoseconds per second. -/
def nanosPerSec : Nat := 1000000000

/-- What `SystemTime` can represent on a platform: a range of nanoseconds relative to the Unix
epoch. The seconds are a signed sixty-four-bit number on every platform of Rust's std, and the epoch
itself is representable. `overflowChecks` tells whether the crate is compiled with overflow
checks. -/
structure TimePlatform where
  lo : Int
  hi : Int
  overflowChecks : Bool
  lo_le : lo ≤ 0
  le_hi : 0 ≤ hi
  lo_bound : -(2 : Int) ^ 63 * nanosPerSec ≤ lo
  hi_bound : hi < (2 : Int) ^ 63 * nanosPerSec

mutual

/-- Types with an `Encode` impl. -/
inductive Ty where
  | num (k : NumKind)
  | bool
  | char
  | usize
  | isize
  | nonZero (r : Repr)
  | unit (k : UnitKind)
  | infallible
  | wrap (w : Wrap) (t : Ty)
  | array (t : Ty) (n : Nat)
  | seq (k : SeqKind) (t : Ty)
  | hashMap (k v : Ty)
  | hashSet (k : Ty)
  | option (t : Ty)
  | result (t e : Ty)
  | bound (t : Ty)
  | range (t : Ty)
  | rangeInclusive (t : Ty)
  | lock (k : LockKind) (t : Ty)
  | refCell (t : Ty)
  | duration
  | systemTime (p : TimePlatform)
  | ipv4
  | ipv6
  | ipAddr
  | socketAddrV4
  | socketAddrV6
  | socketAddr
  | str (k : StrKind)
  | cStr (k : CStrKind)
  | sizedStr (n : Nat)
  | sizedSlice (t : Ty) (n : Nat)
  /-- Tuples with two to twelve members: oct/src/encode/encode/mod.rs:869-891. -/
  | tuple (fs : Fields)
  /-- Structures with derived impls: oct-macros/src/impls/encode_struct.rs. -/
  | struct (fs : Fields)
  /-- Enumerations with derived impls: oct-macros/src/impls/encode_enum.rs. -/
  | enum (r : Repr) (vs : Variants)

/-- The field types of a structure, tuple or variant, in order. -/
inductive Fields where
  | nil
  | cons (t : Ty) (fs : Fields)

/-- The variants of an enumeration, in order, each with its optional explicit discriminant (an
integer literal; anything else makes the macro panic: oct-macros/src/discriminants/mod.rs:50-56). -/
inductive Variants where
  | nil
  | cons (disc : Option Nat) (fs : Fields) (vs : Variants)

end

/-- Value of a `Mutex` or `RwLock`. -/
structure LockVal (α : Type) where
  poisoned : Bool
  val : α
  deriving DecidableEq

/-- Value of a `RefCell`; `mutBorrowed` tells whether a mutable borrow is alive. -/
structure RefCellVal (α : Type) where
  mutBorrowed : Bool
  val : α
  deriving DecidableEq

/-- Value of a `Range`. -/
structure RangeVal (α : Type) where
  start : α
  stop : α
  deriving DecidableEq

/-- Value of a `RangeInclusive`; `exhausted` is its hidden iteration flag, which takes part in
equality and `is_empty`. -/
structure RangeInclusiveVal (α : Type) where
  start : α
  stop : α
  exhausted : Bool
  deriving DecidableEq

/-- Value of a `Bound`. -/
inductive BoundVal (α : Type) where
  | included (a : α)
  | excluded (a : α)
  | unbounded
  deriving DecidableEq

/-- Value of a `Result`. -/
inductive ResultVal (α β : Type) where
  | ok (a : α)
  | err (b : β)
  deriving DecidableEq

/-- Value of a `Duration`: `secs: u64` and `nanos < 1_000_000_000`. -/
structure DurationVal where
  secs : BitVec 64
  nanos : Nat
  nanos_lt : nanos < nanosPerSec
  deriving DecidableEq

/-- A list of exactly `n` items. -/
abbrev Items (α : Type) (n : Nat) := {l : List α // l.length = n}

/-- Value of an `IpAddr`. The octets are in network order. -/
inductive IpAddrVal where
  | v4 (a : Items UInt8 4)
  | v6 (a : Items UInt8 16)
  deriving DecidableEq

/-- Value of a `SocketAddrV4`. -/
structure SocketAddrV4Val where
  ip : Items UInt8 4
  port : BitVec 16
  deriving DecidableEq

/-- Value of a `SocketAddrV6`. -/
structure SocketAddrV6Val where
  ip : Items UInt8 16
  port : BitVec 16
  flowinfo : BitVec 32
  scopeId : BitVec 32
  deriving DecidableEq

/-- Value of a `SocketAddr`. -/
inductive SocketAddrVal where
  | v4 (a : SocketAddrV4Val)
  | v6 (a : SocketAddrV6Val)
  deriving DecidableEq

/-- A hash map, as its entries in iteration order. The order is arbitrary but fixed while the map
is not modified. -/
abbrev MapVal (α β : Type) := {l : List (α × β) // (l.map Prod.fst).Nodup}

/-- A hash set, as its elements in iteration order. -/
abbrev SetVal (α : Type) := {l : List α // l.Nodup}

mutual

/-- Values of a type. -/
def Ty.Val : Ty → Type
  | .num k => BitVec (8 * k.bytes)
  | .bool => Bool
  | .char => Char
  | .usize => Nat
  | .isize => Int
  | .nonZero r => {x : Int // r.InRange x ∧ x ≠ 0}
  | .unit _ => Unit
  | .infallible => Empty
  | .wrap _ t => t.Val
  | .array t n => Items t.Val n
  | .seq _ t => List t.Val
  | .hashMap k v => MapVal k.Val v.Val
  | .hashSet k => SetVal k.Val
  | .option t => Option t.Val
  | .result t e => ResultVal t.Val e.Val
  | .bound t => BoundVal t.Val
  | .range t => RangeVal t.Val
  | .rangeInclusive t => RangeInclusiveVal t.Val
  | .lock _ t => LockVal t.Val
  | .refCell t => RefCellVal t.Val
  | .duration => DurationVal
  | .systemTime p => {ns : Int // p.lo ≤ ns ∧ ns ≤ p.hi}
  | .ipv4 => Items UInt8 4
  | .ipv6 => Items UInt8 16
  | .ipAddr => IpAddrVal
  | .socketAddrV4 => SocketAddrV4Val
  | .socketAddrV6 => SocketAddrV6Val
  | .socketAddr => SocketAddrVal
  | .str _ => {bs : List UInt8 // Utf8.valid bs = true}
  | .cStr _ => {bs : List UInt8 // 0 ∉ bs}
  | .sizedStr n => {bs : List UInt8 // Utf8.valid bs = true ∧ bs.length ≤ n}
  | .sizedSlice t n => {l : List t.Val // l.length ≤ n}
  | .tuple fs => fs.Val
  | .struct fs => fs.Val
  | .enum _ vs => vs.Val

/-- Values of a list of fields. -/
def Fields.Val : Fields → Type
  | .nil => Unit
  | .cons t fs => t.Val × fs.Val

/-- Values of an enumeration: the fields of one of the variants. -/
def Variants.Val : Variants → Type
  | .nil => Empty
  | .cons _ fs vs => fs.Val ⊕ vs.Val

end

mutual

/-- Equality of values is decidable (needed for the keys of maps and sets). -/
def Ty.decEq : (t : Ty) → DecidableEq t.Val
  | .num k => (inferInstance : DecidableEq (BitVec (8 * k.bytes)))
  | .bool => (inferInstance : DecidableEq Bool)
  | .char => (inferInstance : DecidableEq Char)
  | .usize => (inferInstance : DecidableEq Nat)
  | .isize => (inferInstance : DecidableEq Int)
  | .nonZero r => (inferInstance : DecidableEq {x : Int // r.InRange x ∧ x ≠ 0})
  | .unit _ => (inferInstance : DecidableEq Unit)
  | .infallible => (inferInstance : DecidableEq Empty)
  | .wrap _ t => t.decEq
  | .array t n => have := t.decEq; (inferInstance : DecidableEq (Items t.Val n))
  | .seq _ t => have := t.decEq; (inferInstance : DecidableEq (List t.Val))
  | .hashMap k v =>
    have := k.decEq; have := v.decEq; (inferInstance : DecidableEq (MapVal k.Val v.Val))
  | .hashSet k => have := k.decEq; (inferInstance : DecidableEq (SetVal k.Val))
  | .option t => have := t.decEq; (inferInstance : DecidableEq (Option t.Val))
  | .result t e =>
    have := t.decEq; have := e.decEq; (inferInstance : DecidableEq (ResultVal t.Val e.Val))
  | .bound t => have := t.decEq; (inferInstance : DecidableEq (BoundVal t.Val))
  | .range t => have := t.decEq; (inferInstance : DecidableEq (RangeVal t.Val))
  | .rangeInclusive t =>
    have := t.decEq; (inferInstance : DecidableEq (RangeInclusiveVal t.Val))
  | .lock _ t => have := t.decEq; (inferInstance : DecidableEq (LockVal t.Val))
  | .refCell t => have := t.decEq; (inferInstance : DecidableEq (RefCellVal t.Val))
  | .duration => (inferInstance : DecidableEq DurationVal)
  | .systemTime p => (inferInstance : DecidableEq {ns : Int // p.lo ≤ ns ∧ ns ≤ p.hi})
  | .ipv4 => (inferInstance : DecidableEq (Items UInt8 4))
  | .ipv6 => (inferInstance : DecidableEq (Items UInt8 16))
  | .ipAddr => (inferInstance : DecidableEq IpAddrVal)
  | .socketAddrV4 => (inferInstance : DecidableEq SocketAddrV4Val)
  | .socketAddrV6 => (inferInstance : DecidableEq SocketAddrV6Val)
  | .socketAddr => (inferInstance : DecidableEq SocketAddrVal)
  | .str _ => (inferInstance : DecidableEq {bs : List UInt8 // Utf8.valid bs = true})
  | .cStr _ => (inferInstance : DecidableEq {bs : List UInt8 // 0 ∉ bs})
  | .sizedStr n =>
    (inferInstance : DecidableEq {bs : List UInt8 // Utf8.valid bs = true ∧ bs.length ≤ n})
  | .sizedSlice t n =>
    have := t.decEq; (inferInstance : DecidableEq {l : List t.Val // l.length ≤ n})
  | .tuple fs => fs.decEq
  | .struct fs => fs.decEq
  | .enum _ vs => vs.decEq

/-- See `Ty.decEq`. -/
def Fields.decEq : (fs : Fields) → DecidableEq fs.Val
  | .nil => (inferInstance : DecidableEq Unit)
  | .cons t fs => have := t.decEq; have := fs.decEq; (inferInstance : DecidableEq (t.Val × fs.Val))

/-- See `Ty.decEq`. -/
def Variants.decEq : (vs : Variants) → DecidableEq vs.Val
  | .nil => (inferInstance : DecidableEq Empty)
  | .cons _ fs vs =>
    have := fs.decEq; have := vs.decEq; (inferInstance : DecidableEq (fs.Val ⊕ vs.Val))

end

instance (t : Ty) : DecidableEq t.Val := t.decEq

end Oct
