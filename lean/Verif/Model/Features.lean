/-
The conditional compilation of the crate: which parts stand under which features and targets, which
names they use, and which traits which types implement. oct/Cargo.toml:20-25 declares the features
`alloc`, `proc-macro` and `std`, none of which enables another.

Modelled are the names that do not stand under every configuration; a name that stands under every
configuration always resolves. A part of the source is listed once for each such name, at the first
line on which it uses it. Tests and `cfg(doc)` are left out.
-/
namespace Oct

/-- A configuration: the features, and the `target_has_atomic` of the target. -/
structure Config where
  alloc : Bool
  std : Bool
  procMacro : Bool
  atomic8 : Bool
  atomic16 : Bool
  atomic32 : Bool
  atomic64 : Bool
  atomicPtr : Bool
  deriving DecidableEq

/-- The predicates of `#[cfg(...)]` that the crate uses. -/
inductive Cond where
  | always | never
  | alloc | std | procMacro
  | atomic8 | atomic16 | atomic32 | atomic64 | atomicPtr
  /-- `all(a, b)` -/
  | both (a b : Cond)
  deriving DecidableEq

/-- Whether a predicate holds. -/
def Cond.holds (c : Config) : Cond → Bool
  | .always => true
  | .never => false
  | .alloc => c.alloc
  | .std => c.std
  | .procMacro => c.procMacro
  | .atomic8 => c.atomic8
  | .atomic16 => c.atomic16
  | .atomic32 => c.atomic32
  | .atomic64 => c.atomic64
  | .atomicPtr => c.atomicPtr
  | .both a b => a.holds c && b.holds c

/-- The source files, under oct/src, with parts that depend on the configuration. -/
inductive SrcFile where
  /-- decode/decode/mod.rs -/
  | decode
  /-- decode/decode_borrowed/mod.rs -/
  | decodeBorrowed
  /-- decode/mod.rs -/
  | decodeRoot
  /-- encode/mod.rs -/
  | encodeRoot
  /-- encode/encode/mod.rs -/
  | encode
  /-- encode/sized_encode/mod.rs -/
  | sizedEncode
  /-- error/generic_decode_error.rs -/
  | genericDecodeError
  /-- sized_slice/cmp.rs -/
  | sliceCmp
  /-- sized_slice/conv.rs -/
  | sliceConv
  /-- sized_str/cmp.rs -/
  | strCmp
  /-- sized_str/conv.rs -/
  | strConv
  /-- slot/mod.rs -/
  | slot
  deriving DecidableEq

/-- Names brought into the scope of a file by a `use`. -/
inductive Ident where
  | systemTimeDecodeError | cStringDecodeError | cow | toOwned | box | linkedList | cString | string | vec | rc | arc | hashMap
  | hashSet | buildHasher | mutex | rwLock | systemTime | unixEpoch | cStr | lazyLock | alloc | layout | osStr | toSocketAddrs | path
  deriving DecidableEq

/-- Names that do not stand under every configuration. -/
inductive CondName where
  /-- The crate `alloc`: oct/src/lib.rs:358-359. -/
  | crateAlloc
  /-- The crate `std`: oct/src/lib.rs:361-362. -/
  | crateStd
  /-- The crate `oct_macros`, an optional dependency: oct/Cargo.toml:24, 28. -/
  | crateMacros
  /-- `alloc::sync::Arc`, which targets without atomic pointers lack. -/
  | allocSync
  /-- The atomic types of `std::sync::atomic` of one width, which targets without them lack. -/
  | stdAtomic (width : Cond)
  /-- `crate::error::CStringDecodeError`: oct/src/error/mod.rs:49-50. -/
  | cStringDecodeError
  /-- `crate::error::SystemTimeDecodeError`: oct/src/error/mod.rs:52-53. -/
  | systemTimeDecodeError
  /-- `GenericDecodeError::NullString`: oct/src/error/generic_decode_error.rs:54-56. -/
  | nullString
  /-- `GenericDecodeError::NarrowSystemTime`: oct/src/error/generic_decode_error.rs:73-75. -/
  | narrowSystemTime
  /-- A name that a `use` of the file brings into scope. -/
  | imported (f : SrcFile) (i : Ident)
  deriving DecidableEq

/-- The `use` declarations: under which condition a file has a name in scope. -/
def imports : List (SrcFile × Ident × Cond) :=
  [(.decode, .systemTimeDecodeError, .always), (.decode, .cStringDecodeError, .always), (.decode, .cow, .alloc),
   (.decode, .toOwned, .alloc), (.decode, .box, .alloc), (.decode, .linkedList, .alloc),
   (.decode, .cString, .alloc), (.decode, .string, .alloc), (.decode, .vec, .alloc),
   (.decode, .rc, .alloc), (.decode, .arc, .both .alloc .atomicPtr), (.decode, .hashMap, .std),
   (.decode, .hashSet, .std), (.decode, .buildHasher, .std), (.decode, .mutex, .std),
   (.decode, .rwLock, .std), (.decode, .systemTime, .std), (.decode, .unixEpoch, .std),
   (.decodeBorrowed, .cStr, .alloc), (.decodeBorrowed, .box, .alloc), (.decodeBorrowed, .cString, .alloc),
   (.decodeBorrowed, .rc, .alloc), (.decodeBorrowed, .vec, .alloc), (.decodeBorrowed, .string, .alloc),
   (.decodeBorrowed, .arc, .both .alloc .atomicPtr), (.encode, .cow, .alloc), (.encode, .toOwned, .alloc),
   (.encode, .box, .alloc), (.encode, .linkedList, .alloc), (.encode, .cString, .alloc),
   (.encode, .string, .alloc), (.encode, .vec, .alloc), (.encode, .rc, .alloc),
   (.encode, .arc, .both .alloc .atomicPtr), (.encode, .hashMap, .std), (.encode, .hashSet, .std),
   (.encode, .lazyLock, .std), (.encode, .mutex, .std), (.encode, .rwLock, .std),
   (.encode, .systemTime, .std), (.encode, .unixEpoch, .std), (.sizedEncode, .cow, .alloc),
   (.sizedEncode, .toOwned, .alloc), (.sizedEncode, .box, .alloc), (.sizedEncode, .rc, .alloc),
   (.sizedEncode, .arc, .both .alloc .atomicPtr), (.sizedEncode, .lazyLock, .std), (.sizedEncode, .mutex, .std),
   (.sizedEncode, .rwLock, .std), (.sizedEncode, .systemTime, .std), (.genericDecodeError, .systemTimeDecodeError, .always),
   (.genericDecodeError, .cStringDecodeError, .alloc), (.sliceCmp, .vec, .alloc), (.sliceConv, .alloc, .alloc),
   (.sliceConv, .layout, .alloc), (.sliceConv, .box, .alloc), (.sliceConv, .vec, .alloc),
   (.strCmp, .string, .alloc), (.strConv, .box, .alloc), (.strConv, .string, .alloc),
   (.strConv, .osStr, .std), (.strConv, .toSocketAddrs, .std), (.strConv, .path, .std),
   (.slot, .box, .alloc), (.slot, .vec, .alloc)]

/-- Under which condition a name stands. -/
def CondName.stands : CondName → Cond
  | .crateAlloc => .alloc
  | .crateStd => .std
  | .crateMacros => .procMacro
  | .allocSync => .atomicPtr
  | .stdAtomic w => w
  | .cStringDecodeError => .alloc
  | .systemTimeDecodeError => .std
  | .nullString => .std
  | .narrowSystemTime => .std
  | .imported f i =>
    match imports.find? fun p => p.1 == f && p.2.1 == i with
    | some (_, _, c) => c
    | none => .never

/-- A use of a name in the source, and the condition under which the part that uses it stands. -/
structure CondUse where
  file : SrcFile
  line : Nat
  name : CondName
  cond : Cond
  deriving DecidableEq

/-- The uses of conditional names in each file. -/
def condUses : List CondUse :=
  [⟨.decode, 27, .cStringDecodeError, .always⟩, ⟨.decode, 32, .systemTimeDecodeError, .always⟩,
   ⟨.decode, 64, .crateAlloc, .alloc⟩, ⟨.decode, 67, .crateAlloc, .alloc⟩,
   ⟨.decode, 70, .crateAlloc, .alloc⟩, ⟨.decode, 73, .crateAlloc, .alloc⟩,
   ⟨.decode, 76, .crateAlloc, .alloc⟩, ⟨.decode, 79, .crateAlloc, .alloc⟩,
   ⟨.decode, 82, .crateAlloc, .alloc⟩, ⟨.decode, 85, .allocSync, .both .alloc .atomicPtr⟩,
   ⟨.decode, 85, .crateAlloc, .both .alloc .atomicPtr⟩, ⟨.decode, 88, .crateStd, .std⟩,
   ⟨.decode, 91, .crateStd, .std⟩, ⟨.decode, 94, .crateStd, .std⟩,
   ⟨.decode, 97, .crateStd, .std⟩, ⟨.decode, 156, .imported .decode .arc, .both .alloc .atomicPtr⟩,
   ⟨.decode, 216, .imported .decode .box, .alloc⟩, ⟨.decode, 260, .imported .decode .cow, .alloc⟩,
   ⟨.decode, 263, .imported .decode .toOwned, .alloc⟩, ⟨.decode, 278, .imported .decode .cString, .alloc⟩,
   ⟨.decode, 279, .imported .decode .cStringDecodeError, .alloc⟩, ⟨.decode, 291, .imported .decode .vec, .alloc⟩,
   ⟨.decode, 322, .imported .decode .hashMap, .std⟩, ⟨.decode, 326, .imported .decode .buildHasher, .std⟩,
   ⟨.decode, 352, .imported .decode .hashSet, .std⟩, ⟨.decode, 355, .imported .decode .buildHasher, .std⟩,
   ⟨.decode, 441, .imported .decode .linkedList, .alloc⟩, ⟨.decode, 463, .imported .decode .mutex, .std⟩,
   ⟨.decode, 580, .imported .decode .rc, .alloc⟩, ⟨.decode, 631, .imported .decode .rwLock, .std⟩,
   ⟨.decode, 701, .imported .decode .string, .alloc⟩, ⟨.decode, 721, .imported .decode .vec, .alloc⟩,
   ⟨.decode, 739, .imported .decode .systemTime, .std⟩, ⟨.decode, 740, .imported .decode .systemTimeDecodeError, .std⟩,
   ⟨.decode, 749, .imported .decode .unixEpoch, .std⟩, ⟨.decode, 781, .imported .decode .vec, .alloc⟩,
   ⟨.decode, 1046, .stdAtomic .atomic8, .atomic8⟩, ⟨.decode, 1046, .crateStd, .atomic8⟩,
   ⟨.decode, 1052, .stdAtomic .atomic16, .atomic16⟩, ⟨.decode, 1052, .crateStd, .atomic16⟩,
   ⟨.decode, 1058, .stdAtomic .atomic32, .atomic32⟩, ⟨.decode, 1058, .crateStd, .atomic32⟩,
   ⟨.decode, 1064, .stdAtomic .atomic64, .atomic64⟩, ⟨.decode, 1064, .crateStd, .atomic64⟩,
   ⟨.decode, 1070, .stdAtomic .atomic8, .atomic8⟩, ⟨.decode, 1070, .crateStd, .atomic8⟩,
   ⟨.decode, 1076, .stdAtomic .atomicPtr, .atomicPtr⟩, ⟨.decode, 1076, .crateStd, .atomicPtr⟩,
   ⟨.decode, 1082, .stdAtomic .atomic16, .atomic16⟩, ⟨.decode, 1082, .crateStd, .atomic16⟩,
   ⟨.decode, 1088, .stdAtomic .atomic32, .atomic32⟩, ⟨.decode, 1088, .crateStd, .atomic32⟩,
   ⟨.decode, 1094, .stdAtomic .atomic64, .atomic64⟩, ⟨.decode, 1094, .crateStd, .atomic64⟩,
   ⟨.decode, 1100, .stdAtomic .atomic8, .atomic8⟩, ⟨.decode, 1100, .crateStd, .atomic8⟩,
   ⟨.decode, 1106, .stdAtomic .atomicPtr, .atomicPtr⟩, ⟨.decode, 1106, .crateStd, .atomicPtr⟩,
   ⟨.decodeBorrowed, 30, .crateAlloc, .alloc⟩, ⟨.decodeBorrowed, 33, .crateAlloc, .alloc⟩,
   ⟨.decodeBorrowed, 36, .crateAlloc, .alloc⟩, ⟨.decodeBorrowed, 39, .crateAlloc, .alloc⟩,
   ⟨.decodeBorrowed, 42, .crateAlloc, .alloc⟩, ⟨.decodeBorrowed, 45, .allocSync, .both .alloc .atomicPtr⟩,
   ⟨.decodeBorrowed, 45, .crateAlloc, .both .alloc .atomicPtr⟩, ⟨.decodeBorrowed, 67, .imported .decodeBorrowed .arc, .both .alloc .atomicPtr⟩,
   ⟨.decodeBorrowed, 71, .imported .decodeBorrowed .box, .alloc⟩, ⟨.decodeBorrowed, 75, .imported .decodeBorrowed .cStr, .alloc⟩,
   ⟨.decodeBorrowed, 75, .imported .decodeBorrowed .cString, .alloc⟩, ⟨.decodeBorrowed, 79, .imported .decodeBorrowed .rc, .alloc⟩,
   ⟨.decodeBorrowed, 83, .imported .decodeBorrowed .string, .alloc⟩, ⟨.decodeBorrowed, 87, .imported .decodeBorrowed .vec, .alloc⟩,
   ⟨.decodeRoot, 36, .crateMacros, .procMacro⟩, ⟨.encodeRoot, 117, .crateMacros, .procMacro⟩,
   ⟨.encodeRoot, 131, .crateMacros, .procMacro⟩, ⟨.encode, 62, .crateAlloc, .alloc⟩,
   ⟨.encode, 65, .crateAlloc, .alloc⟩, ⟨.encode, 68, .crateAlloc, .alloc⟩,
   ⟨.encode, 71, .crateAlloc, .alloc⟩, ⟨.encode, 74, .crateAlloc, .alloc⟩,
   ⟨.encode, 77, .crateAlloc, .alloc⟩, ⟨.encode, 80, .crateAlloc, .alloc⟩,
   ⟨.encode, 83, .allocSync, .both .alloc .atomicPtr⟩, ⟨.encode, 83, .crateAlloc, .both .alloc .atomicPtr⟩,
   ⟨.encode, 86, .crateStd, .std⟩, ⟨.encode, 89, .crateStd, .std⟩,
   ⟨.encode, 92, .crateStd, .std⟩, ⟨.encode, 219, .imported .encode .arc, .both .alloc .atomicPtr⟩,
   ⟨.encode, 265, .imported .encode .box, .alloc⟩, ⟨.encode, 294, .imported .encode .cow, .alloc⟩,
   ⟨.encode, 294, .imported .encode .toOwned, .alloc⟩, ⟨.encode, 315, .imported .encode .cString, .alloc⟩,
   ⟨.encode, 340, .imported .encode .hashMap, .std⟩, ⟨.encode, 361, .imported .encode .hashSet, .std⟩,
   ⟨.encode, 464, .imported .encode .lazyLock, .std⟩, ⟨.encode, 475, .imported .encode .linkedList, .alloc⟩,
   ⟨.encode, 497, .imported .encode .mutex, .std⟩, ⟨.encode, 504, .crateStd, .std⟩,
   ⟨.encode, 617, .imported .encode .rc, .alloc⟩, ⟨.encode, 678, .imported .encode .rwLock, .std⟩,
   ⟨.encode, 764, .imported .encode .string, .alloc⟩, ⟨.encode, 776, .imported .encode .systemTime, .std⟩,
   ⟨.encode, 792, .imported .encode .unixEpoch, .std⟩, ⟨.encode, 836, .imported .encode .vec, .alloc⟩,
   ⟨.encode, 922, .crateStd, .atomic16⟩, ⟨.encode, 922, .crateStd, .atomicPtr⟩,
   ⟨.encode, 922, .crateStd, .atomic64⟩, ⟨.encode, 922, .crateStd, .atomic8⟩,
   ⟨.encode, 922, .crateStd, .atomic32⟩, ⟨.encode, 1071, .stdAtomic .atomic8, .atomic8⟩,
   ⟨.encode, 1071, .crateStd, .atomic8⟩, ⟨.encode, 1077, .stdAtomic .atomic16, .atomic16⟩,
   ⟨.encode, 1077, .crateStd, .atomic16⟩, ⟨.encode, 1083, .stdAtomic .atomic32, .atomic32⟩,
   ⟨.encode, 1083, .crateStd, .atomic32⟩, ⟨.encode, 1089, .stdAtomic .atomic64, .atomic64⟩,
   ⟨.encode, 1089, .crateStd, .atomic64⟩, ⟨.encode, 1095, .stdAtomic .atomic8, .atomic8⟩,
   ⟨.encode, 1095, .crateStd, .atomic8⟩, ⟨.encode, 1101, .stdAtomic .atomicPtr, .atomicPtr⟩,
   ⟨.encode, 1101, .crateStd, .atomicPtr⟩, ⟨.encode, 1107, .stdAtomic .atomic16, .atomic16⟩,
   ⟨.encode, 1107, .crateStd, .atomic16⟩, ⟨.encode, 1113, .stdAtomic .atomic32, .atomic32⟩,
   ⟨.encode, 1113, .crateStd, .atomic32⟩, ⟨.encode, 1119, .stdAtomic .atomic64, .atomic64⟩,
   ⟨.encode, 1119, .crateStd, .atomic64⟩, ⟨.encode, 1125, .stdAtomic .atomic8, .atomic8⟩,
   ⟨.encode, 1125, .crateStd, .atomic8⟩, ⟨.encode, 1131, .stdAtomic .atomicPtr, .atomicPtr⟩,
   ⟨.encode, 1131, .crateStd, .atomicPtr⟩, ⟨.sizedEncode, 51, .crateAlloc, .alloc⟩,
   ⟨.sizedEncode, 54, .crateAlloc, .alloc⟩, ⟨.sizedEncode, 57, .crateAlloc, .alloc⟩,
   ⟨.sizedEncode, 60, .allocSync, .both .alloc .atomicPtr⟩, ⟨.sizedEncode, 60, .crateAlloc, .both .alloc .atomicPtr⟩,
   ⟨.sizedEncode, 63, .crateStd, .std⟩, ⟨.sizedEncode, 66, .crateStd, .std⟩,
   ⟨.sizedEncode, 106, .imported .sizedEncode .arc, .both .alloc .atomicPtr⟩, ⟨.sizedEncode, 122, .imported .sizedEncode .box, .alloc⟩,
   ⟨.sizedEncode, 136, .imported .sizedEncode .cow, .alloc⟩, ⟨.sizedEncode, 136, .imported .sizedEncode .toOwned, .alloc⟩,
   ⟨.sizedEncode, 174, .imported .sizedEncode .lazyLock, .std⟩, ⟨.sizedEncode, 180, .imported .sizedEncode .mutex, .std⟩,
   ⟨.sizedEncode, 220, .imported .sizedEncode .rc, .alloc⟩, ⟨.sizedEncode, 240, .imported .sizedEncode .rwLock, .std⟩,
   ⟨.sizedEncode, 271, .imported .sizedEncode .systemTime, .std⟩, ⟨.sizedEncode, 471, .stdAtomic .atomic8, .atomic8⟩,
   ⟨.sizedEncode, 471, .crateStd, .atomic8⟩, ⟨.sizedEncode, 477, .stdAtomic .atomic16, .atomic16⟩,
   ⟨.sizedEncode, 477, .crateStd, .atomic16⟩, ⟨.sizedEncode, 483, .stdAtomic .atomic32, .atomic32⟩,
   ⟨.sizedEncode, 483, .crateStd, .atomic32⟩, ⟨.sizedEncode, 489, .stdAtomic .atomic64, .atomic64⟩,
   ⟨.sizedEncode, 489, .crateStd, .atomic64⟩, ⟨.sizedEncode, 495, .stdAtomic .atomic8, .atomic8⟩,
   ⟨.sizedEncode, 495, .crateStd, .atomic8⟩, ⟨.sizedEncode, 501, .stdAtomic .atomicPtr, .atomicPtr⟩,
   ⟨.sizedEncode, 501, .crateStd, .atomicPtr⟩, ⟨.sizedEncode, 507, .stdAtomic .atomic16, .atomic16⟩,
   ⟨.sizedEncode, 507, .crateStd, .atomic16⟩, ⟨.sizedEncode, 513, .stdAtomic .atomic32, .atomic32⟩,
   ⟨.sizedEncode, 513, .crateStd, .atomic32⟩, ⟨.sizedEncode, 519, .stdAtomic .atomic64, .atomic64⟩,
   ⟨.sizedEncode, 519, .crateStd, .atomic64⟩, ⟨.sizedEncode, 525, .stdAtomic .atomic8, .atomic8⟩,
   ⟨.sizedEncode, 525, .crateStd, .atomic8⟩, ⟨.sizedEncode, 531, .stdAtomic .atomicPtr, .atomicPtr⟩,
   ⟨.sizedEncode, 531, .crateStd, .atomicPtr⟩, ⟨.genericDecodeError, 31, .systemTimeDecodeError, .always⟩,
   ⟨.genericDecodeError, 35, .cStringDecodeError, .alloc⟩, ⟨.genericDecodeError, 56, .imported .genericDecodeError .cStringDecodeError, .std⟩,
   ⟨.genericDecodeError, 75, .imported .genericDecodeError .systemTimeDecodeError, .std⟩, ⟨.genericDecodeError, 85, .nullString, .always⟩,
   ⟨.genericDecodeError, 98, .narrowSystemTime, .std⟩, ⟨.genericDecodeError, 111, .nullString, .std⟩,
   ⟨.genericDecodeError, 118, .narrowSystemTime, .std⟩, ⟨.genericDecodeError, 144, .imported .genericDecodeError .cStringDecodeError, .alloc⟩,
   ⟨.genericDecodeError, 147, .nullString, .alloc⟩, ⟨.genericDecodeError, 202, .imported .genericDecodeError .systemTimeDecodeError, .std⟩,
   ⟨.genericDecodeError, 205, .narrowSystemTime, .std⟩, ⟨.sliceCmp, 27, .crateAlloc, .alloc⟩,
   ⟨.sliceCmp, 61, .imported .sliceCmp .vec, .alloc⟩, ⟨.sliceCmp, 91, .imported .sliceCmp .vec, .alloc⟩,
   ⟨.sliceConv, 32, .crateAlloc, .alloc⟩, ⟨.sliceConv, 35, .crateAlloc, .alloc⟩,
   ⟨.sliceConv, 38, .crateAlloc, .alloc⟩, ⟨.sliceConv, 119, .imported .sliceConv .box, .alloc⟩,
   ⟨.sliceConv, 123, .imported .sliceConv .layout, .alloc⟩, ⟨.sliceConv, 124, .imported .sliceConv .alloc, .alloc⟩,
   ⟨.sliceConv, 145, .imported .sliceConv .vec, .alloc⟩, ⟨.sliceConv, 216, .imported .sliceConv .box, .alloc⟩,
   ⟨.sliceConv, 225, .imported .sliceConv .vec, .alloc⟩, ⟨.strCmp, 27, .crateAlloc, .alloc⟩,
   ⟨.strCmp, 52, .imported .strCmp .string, .alloc⟩, ⟨.strCmp, 75, .imported .strCmp .string, .alloc⟩,
   ⟨.strConv, 33, .crateAlloc, .alloc⟩, ⟨.strConv, 36, .crateAlloc, .alloc⟩,
   ⟨.strConv, 39, .crateStd, .std⟩, ⟨.strConv, 42, .crateStd, .std⟩,
   ⟨.strConv, 45, .crateStd, .std⟩, ⟨.strConv, 209, .imported .strConv .box, .alloc⟩,
   ⟨.strConv, 211, .crateAlloc, .alloc⟩, ⟨.strConv, 221, .imported .strConv .string, .alloc⟩,
   ⟨.strConv, 235, .imported .strConv .osStr, .std⟩, ⟨.strConv, 244, .imported .strConv .path, .std⟩,
   ⟨.strConv, 309, .imported .strConv .toSocketAddrs, .std⟩, ⟨.strConv, 313, .crateStd, .std⟩,
   ⟨.strConv, 341, .imported .strConv .string, .alloc⟩, ⟨.strConv, 353, .imported .strConv .box, .alloc⟩,
   ⟨.strConv, 363, .imported .strConv .string, .alloc⟩, ⟨.slot, 28, .crateAlloc, .alloc⟩,
   ⟨.slot, 29, .crateAlloc, .alloc⟩, ⟨.slot, 70, .imported .slot .box, .alloc⟩,
   ⟨.slot, 86, .imported .slot .vec, .alloc⟩, ⟨.slot, 108, .imported .slot .box, .alloc⟩]

/-- The four traits. -/
inductive CondTrait where
  | encode | sizedEncode | decode | decodeBorrowed
  deriving DecidableEq

/-- What the traits are implemented for, up to the arguments. -/
inductive ImplHead where
  | ref | refMut | tuple1 | array | slice | arc | bool | bound
  | box | cell | char | cow | cStr | cString | duration | hashMap
  | hashSet | infallible | ipAddr | ipv4Addr | ipv6Addr | isize | lazyCell | lazyLock
  | linkedList | mutex | option | phantomData | phantomPinned | range | rangeFrom | rangeFull
  | rangeInclusive | rangeTo | rangeToInclusive | rc | refCell | result | rwLock | saturating
  | socketAddr | socketAddrV4 | socketAddrV6 | str | string | systemTime | unit | usize
  | vec | wrapping | f32 | f64 | i128 | i16 | i32 | i64
  | i8 | u128 | u16 | u32 | u64 | u8 | tuple2 | tuple3
  | tuple4 | tuple5 | tuple6 | tuple7 | tuple8 | tuple9 | tuple10 | tuple11
  | tuple12 | nonZeroI128 | nonZeroI16 | nonZeroI32 | nonZeroI64 | nonZeroI8 | nonZeroIsize | nonZeroU128
  | nonZeroU16 | nonZeroU32 | nonZeroU64 | nonZeroU8 | nonZeroUsize | atomicBool | atomicI16 | atomicI32
  | atomicI64 | atomicI8 | atomicIsize | atomicU16 | atomicU32 | atomicU64 | atomicU8 | atomicUsize
  | sizedSlice | sizedStr
  deriving DecidableEq

/-- An impl and the condition under which it stands. -/
structure CondImpl where
  line : Nat
  trait : CondTrait
  head : ImplHead
  cond : Cond
  deriving DecidableEq

/-- The impls of `Encode`: oct/src/encode/encode/mod.rs; and oct/src/sized_slice/code.rs, oct/src/sized_str/code.rs. -/
def encodeImpls : List CondImpl :=
  [⟨149, .encode, .ref, .always⟩, ⟨158, .encode, .refMut, .always⟩, ⟨169, .encode, .tuple1, .always⟩,
   ⟨178, .encode, .array, .always⟩, ⟨196, .encode, .slice, .always⟩, ⟨219, .encode, .arc, .both .alloc .atomicPtr⟩,
   ⟨228, .encode, .bool, .always⟩, ⟨238, .encode, .bound, .always⟩, ⟨265, .encode, .box, .alloc⟩,
   ⟨274, .encode, .cell, .always⟩, ⟨283, .encode, .char, .always⟩, ⟨294, .encode, .cow, .alloc⟩,
   ⟨303, .encode, .cStr, .always⟩, ⟨315, .encode, .cString, .alloc⟩, ⟨325, .encode, .duration, .always⟩,
   ⟨340, .encode, .hashMap, .std⟩, ⟨361, .encode, .hashSet, .std⟩, ⟨380, .encode, .infallible, .always⟩,
   ⟨391, .encode, .ipAddr, .always⟩, ⟨417, .encode, .ipv4Addr, .always⟩, ⟨428, .encode, .ipv6Addr, .always⟩,
   ⟨439, .encode, .isize, .always⟩, ⟨453, .encode, .lazyCell, .always⟩, ⟨464, .encode, .lazyLock, .std⟩,
   ⟨475, .encode, .linkedList, .alloc⟩, ⟨497, .encode, .mutex, .std⟩, ⟨509, .encode, .option, .always⟩,
   ⟨537, .encode, .phantomData, .always⟩, ⟨546, .encode, .phantomPinned, .always⟩, ⟨555, .encode, .range, .always⟩,
   ⟨567, .encode, .rangeFrom, .always⟩, ⟨576, .encode, .rangeFull, .always⟩, ⟨585, .encode, .rangeInclusive, .always⟩,
   ⟨597, .encode, .rangeTo, .always⟩, ⟨606, .encode, .rangeToInclusive, .always⟩, ⟨617, .encode, .rc, .alloc⟩,
   ⟨626, .encode, .refCell, .always⟩, ⟨642, .encode, .result, .always⟩, ⟨678, .encode, .rwLock, .std⟩,
   ⟨690, .encode, .saturating, .always⟩, ⟨699, .encode, .socketAddr, .always⟩, ⟨724, .encode, .socketAddrV4, .always⟩,
   ⟨737, .encode, .socketAddrV6, .always⟩, ⟨752, .encode, .str, .always⟩, ⟨764, .encode, .string, .alloc⟩,
   ⟨776, .encode, .systemTime, .std⟩, ⟨811, .encode, .unit, .always⟩, ⟨820, .encode, .usize, .always⟩,
   ⟨836, .encode, .vec, .alloc⟩, ⟨845, .encode, .wrapping, .always⟩, ⟨932, .encode, .f32, .always⟩,
   ⟨933, .encode, .f64, .always⟩, ⟨934, .encode, .i128, .always⟩, ⟨935, .encode, .i16, .always⟩,
   ⟨936, .encode, .i32, .always⟩, ⟨937, .encode, .i64, .always⟩, ⟨938, .encode, .i8, .always⟩,
   ⟨939, .encode, .u128, .always⟩, ⟨940, .encode, .u16, .always⟩, ⟨941, .encode, .u32, .always⟩,
   ⟨942, .encode, .u64, .always⟩, ⟨943, .encode, .u8, .always⟩, ⟨945, .encode, .tuple2, .always⟩,
   ⟨950, .encode, .tuple3, .always⟩, ⟨956, .encode, .tuple4, .always⟩, ⟨963, .encode, .tuple5, .always⟩,
   ⟨971, .encode, .tuple6, .always⟩, ⟨980, .encode, .tuple7, .always⟩, ⟨990, .encode, .tuple8, .always⟩,
   ⟨1001, .encode, .tuple9, .always⟩, ⟨1013, .encode, .tuple10, .always⟩, ⟨1026, .encode, .tuple11, .always⟩,
   ⟨1040, .encode, .tuple12, .always⟩, ⟨1055, .encode, .nonZeroI128, .always⟩, ⟨1056, .encode, .nonZeroI16, .always⟩,
   ⟨1057, .encode, .nonZeroI32, .always⟩, ⟨1058, .encode, .nonZeroI64, .always⟩, ⟨1059, .encode, .nonZeroI8, .always⟩,
   ⟨1060, .encode, .nonZeroIsize, .always⟩, ⟨1061, .encode, .nonZeroU128, .always⟩, ⟨1062, .encode, .nonZeroU16, .always⟩,
   ⟨1063, .encode, .nonZeroU32, .always⟩, ⟨1064, .encode, .nonZeroU64, .always⟩, ⟨1065, .encode, .nonZeroU8, .always⟩,
   ⟨1066, .encode, .nonZeroUsize, .always⟩, ⟨1068, .encode, .atomicBool, .atomic8⟩, ⟨1074, .encode, .atomicI16, .atomic16⟩,
   ⟨1080, .encode, .atomicI32, .atomic32⟩, ⟨1086, .encode, .atomicI64, .atomic64⟩, ⟨1092, .encode, .atomicI8, .atomic8⟩,
   ⟨1098, .encode, .atomicIsize, .atomicPtr⟩, ⟨1104, .encode, .atomicU16, .atomic16⟩, ⟨1110, .encode, .atomicU32, .atomic32⟩,
   ⟨1116, .encode, .atomicU64, .atomic64⟩, ⟨1122, .encode, .atomicU8, .atomic8⟩, ⟨1128, .encode, .atomicUsize, .atomicPtr⟩,
   ⟨52, .encode, .sizedSlice, .always⟩, ⟨49, .encode, .sizedStr, .always⟩]

/-- The impls of `SizedEncode`: oct/src/encode/sized_encode/mod.rs; and oct/src/sized_slice/code.rs, oct/src/sized_str/code.rs. -/
def sizedEncodeImpls : List CondImpl :=
  [⟨85, .sizedEncode, .ref, .always⟩, ⟨89, .sizedEncode, .refMut, .always⟩, ⟨95, .sizedEncode, .tuple1, .always⟩,
   ⟨100, .sizedEncode, .array, .always⟩, ⟨106, .sizedEncode, .arc, .both .alloc .atomicPtr⟩, ⟨110, .sizedEncode, .bool, .always⟩,
   ⟨114, .sizedEncode, .bound, .always⟩, ⟨122, .sizedEncode, .box, .alloc⟩, ⟨126, .sizedEncode, .cell, .always⟩,
   ⟨130, .sizedEncode, .char, .always⟩, ⟨136, .sizedEncode, .cow, .alloc⟩, ⟨140, .sizedEncode, .duration, .always⟩,
   ⟨146, .sizedEncode, .infallible, .always⟩, ⟨150, .sizedEncode, .ipAddr, .always⟩, ⟨156, .sizedEncode, .ipv4Addr, .always⟩,
   ⟨160, .sizedEncode, .ipv6Addr, .always⟩, ⟨164, .sizedEncode, .isize, .always⟩, ⟨168, .sizedEncode, .lazyCell, .always⟩,
   ⟨174, .sizedEncode, .lazyLock, .std⟩, ⟨180, .sizedEncode, .mutex, .std⟩, ⟨184, .sizedEncode, .option, .always⟩,
   ⟨190, .sizedEncode, .phantomData, .always⟩, ⟨194, .sizedEncode, .range, .always⟩, ⟨198, .sizedEncode, .rangeFrom, .always⟩,
   ⟨202, .sizedEncode, .rangeFull, .always⟩, ⟨206, .sizedEncode, .rangeInclusive, .always⟩, ⟨210, .sizedEncode, .rangeTo, .always⟩,
   ⟨214, .sizedEncode, .rangeToInclusive, .always⟩, ⟨220, .sizedEncode, .rc, .alloc⟩, ⟨224, .sizedEncode, .refCell, .always⟩,
   ⟨228, .sizedEncode, .result, .always⟩, ⟨240, .sizedEncode, .rwLock, .std⟩, ⟨244, .sizedEncode, .saturating, .always⟩,
   ⟨248, .sizedEncode, .socketAddr, .always⟩, ⟨254, .sizedEncode, .socketAddrV4, .always⟩, ⟨261, .sizedEncode, .socketAddrV6, .always⟩,
   ⟨271, .sizedEncode, .systemTime, .std⟩, ⟨275, .sizedEncode, .unit, .always⟩, ⟨279, .sizedEncode, .usize, .always⟩,
   ⟨283, .sizedEncode, .wrapping, .always⟩, ⟨332, .sizedEncode, .f32, .always⟩, ⟨333, .sizedEncode, .f64, .always⟩,
   ⟨334, .sizedEncode, .i128, .always⟩, ⟨335, .sizedEncode, .i16, .always⟩, ⟨336, .sizedEncode, .i32, .always⟩,
   ⟨337, .sizedEncode, .i64, .always⟩, ⟨338, .sizedEncode, .i8, .always⟩, ⟨339, .sizedEncode, .u128, .always⟩,
   ⟨340, .sizedEncode, .u16, .always⟩, ⟨341, .sizedEncode, .u32, .always⟩, ⟨342, .sizedEncode, .u64, .always⟩,
   ⟨343, .sizedEncode, .u8, .always⟩, ⟨345, .sizedEncode, .tuple2, .always⟩, ⟨350, .sizedEncode, .tuple3, .always⟩,
   ⟨356, .sizedEncode, .tuple4, .always⟩, ⟨363, .sizedEncode, .tuple5, .always⟩, ⟨371, .sizedEncode, .tuple6, .always⟩,
   ⟨380, .sizedEncode, .tuple7, .always⟩, ⟨390, .sizedEncode, .tuple8, .always⟩, ⟨401, .sizedEncode, .tuple9, .always⟩,
   ⟨413, .sizedEncode, .tuple10, .always⟩, ⟨426, .sizedEncode, .tuple11, .always⟩, ⟨440, .sizedEncode, .tuple12, .always⟩,
   ⟨455, .sizedEncode, .nonZeroI128, .always⟩, ⟨456, .sizedEncode, .nonZeroI16, .always⟩, ⟨457, .sizedEncode, .nonZeroI32, .always⟩,
   ⟨458, .sizedEncode, .nonZeroI64, .always⟩, ⟨459, .sizedEncode, .nonZeroI8, .always⟩, ⟨460, .sizedEncode, .nonZeroIsize, .always⟩,
   ⟨461, .sizedEncode, .nonZeroU128, .always⟩, ⟨462, .sizedEncode, .nonZeroU16, .always⟩, ⟨463, .sizedEncode, .nonZeroU32, .always⟩,
   ⟨464, .sizedEncode, .nonZeroU64, .always⟩, ⟨465, .sizedEncode, .nonZeroU8, .always⟩, ⟨466, .sizedEncode, .nonZeroUsize, .always⟩,
   ⟨468, .sizedEncode, .atomicBool, .atomic8⟩, ⟨474, .sizedEncode, .atomicI16, .atomic16⟩, ⟨480, .sizedEncode, .atomicI32, .atomic32⟩,
   ⟨486, .sizedEncode, .atomicI64, .atomic64⟩, ⟨492, .sizedEncode, .atomicI8, .atomic8⟩, ⟨498, .sizedEncode, .atomicIsize, .atomicPtr⟩,
   ⟨504, .sizedEncode, .atomicU16, .atomic16⟩, ⟨510, .sizedEncode, .atomicU32, .atomic32⟩, ⟨516, .sizedEncode, .atomicU64, .atomic64⟩,
   ⟨522, .sizedEncode, .atomicU8, .atomic8⟩, ⟨528, .sizedEncode, .atomicUsize, .atomicPtr⟩, ⟨61, .sizedEncode, .sizedSlice, .always⟩,
   ⟨58, .sizedEncode, .sizedStr, .always⟩]

/-- The impls of `Decode`: oct/src/decode/decode/mod.rs; and oct/src/sized_slice/code.rs, oct/src/sized_str/code.rs. -/
def decodeImpls : List CondImpl :=
  [⟨116, .decode, .tuple1, .always⟩, ⟨126, .decode, .array, .always⟩, ⟨156, .decode, .arc, .both .alloc .atomicPtr⟩,
   ⟨168, .decode, .bool, .always⟩, ⟨183, .decode, .bound, .always⟩, ⟨216, .decode, .box, .alloc⟩,
   ⟨228, .decode, .cell, .always⟩, ⟨240, .decode, .char, .always⟩, ⟨260, .decode, .cow, .alloc⟩,
   ⟨278, .decode, .cString, .alloc⟩, ⟨307, .decode, .duration, .always⟩, ⟨322, .decode, .hashMap, .std⟩,
   ⟨352, .decode, .hashSet, .std⟩, ⟨376, .decode, .infallible, .always⟩, ⟨385, .decode, .ipAddr, .always⟩,
   ⟨404, .decode, .ipv4Addr, .always⟩, ⟨416, .decode, .ipv6Addr, .always⟩, ⟨428, .decode, .isize, .always⟩,
   ⟨441, .decode, .linkedList, .alloc⟩, ⟨463, .decode, .mutex, .std⟩, ⟨475, .decode, .option, .always⟩,
   ⟨494, .decode, .phantomData, .always⟩, ⟨503, .decode, .phantomPinned, .always⟩, ⟨512, .decode, .range, .always⟩,
   ⟨524, .decode, .rangeFrom, .always⟩, ⟨535, .decode, .rangeFull, .always⟩, ⟨544, .decode, .rangeInclusive, .always⟩,
   ⟨556, .decode, .rangeTo, .always⟩, ⟨567, .decode, .rangeToInclusive, .always⟩, ⟨580, .decode, .rc, .alloc⟩,
   ⟨589, .decode, .refCell, .always⟩, ⟨601, .decode, .result, .always⟩, ⟨631, .decode, .rwLock, .std⟩,
   ⟨643, .decode, .saturating, .always⟩, ⟨655, .decode, .socketAddr, .always⟩, ⟨671, .decode, .socketAddrV4, .always⟩,
   ⟨684, .decode, .socketAddrV6, .always⟩, ⟨701, .decode, .string, .alloc⟩, ⟨739, .decode, .systemTime, .std⟩,
   ⟨760, .decode, .unit, .always⟩, ⟨769, .decode, .usize, .always⟩, ⟨781, .decode, .vec, .alloc⟩,
   ⟨807, .decode, .wrapping, .always⟩, ⟨907, .decode, .f32, .always⟩, ⟨908, .decode, .f64, .always⟩,
   ⟨909, .decode, .i128, .always⟩, ⟨910, .decode, .i16, .always⟩, ⟨911, .decode, .i32, .always⟩,
   ⟨912, .decode, .i64, .always⟩, ⟨913, .decode, .i8, .always⟩, ⟨914, .decode, .u128, .always⟩,
   ⟨915, .decode, .u16, .always⟩, ⟨916, .decode, .u32, .always⟩, ⟨917, .decode, .u64, .always⟩,
   ⟨918, .decode, .u8, .always⟩, ⟨920, .decode, .tuple2, .always⟩, ⟨925, .decode, .tuple3, .always⟩,
   ⟨931, .decode, .tuple4, .always⟩, ⟨938, .decode, .tuple5, .always⟩, ⟨946, .decode, .tuple6, .always⟩,
   ⟨955, .decode, .tuple7, .always⟩, ⟨965, .decode, .tuple8, .always⟩, ⟨976, .decode, .tuple9, .always⟩,
   ⟨988, .decode, .tuple10, .always⟩, ⟨1001, .decode, .tuple11, .always⟩, ⟨1015, .decode, .tuple12, .always⟩,
   ⟨1030, .decode, .nonZeroI128, .always⟩, ⟨1031, .decode, .nonZeroI16, .always⟩, ⟨1032, .decode, .nonZeroI32, .always⟩,
   ⟨1033, .decode, .nonZeroI64, .always⟩, ⟨1034, .decode, .nonZeroI8, .always⟩, ⟨1035, .decode, .nonZeroIsize, .always⟩,
   ⟨1036, .decode, .nonZeroU128, .always⟩, ⟨1037, .decode, .nonZeroU16, .always⟩, ⟨1038, .decode, .nonZeroU32, .always⟩,
   ⟨1039, .decode, .nonZeroU64, .always⟩, ⟨1040, .decode, .nonZeroU8, .always⟩, ⟨1041, .decode, .nonZeroUsize, .always⟩,
   ⟨1043, .decode, .atomicBool, .atomic8⟩, ⟨1049, .decode, .atomicI16, .atomic16⟩, ⟨1055, .decode, .atomicI32, .atomic32⟩,
   ⟨1061, .decode, .atomicI64, .atomic64⟩, ⟨1067, .decode, .atomicI8, .atomic8⟩, ⟨1073, .decode, .atomicIsize, .atomicPtr⟩,
   ⟨1079, .decode, .atomicU16, .atomic16⟩, ⟨1085, .decode, .atomicU32, .atomic32⟩, ⟨1091, .decode, .atomicU64, .atomic64⟩,
   ⟨1097, .decode, .atomicU8, .atomic8⟩, ⟨1103, .decode, .atomicUsize, .atomicPtr⟩, ⟨29, .decode, .sizedSlice, .always⟩,
   ⟨27, .decode, .sizedStr, .always⟩]

/-- The impls of `DecodeBorrowed`, other than the one of each type for itself: oct/src/decode/decode_borrowed/mod.rs; and oct/src/sized_slice/code.rs, oct/src/sized_str/code.rs. -/
def decodeBorrowedImpls : List CondImpl :=
  [⟨67, .decodeBorrowed, .arc, .both .alloc .atomicPtr⟩, ⟨71, .decodeBorrowed, .box, .alloc⟩, ⟨75, .decodeBorrowed, .cString, .alloc⟩,
   ⟨79, .decodeBorrowed, .rc, .alloc⟩, ⟨83, .decodeBorrowed, .string, .alloc⟩, ⟨87, .decodeBorrowed, .vec, .alloc⟩,
   ⟨50, .decodeBorrowed, .sizedSlice, .always⟩, ⟨47, .decodeBorrowed, .sizedStr, .always⟩]

/-- All impls of the four traits. -/
def condImpls : List CondImpl :=
  encodeImpls ++ sizedEncodeImpls ++ decodeImpls ++ decodeBorrowedImpls

end Oct
