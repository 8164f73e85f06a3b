/-
Basic vocabulary of the model: octets, outcomes of a call, and error values.

The Rust source modelled here is the `oct` crate (repository bjoernager/bzipper) in /repo.
-/
namespace Oct

/-- An octet (`u8`). -/
abbrev Byte := UInt8

/-- Reasons for which a modelled call may panic. Payloads (messages) are dropped. -/
inductive Panic where
  /-- `output.write(..).unwrap()` failed: oct/src/encode/encode/mod.rs:861. -/
  | shortOutput
  /-- `input.read(..).unwrap()` / `input.read_into(..).unwrap()` failed:
  oct/src/decode/decode/mod.rs:285, :708, :827, oct/src/sized_str/code.rs:34. -/
  | shortInput
  /-- `Duration::new` panics when the carried seconds overflow (std documentation);
  reached from oct/src/decode/decode/mod.rs:315. -/
  | durationOverflow
  /-- Arithmetic overflow with overflow checks enabled
  (oct/src/encode/encode/mod.rs:803, oct/src/sized_iter/mod.rs:153). -/
  | arithmeticOverflow
  /-- `panic!("cannot deserialise `Infallible` ..")`: oct/src/decode/decode/mod.rs:381. -/
  | infallible
  /-- An `assert!` failed: oct/src/slot/mod.rs:169, :196. -/
  | assertion
  /-- A `debug_assert!` failed (only in builds with debug assertions):
  oct/src/sized_slice/mod.rs:161, oct/src/sized_slice/conv.rs:54. -/
  | debugAssertion
  /-- `Option::unwrap` on `None` in the `Index` impls, e.g. oct/src/slot/mod.rs:393. -/
  | indexOutOfBounds
  /-- `Vec::with_capacity` or `with_capacity_and_hasher` is asked for more octets than `isize::MAX` (std
  documentation); reached from oct/src/decode/decode/mod.rs:334, :363, :788. Only Model/Reserve.lean has
  it. -/
  | capacityOverflow
  /-- Not in the Rust code: marks a branch of the model that is never taken (theorem
  `C16_no_other_panic_partial` covers it). -/
  | unreachable
  deriving DecidableEq, Repr

/-- Kinds of undefined behaviour that the modelled code can reach from safe callers. -/
inductive Ub where
  /-- `char::from_u32_unchecked` on a surrogate: oct/src/decode/decode/mod.rs:249. -/
  | invalidChar
  /-- `copy_nonoverlapping`, `get_unchecked` or `from_raw_parts` past the end of a buffer. -/
  | outOfBounds
  /-- `assume_init_read` on an element that was already moved out, or never initialised. -/
  | uninitRead
  /-- `unchecked_sub` underflow: oct/src/sized_iter/mod.rs:179. -/
  | uncheckedSub
  /-- `alloc` with a zero-sized layout: oct/src/sized_slice/conv.rs:124. -/
  | zeroAlloc
  /-- `copy_nonoverlapping` between regions that overlap. -/
  | overlap
  deriving DecidableEq, Repr

/-- Outcome of a call returning `Result<α, ε>` that may also panic or be undefined. -/
inductive Res (ε : Type) (α : Type) where
  | ok (a : α)
  | err (e : ε)
  | panic (p : Panic)
  | ub (u : Ub)
  deriving DecidableEq, Repr

namespace Res
variable {ε α β : Type}

/-- Applies a function to the `ok` value. -/
def map (f : α → β) : Res ε α → Res ε β
  | ok a => ok (f a)
  | err e => err e
  | panic p => panic p
  | ub u => ub u

/-- `Result::map_err`. -/
def mapErr {ε' : Type} (g : ε → ε') : Res ε α → Res ε' α
  | ok a => ok a
  | err e => err (g e)
  | panic p => panic p
  | ub u => ub u

@[simp] theorem map_ok (f : α → β) (a : α) : (ok a : Res ε α).map f = ok (f a) := rfl
@[simp] theorem map_err (f : α → β) (e : ε) : (err e : Res ε α).map f = err e := rfl
@[simp] theorem map_panic (f : α → β) (p) : (panic p : Res ε α).map f = panic p := rfl
@[simp] theorem map_ub (f : α → β) (u) : (ub u : Res ε α).map f = ub u := rfl
@[simp] theorem mapErr_ok {ε'} (g : ε → ε') (a : α) : (ok a : Res ε α).mapErr g = ok a := rfl
@[simp] theorem mapErr_err {ε'} (g : ε → ε') (e : ε) :
    (err e : Res ε α).mapErr g = err (g e) := rfl
@[simp] theorem mapErr_panic {ε'} (g : ε → ε') (p) :
    (panic p : Res ε α).mapErr g = panic p := rfl
@[simp] theorem mapErr_ub {ε'} (g : ε → ε') (u) : (ub u : Res ε α).mapErr g = ub u := rfl

end Res

/-- Values of the encode error types. Rust gives every impl its own associated `Error` type;
SIMPLIFICATION: the model uses one type with one constructor per Rust error constructor, so a
value such as `CollectionEncodeError::BadItem(ItemEncodeError { index, error })` is
`.badItem (.item index error)`. -/
inductive EncErr where
  /-- `UsizeEncodeError(n)`: oct/src/error/usize_encode_error.rs:30. -/
  | usize (n : Nat)
  /-- `IsizeEncodeError(i)`: oct/src/error/isize_encode_error.rs:30. -/
  | isize (i : Int)
  /-- `CollectionEncodeError::BadLength`: oct/src/error/collection_encode_error.rs. -/
  | badLength (e : EncErr)
  /-- `CollectionEncodeError::BadItem`: oct/src/error/collection_encode_error.rs. -/
  | badItem (e : EncErr)
  /-- `ItemEncodeError { index, error }`: oct/src/error/item_encode_error.rs. -/
  | item (index : Nat) (e : EncErr)
  /-- The pair `(index, error)` used by `LinkedList`: oct/src/encode/encode/mod.rs:476. -/
  | pair (index : Nat) (e : EncErr)
  /-- `EnumEncodeError::BadDiscriminant`: oct/src/error/enum_encode_error.rs:33. -/
  | badDiscriminant (e : EncErr)
  /-- `EnumEncodeError::BadField`: oct/src/error/enum_encode_error.rs:36. -/
  | badField (e : EncErr)
  /-- `RefCellEncodeError::BadBorrow(BorrowError)`: oct/src/error/ref_cell_encode_error.rs:35. -/
  | badBorrow
  /-- `RefCellEncodeError::BadValue`: oct/src/error/ref_cell_encode_error.rs:38. -/
  | badValue (e : EncErr)
  /-- `GenericEncodeError::LargeIsize`: oct/src/error/generic_encode_error.rs:49. -/
  | gLargeIsize (i : Int)
  /-- `GenericEncodeError::LargeUsize`: oct/src/error/generic_encode_error.rs:52. -/
  | gLargeUsize (n : Nat)
  deriving DecidableEq, Repr

/-- `Into<GenericEncodeError>`: oct/src/error/generic_encode_error.rs:85-154. The `From` impls
forward to the wrapped error and drop indices. There is no impl for `RefCellEncodeError` nor for
the pair used by `LinkedList` (such fields do not compile in a derive); the model leaves
`badBorrow` unchanged there and forwards otherwise. -/
def EncErr.toGeneric : EncErr → EncErr
  | .usize n => .gLargeUsize n
  | .isize i => .gLargeIsize i
  | .badLength e => e.toGeneric
  | .badItem e => e.toGeneric
  | .item _ e => e.toGeneric
  | .pair _ e => e.toGeneric
  | .badDiscriminant e => e.toGeneric
  | .badField e => e.toGeneric
  | .badBorrow => .badBorrow
  | .badValue e => e.toGeneric
  | .gLargeIsize i => .gLargeIsize i
  | .gLargeUsize n => .gLargeUsize n

/-- Values of the decode error types, one constructor per Rust error constructor (same
SIMPLIFICATION as `EncErr`). -/
inductive DecErr where
  /-- `CharDecodeError { code_point }`: oct/src/error/char_decode_error.rs:34. -/
  | char (codePoint : Nat)
  /-- `CStringDecodeError { index }`: oct/src/error/c_string_decode_error.rs:34. -/
  | cString (index : Nat)
  /-- `NonZeroDecodeError`: oct/src/error/non_zero_decode_error.rs:29. -/
  | nonZero
  /-- `SystemTimeDecodeError { timestamp }`: oct/src/error/system_time_decode_error.rs:32. -/
  | systemTime (timestamp : Int)
  /-- `LengthError { capacity, len }`: oct/src/error/length_error.rs:35. -/
  | length (capacity len : Nat)
  /-- `Utf8Error { value, index }`: oct/src/error/utf8_error.rs:28. -/
  | utf8 (value : Byte) (index : Nat)
  /-- `CollectionDecodeError::BadLength`: oct/src/error/collection_decode_error.rs:42. -/
  | badLength (e : DecErr)
  /-- `CollectionDecodeError::BadItem`: oct/src/error/collection_decode_error.rs:48. -/
  | badItem (e : DecErr)
  /-- `ItemDecodeError { index, error }`: oct/src/error/item_decode_error.rs:31. -/
  | item (index : Nat) (e : DecErr)
  /-- `EnumDecodeError::UnassignedDiscriminant { value }`: oct/src/error/enum_decode_error.rs:39. -/
  | unassigned (value : Int)
  /-- `EnumDecodeError::BadField`: oct/src/error/enum_decode_error.rs:45. -/
  | badField (e : DecErr)
  /-- `GenericDecodeError::BadString`: oct/src/error/generic_decode_error.rs:51. -/
  | gBadString (value : Byte) (index : Nat)
  /-- `GenericDecodeError::NullString`: oct/src/error/generic_decode_error.rs:56. -/
  | gNullString (index : Nat)
  /-- `GenericDecodeError::NullInteger`: oct/src/error/generic_decode_error.rs:59. -/
  | gNullInteger
  /-- `GenericDecodeError::SmallBuffer`: oct/src/error/generic_decode_error.rs:62. -/
  | gSmallBuffer (capacity len : Nat)
  /-- `GenericDecodeError::UnassignedDiscriminant { value: u128 }`:
  oct/src/error/generic_decode_error.rs:67. -/
  | gUnassigned (value : Nat)
  /-- `GenericDecodeError::NarrowSystemTime`: oct/src/error/generic_decode_error.rs:75. -/
  | gNarrowSystemTime (timestamp : Int)
  deriving DecidableEq, Repr

/-- `PrimitiveDiscriminant::to_u128`, i.e. `self as u128`:
oct/src/primitive_discriminant/mod.rs:52-54. A Rust integer cast to `u128` takes the value modulo
`2^128`, so negative values are sign-extended. -/
def toU128 (v : Int) : Nat := (v % (2 ^ 128 : Int)).toNat

/-- `Into<GenericDecodeError>`: oct/src/error/generic_decode_error.rs:125-214. There is no impl
for `CharDecodeError` nor for `EnumDecodeError<bool, _>` (such fields do not compile in a derive);
the model leaves `char` unchanged there. -/
def DecErr.toGeneric : DecErr → DecErr
  | .char c => .char c
  | .cString i => .gNullString i
  | .nonZero => .gNullInteger
  | .systemTime t => .gNarrowSystemTime t
  | .length c l => .gSmallBuffer c l
  | .utf8 v i => .gBadString v i
  | .badLength e => e.toGeneric
  | .badItem e => e.toGeneric
  | .item _ e => e.toGeneric
  | .unassigned v => .gUnassigned (toU128 v)
  | .badField e => e.toGeneric
  | .gBadString v i => .gBadString v i
  | .gNullString i => .gNullString i
  | .gNullInteger => .gNullInteger
  | .gSmallBuffer c l => .gSmallBuffer c l
  | .gUnassigned v => .gUnassigned v
  | .gNarrowSystemTime t => .gNarrowSystemTime t

end Oct
