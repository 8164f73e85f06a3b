import Verif.Model.Encode
import Verif.Model.Decode
/-
The error types of the crate: which type the associated `Error` of an impl is, which conversions
between error types exist, what `source` and `Display` give.

`EncErr` and `DecErr` of `Model/Basic.lean` hold the values of all error types; `EncTy` and `DecTy`
are the types themselves.
-/
namespace Oct

/-- Encode error types. -/
inductive EncTy where
  /-- `core::convert::Infallible`. -/
  | infallible
  /-- `UsizeEncodeError`: oct/src/error/usize_encode_error.rs:30-33. -/
  | usize
  /-- `IsizeEncodeError`: oct/src/error/isize_encode_error.rs:30-33. -/
  | isize
  /-- `CollectionEncodeError<L, I>`: oct/src/error/collection_encode_error.rs:32-38. -/
  | coll (l i : EncTy)
  /-- `ItemEncodeError<usize, E>`: oct/src/error/item_encode_error.rs:31-37. -/
  | item (e : EncTy)
  /-- `(usize, E)`: oct/src/encode/encode/mod.rs:476. -/
  | pair (e : EncTy)
  /-- `EnumEncodeError<D, F>`: oct/src/error/enum_encode_error.rs:31-37. -/
  | enum (d : Repr) (f : EncTy)
  /-- `RefCellEncodeError<E>`: oct/src/error/ref_cell_encode_error.rs:33-39. -/
  | refCell (e : EncTy)
  /-- `GenericEncodeError`: oct/src/error/generic_encode_error.rs:44-53. -/
  | generic
  deriving DecidableEq

/-- Decode error types. -/
inductive DecTy where
  /-- `core::convert::Infallible`. -/
  | infallible
  /-- `CharDecodeError`: oct/src/error/char_decode_error.rs:34-37. -/
  | char
  /-- `CStringDecodeError`: oct/src/error/c_string_decode_error.rs:34-37. -/
  | cString
  /-- `NonZeroDecodeError`: oct/src/error/non_zero_decode_error.rs:29. -/
  | nonZero
  /-- `SystemTimeDecodeError`: oct/src/error/system_time_decode_error.rs:32-35. -/
  | systemTime
  /-- `LengthError`: oct/src/error/length_error.rs:35-41. -/
  | length
  /-- `Utf8Error`: oct/src/error/utf8_error.rs:28-34. -/
  | utf8
  /-- `CollectionDecodeError<L, I>`: oct/src/error/collection_decode_error.rs:36-49. -/
  | coll (l i : DecTy)
  /-- `ItemDecodeError<usize, E>`: oct/src/error/item_decode_error.rs:31-37. -/
  | item (e : DecTy)
  /-- `EnumDecodeError<D, F>`: oct/src/error/enum_decode_error.rs:31-46. `none` is `D = bool`. -/
  | enum (d : Option Repr) (f : DecTy)
  /-- `GenericDecodeError`: oct/src/error/generic_decode_error.rs:49-76. -/
  | generic
  deriving DecidableEq

/-- `<D as Encode>::Error` of a representation: oct/src/encode/encode/mod.rs:439-440, 820-821, 857. -/
def Repr.encErr : Repr → EncTy
  | .int _ => .infallible
  | .usize => .usize
  | .isize => .isize

/-- Whether `Into<Infallible>` is implemented: itself, and
oct/src/error/collection_encode_error.rs:72-81, item_encode_error.rs:61-66,
enum_encode_error.rs:71-80. -/
def EncTy.intoInfallible : EncTy → Bool
  | .infallible => true
  | .coll l i => l.intoInfallible && i.intoInfallible
  | .item e => e.intoInfallible
  | .enum d f => (d.encErr == .infallible) && f.intoInfallible
  | _ => false

/-- Whether `Into<GenericEncodeError>` is implemented: itself, and
oct/src/error/generic_encode_error.rs:85-154. Of the types here only the pair and
`RefCellEncodeError` are without. -/
def EncTy.intoGeneric : EncTy → Bool
  | .infallible | .usize | .isize | .generic => true
  | .coll l i => l.intoGeneric && i.intoGeneric
  | .item e => e.intoGeneric
  | .enum _ f => f.intoGeneric
  | .pair _ | .refCell _ => false

/-- Whether `Into<E>` is implemented, for the types here: `From<T> for T`, and those above. -/
def EncTy.into (b a : EncTy) : Bool :=
  (b == a) || (a == .infallible && b.intoInfallible) || (a == .generic && b.intoGeneric)

/-- Whether `Error` is implemented: every type but the pair, if it is implemented for the type
parameters. oct/src/error/collection_encode_error.rs:57-61, item_encode_error.rs:50-53,
enum_encode_error.rs:56-60, ref_cell_encode_error.rs:54. The standard library implements it for
`Infallible` and not for tuples. -/
def EncTy.isError : EncTy → Bool
  | .infallible | .usize | .isize | .generic => true
  | .coll l i => l.isError && i.isError
  | .item e => e.isError
  | .enum _ f => f.isError
  | .refCell e => e.isError
  | .pair _ => false

/-- Whether `Into<Infallible>` is implemented: itself, and
oct/src/error/collection_decode_error.rs:83-92, item_decode_error.rs:61-66 (without a bound on `E`),
enum_decode_error.rs:85-94 (`D::Error` is `Infallible` for every `D` here). -/
def DecTy.intoInfallible : DecTy → Bool
  | .infallible => true
  | .coll l i => l.intoInfallible && i.intoInfallible
  | .item _ => true
  | .enum _ f => f.intoInfallible
  | _ => false

/-- Whether `Into<GenericDecodeError>` is implemented: itself, and
oct/src/error/generic_decode_error.rs:125-214. `CharDecodeError` has none, and `bool` is not a
`PrimitiveDiscriminant` (oct/src/primitive_discriminant/mod.rs:61-72). -/
def DecTy.intoGeneric : DecTy → Bool
  | .infallible | .cString | .nonZero | .systemTime | .length | .utf8 | .generic => true
  | .coll l i => l.intoGeneric && i.intoGeneric
  | .item e => e.intoGeneric
  | .enum d f => d.isSome && f.intoGeneric
  | .char => false

/-- Whether `Error` is implemented: oct/src/error/collection_decode_error.rs:68-72,
item_decode_error.rs:50-54, enum_decode_error.rs:68-72; the others without condition. -/
def DecTy.isError : DecTy → Bool
  | .coll l i => l.isError && i.isError
  | .item e => e.isError
  | .enum _ f => f.isError
  | _ => true

/-- The number of fields. -/
def Fields.count : Fields → Nat
  | .nil => 0
  | .cons _ fs => fs.count + 1

mutual

/-- The associated `Error` of the `Encode` impl, `none` if the bounds of the impl do not hold.
Lines of oct/src/encode/encode/mod.rs unless stated otherwise. -/
def Ty.encErr : Ty → Option EncTy
  | .num _ => some .infallible                                  -- 857
  | .bool => some .infallible                                   -- 229
  | .char => some .infallible                                   -- 284
  | .usize => some .usize                                       -- 821
  | .isize => some .isize                                       -- 440
  | .nonZero r => some r.encErr                                 -- 896
  | .unit _ => some .infallible                                 -- 538, 547, 577, 812
  | .infallible => some .infallible                             -- 381
  | .wrap _ t => t.encErr                                       -- 150, 159, 170, 220, .., 915
  | .array t _ => t.encErr.map fun e => .coll .infallible (.item e)  -- 179
  | .seq k t => t.encErr.map fun e =>
      .coll .usize (if k = .linkedList then .pair e else .item e)    -- 197, 476, 837
  | .hashMap k v => if k.encErr = v.encErr then k.encErr else none   -- 342-346
  | .hashSet k => k.encErr                                      -- 366
  | .option t => t.encErr                                       -- 510
  | .result t u =>                                              -- 644-647
    match t.encErr, u.encErr with
    | some a, some b => if b.into a then some a else none
    | _, _ => none
  | .bound t => t.encErr.map fun e => .enum (.int .u8) e        -- 239
  | .range t => t.encErr                                        -- 556
  | .rangeInclusive t => t.encErr                               -- 586
  | .lock _ t => t.encErr                                       -- 498, 679
  | .refCell t => t.encErr.map fun e => .refCell e              -- 627
  | .duration => some .infallible                               -- 326
  | .systemTime _ => some .infallible                           -- 777
  | .ipv4 | .ipv6 => some .infallible                           -- 418, 429
  | .ipAddr => some (.enum (.int .u8) .infallible)              -- 392
  | .socketAddrV4 | .socketAddrV6 | .socketAddr => some .infallible  -- 700, 725, 738
  | .str _ | .cStr _ => some (.coll .usize (.item .infallible)) -- 304, 316, 753, 765
  | .sizedStr _ => some (.coll .usize (.item .infallible))      -- oct/src/sized_str/code.rs:50
  | .sizedSlice t _ => t.encErr.map fun e => .coll .usize (.item e)  -- oct/src/sized_slice/code.rs:53
  | .tuple fs =>                                                -- 874-877, 945-1053
    if 2 ≤ fs.count ∧ fs.count ≤ 12 then fs.encErr else none
  | .struct fs =>                         -- oct-macros/src/impls/encode_struct.rs:51, 57-60
    if fs.encInto then some .generic else none
  | .enum r vs =>                         -- oct-macros/src/impls/encode_enum.rs:69, 81-83
    if vs.encInto then some (.enum r .generic) else none

/-- The common `Error` of the members of a tuple. -/
def Fields.encErr : Fields → Option EncTy
  | .nil => none
  | .cons t .nil => t.encErr
  | .cons t fs => if t.encErr = fs.encErr then t.encErr else none

/-- Whether the `Error` of each field is `Into<GenericEncodeError>`. -/
def Fields.encInto : Fields → Bool
  | .nil => true
  | .cons t fs => (t.encErr.any (·.intoGeneric)) && fs.encInto

/-- Whether the `Error` of each field is `Into<GenericEncodeError>`. -/
def Variants.encInto : Variants → Bool
  | .nil => true
  | .cons _ fs vs => fs.encInto && vs.encInto

end

/-- Whether there is a `Decode` impl for the wrapper (for `Cow` see `Ty.decErr`): oct/src/decode has
none for references and lazy cells. -/
def Wrap.hasDecode : Wrap → Bool
  | .ref | .refMut | .lazyCell | .lazyLock => false
  | _ => true

mutual

/-- The associated `Error` of the `Decode` impl of the type or, if the flag is set, of its `ToOwned`
form, which is what `Cow` decodes (oct/src/decode/decode/mod.rs:260-265,
oct/src/decode/decode_borrowed/mod.rs:63-87). `none` if the type has no `Decode` impl or the bounds of
the impl do not hold. Lines of oct/src/decode/decode/mod.rs unless stated otherwise. -/
def Ty.decErrOf : Ty → Bool → Option DecTy
  | .num _, _ => some .infallible                               -- 822
  | .bool, _ => some .infallible                                -- 169
  | .char, _ => some .char                                      -- 241
  | .usize, _ | .isize, _ => some .infallible                   -- 429, 770
  | .nonZero _, _ => some .nonZero                              -- 862
  | .unit _, _ => some .infallible                              -- 495, 504, 536, 761
  | .infallible, _ => some .infallible                          -- 377
  | .wrap .cow t, _ => t.decErrOf true                          -- 265
  | .wrap w t, _ => if w.hasDecode then t.decErrOf false else none   -- 117, 157, 217, 229, ..
  | .array t _, _ => (t.decErrOf false).map fun e => .coll .infallible (.item e)  -- 127
  | .seq .slice t, owned =>                                     -- 782
    if owned then (t.decErrOf false).map fun e => .coll .infallible (.item e) else none
  | .seq _ t, _ => (t.decErrOf false).map fun e => .coll .infallible (.item e)    -- 442, 782
  | .hashMap k v, _ =>                                          -- 324-328
    if k.decErrOf false = v.decErrOf false then
      (k.decErrOf false).map fun e => .coll .infallible (.item e)
    else none
  | .hashSet k, _ => (k.decErrOf false).map fun e => .coll .infallible (.item e)  -- 357
  | .option t, _ => t.decErrOf false                            -- 476
  | .result t u, _ =>                                           -- 603-606
    if t.decErrOf false = u.decErrOf false then (t.decErrOf false).map fun e => .enum none e
    else none
  | .bound t, _ => (t.decErrOf false).map fun e => .enum (some (.int .u8)) e      -- 184
  | .range t, _ => t.decErrOf false                             -- 513
  | .rangeInclusive t, _ => t.decErrOf false                    -- 545
  | .lock _ t, _ => t.decErrOf false                            -- 464, 632
  | .refCell t, _ => t.decErrOf false                           -- 590
  | .duration, _ => some .infallible                            -- 308
  | .systemTime _, _ => some .systemTime                        -- 740
  | .ipv4, _ | .ipv6, _ => some .infallible                     -- 405, 417
  | .ipAddr, _ => some (.enum (some (.int .u8)) .infallible)    -- 386
  | .socketAddrV4, _ | .socketAddrV6, _ => some .infallible     -- 672, 685
  | .socketAddr, _ => some (.enum (some (.int .u8)) .infallible)     -- 656
  | .str .str, owned => if owned then some (.coll .infallible .utf8) else none    -- 702
  | .str .string, _ => some (.coll .infallible .utf8)           -- 702
  | .cStr .cStr, owned => if owned then some .cString else none -- 279
  | .cStr .cString, _ => some .cString                          -- 279
  | .sizedStr _, _ => some (.coll .length .utf8)                -- oct/src/sized_str/code.rs:28
  | .sizedSlice t _, _ =>                                       -- oct/src/sized_slice/code.rs:30
    (t.decErrOf false).map fun e => .coll .length (.item e)
  | .tuple fs, _ =>                                             -- 841-846, 920-1028
    if 2 ≤ fs.count ∧ fs.count ≤ 12 then fs.decErr else none
  | .struct fs, _ =>                      -- oct-macros/src/impls/decode_struct.rs:31-32, 53
    if fs.decInto then some .generic else none
  | .enum r vs, _ =>                      -- oct-macros/src/impls/decode_enum.rs:65
    if vs.decInto then some (.enum (some r) .generic) else none

/-- The common `Error` of the members of a tuple. -/
def Fields.decErr : Fields → Option DecTy
  | .nil => none
  | .cons t .nil => t.decErrOf false
  | .cons t fs => if t.decErrOf false = fs.decErr then t.decErrOf false else none

/-- Whether the `Error` of each field is `Into<GenericDecodeError>`. -/
def Fields.decInto : Fields → Bool
  | .nil => true
  | .cons t fs => ((t.decErrOf false).any (·.intoGeneric)) && fs.decInto

/-- Whether the `Error` of each field is `Into<GenericDecodeError>`. -/
def Variants.decInto : Variants → Bool
  | .nil => true
  | .cons _ fs vs => fs.decInto && vs.decInto

end

/-- The associated `Error` of the `Decode` impl. -/
def Ty.decErr (t : Ty) : Option DecTy := t.decErrOf false

/-- What `source` may give: an error of the crate, or the standard library's `BorrowError`. -/
inductive Cause where
  | enc (e : EncErr)
  | dec (e : DecErr)
  | borrow
  deriving DecidableEq

/-- `Error::source` of the encode errors: oct/src/error/collection_encode_error.rs:63-69,
item_encode_error.rs:55-57, enum_encode_error.rs:62-68, ref_cell_encode_error.rs:56-62,
generic_encode_error.rs:74-82. The other types keep the default, which is `None`. The pair is not an
`Error`. -/
def EncErr.source : EncErr → Option Cause
  | .usize _ | .isize _ | .pair _ _ => none
  | .badLength e | .badItem e | .item _ e | .badDiscriminant e | .badField e | .badValue e =>
    some (.enc e)
  | .badBorrow => some .borrow
  | .gLargeIsize i => some (.enc (.isize i))
  | .gLargeUsize n => some (.enc (.usize n))

/-- `Error::source` of the decode errors: oct/src/error/collection_decode_error.rs:74-80,
item_decode_error.rs:56-58, enum_decode_error.rs:74-82, generic_decode_error.rs:106-122. -/
def DecErr.source : DecErr → Option Cause
  | .char _ | .cString _ | .nonZero | .systemTime _ | .length _ _ | .utf8 _ _ => none
  | .badLength e | .badItem e | .item _ e | .badField e => some (.dec e)
  | .unassigned _ | .gUnassigned _ => none
  | .gBadString v i => some (.dec (.utf8 v i))
  | .gNullString i => some (.dec (.cString i))
  | .gNullInteger => some (.dec .nonZero)
  | .gSmallBuffer c l => some (.dec (.length c l))
  | .gNarrowSystemTime t => some (.dec (.systemTime t))

/-- `Error::source`. `BorrowError` has none. -/
def Cause.source : Cause → Option Cause
  | .enc e => e.source
  | .dec e => e.source
  | .borrow => none

/-- A digit as the formatting macros of the standard library print it (`{}`, `{:X}`). -/
def digitChar (d : Nat) : Char :=
  ['0', '1', '2', '3', '4', '5', '6', '7', '8', '9', 'A', 'B', 'C', 'D', 'E', 'F'].getD d '?'

/-- The numeral of a number, with at most `fuel` digits. -/
def numeralAux (b : Nat) : (fuel : Nat) → Nat → List Char
  | 0, _ => []
  | fuel + 1, n => if n < b then [digitChar n] else numeralAux b fuel (n / b) ++ [digitChar (n % b)]

/-- The numeral of a number in base `b`. -/
def numeral (b n : Nat) : List Char := numeralAux b (n + 1) n

/-- `{}` of an unsigned integer. -/
def showNat (n : Nat) : List Char := numeral 10 n

/-- `{}` of a signed integer. -/
def showInt (i : Int) : List Char := if i < 0 then '-' :: numeral 10 i.natAbs else numeral 10 i.natAbs

/-- `{:0wX}`: at least `w` digits. -/
def showHex (w n : Nat) : List Char :=
  List.replicate (w - (numeral 16 n).length) '0' ++ numeral 16 n

/-- `{:#0wX}`: the prefix counts as two of the `w` characters. -/
def showHexAlt (w n : Nat) : List Char := '0' :: 'x' :: showHex (w - 2) n

/-- The characters of a literal. (Irreducible so that Lean does not unfold literals on its own.) -/
@[irreducible] def text (s : String) : List Char := s.toList

/-- `Display` of `BorrowError` in the standard library. -/
def borrowMessage : List Char := text "already mutably borrowed"

/-- `Display` of the encode errors: oct/src/error/usize_encode_error.rs:37-44,
isize_encode_error.rs:37-45, collection_encode_error.rs:47-53, item_encode_error.rs:46,
enum_encode_error.rs:46-52, ref_cell_encode_error.rs:43-50, generic_encode_error.rs:58-66. The pair
is not `Display`; nothing is claimed about its message. -/
def EncErr.message : EncErr → List Char
  | .usize n | .gLargeUsize n => text "unsigned size value (" ++ showNat n ++
      text ") cannot be serialised: must be at most (65535)"
  | .isize i | .gLargeIsize i => text "signed size value (" ++ showInt i ++
      text ") cannot be serialised: must be in the range (-32768) to (32767)"
  | .badLength e => text "unable to encode collection length: " ++ e.message
  | .badItem e => text "unable to encode collection item: " ++ e.message
  | .item i e => text "could not encode item at `" ++ showNat i ++ text "`: " ++ e.message
  | .pair _ _ => []
  | .badDiscriminant e => text "discriminant could not be encoded: " ++ e.message
  | .badField e => text "field could not be encoded: " ++ e.message
  | .badBorrow => text "unable to encode reference cell: " ++ borrowMessage
  | .badValue e => text "unable to encode reference cell: " ++ e.message

/-- `Display` of the decode errors: oct/src/error/char_decode_error.rs:42,
c_string_decode_error.rs:42, non_zero_decode_error.rs:34, system_time_decode_error.rs:41,
length_error.rs:46, utf8_error.rs:39, collection_decode_error.rs:58-64, item_decode_error.rs:46,
enum_decode_error.rs:55-64, generic_decode_error.rs:81-100. The quotation marks are as in the
source. -/
def DecErr.message : DecErr → List Char
  | .char c => text "code point U+" ++ showHex 4 c ++ text " is not defined"
  | .cString i | .gNullString i => text "expected c string but found null value within bounds at '" ++ showNat i ++
      text "`"
  | .nonZero | .gNullInteger => text "expected non-zero integer but found `0`"
  | .systemTime t | .gNarrowSystemTime t => text "could not represent `" ++ showInt t ++
      text "` as a system timestamp"
  | .length c l | .gSmallBuffer c l => text "collection of size (" ++ showNat c ++ text ") cannot hold (" ++
      showNat l ++ text ") elements"
  | .utf8 v i | .gBadString v i => text "found invalid utf-8 octet " ++ showHexAlt 2 v.toNat ++
      text " at offset (" ++ showNat i ++ text ")"
  | .badLength e => text "unable to decode collection length: " ++ e.message
  | .badItem e => text "unable to decode collection item: " ++ e.message
  | .item i e => text "could not decode item at `" ++ showNat i ++ text "`: " ++ e.message
  | .unassigned v => text "`" ++ showInt v ++
      text "` is not an assigned discriminant for the given enumeration"
  | .badField e => text "variant could not be decoded: " ++ e.message
  | .gUnassigned v => text "discriminant value `" ++ showHexAlt 0 v ++
      text " has not been assigned"

/-- `Display` of `InputError`: oct/src/error/input_error.rs:44-50. -/
def inputMessage (capacity position count : Nat) : List Char :=
  text "cannot read (" ++ showNat count ++ text ") bytes at (" ++ showNat position ++
    text ") from input stream with capacity of (" ++ showNat capacity ++ text ")"

/-- `Display` of `OutputError`: oct/src/error/output_error.rs:44-50. -/
def outputMessage (capacity position count : Nat) : List Char :=
  text "cannot write (" ++ showNat count ++ text ") bytes at (" ++ showNat position ++
    text ") to output stream with capacity of (" ++ showNat capacity ++ text ")"

end Oct
