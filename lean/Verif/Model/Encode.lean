import Verif.Model.Ty
import Verif.Model.Stream
/-
`Encode`: oct/src/encode/encode/mod.rs, oct/src/sized_slice/code.rs, oct/src/sized_str/code.rs and
the code generated by oct-macros/src/impls/encode_struct.rs and encode_enum.rs.
Line numbers without a file are those of oct/src/encode/encode/mod.rs.
-/
namespace Oct

/-- `impl_numeric!`: 854-867, for an `n`-octet number with bit pattern `x`. -/
def encNum (n : Nat) (x : Nat) : Enc Unit := Enc.write (toLe n x)

/-- `u8::encode`, an instance of `impl_numeric!`. -/
def encU8 (x : Nat) : Enc Unit := encNum 1 x

/-- `usize::encode`: 820-832 (`u16::try_from`). -/
def encUsize (n : Nat) : Enc Unit :=
  if n ≤ 65535 then encNum 2 n else Enc.fail (.usize n)

/-- `isize::encode`: 439-451 (`i16::try_from`). -/
def encIsize (x : Int) : Enc Unit :=
  if -32768 ≤ x ∧ x ≤ 32767 then encNum 2 (x % 65536).toNat else Enc.fail (.isize x)

/-- `encode` of a primitive integer given as a number: `impl_numeric!` 854-867 (two's complement),
`usize` and `isize` as above. Used for `NonZero::get()` (893-904) and discriminants. -/
def encRepr : Repr → Int → Enc Unit
  | .int k, x => encNum k.bytes (x % (2 : Int) ^ (8 * k.bytes)).toNat
  | .usize, x => encUsize x.toNat
  | .isize, x => encIsize x

/-- `bool::encode`: 228-236 (`u8::from(*self)`). -/
def encBool (b : Bool) : Enc Unit := encU8 (if b then 1 else 0)

/-- `char::encode`: 283-290 (`u32::from(*self)`). -/
def encChar (c : Char) : Enc Unit := encNum 4 c.toNat

/-- The loop `for (i, v) in iter.enumerate() { v.encode(output).map_err(|e| wrap(i, e))?; }` of
186-190, 207-211 and 485-489. -/
def encItems {α : Type} (enc : α → Enc Unit) (wrap : Nat → EncErr → EncErr) :
    (i : Nat) → List α → Enc Unit
  | _, [] => Enc.pure ()
  | i, v :: vs => do
    (enc v).mapErr (wrap i)
    encItems enc wrap (i + 1) vs

/-- `[T; N]::encode`: 178-194. -/
def encArray {α : Type} (enc : α → Enc Unit) (l : List α) : Enc Unit :=
  encItems enc (fun i e => .badItem (.item i e)) 0 l

/-- `[T]::encode`: 196-215. `Vec::encode` (836-843) forwards to it, as do `SizedSlice::encode`
(oct/src/sized_slice/code.rs:55-58), `str` and `CStr`. -/
def encSlice {α : Type} (enc : α → Enc Unit) (l : List α) : Enc Unit := do
  (encUsize l.length).mapErr .badLength
  encItems enc (fun i e => .badItem (.item i e)) 0 l

/-- `LinkedList::encode`: 475-493. -/
def encLinkedList {α : Type} (enc : α → Enc Unit) (l : List α) : Enc Unit := do
  (encUsize l.length).mapErr .badLength
  encItems enc (fun i e => .badItem (.pair i e)) 0 l

/-- `[u8]::encode`, used by `str` (752-760), `String` (764-772), `CStr` (303-311), `CString`
(315-323) and `SizedStr` (oct/src/sized_str/code.rs:49-56). -/
def encBytes (bs : List Byte) : Enc Unit := encSlice (fun b => encU8 b.toNat) bs

/-- `HashMap::encode`: 340-357. No length is written. -/
def encHashMap {α β : Type} (encK : α → Enc Unit) (encV : β → Enc Unit) :
    List (α × β) → Enc Unit
  | [] => Enc.pure ()
  | (k, v) :: l => do
    encK k
    encV v
    encHashMap encK encV l

/-- `HashSet::encode`: 361-376. No length is written. -/
def encHashSet {α : Type} (encK : α → Enc Unit) : List α → Enc Unit
  | [] => Enc.pure ()
  | k :: l => do
    encK k
    encHashSet encK l

/-- `Option::encode`: 509-535. -/
def encOption {α : Type} (enc : α → Enc Unit) : Option α → Enc Unit
  | none => encBool false
  | some v => do
    encBool true
    enc v

/-- `Result::encode`: 642-674. `conv` is the `Into` conversion of the error type of `E` to that of
`T` at 668. -/
def encResult {α β : Type} (encT : α → Enc Unit) (encE : β → Enc Unit)
    (conv : EncErr → EncErr) : ResultVal α β → Enc Unit
  | .ok v => do
    encBool false
    encT v
  | .err e => do
    encBool true
    (encE e).mapErr conv

/-- `Bound::encode`: 238-261. -/
def encBound {α : Type} (enc : α → Enc Unit) : BoundVal α → Enc Unit
  | .included b => do
    encU8 0
    (enc b).mapErr .badField
  | .excluded b => do
    encU8 1
    (enc b).mapErr .badField
  | .unbounded => encU8 2

/-- `Range::encode`: 555-565. -/
def encRange {α : Type} (enc : α → Enc Unit) (r : RangeVal α) : Enc Unit := do
  enc r.start
  enc r.stop

/-- `RangeInclusive::encode`: 585-595. -/
def encRangeInclusive {α : Type} (enc : α → Enc Unit) (r : RangeInclusiveVal α) : Enc Unit := do
  enc r.start
  enc r.stop

/-- `Mutex::encode` (497-507) and `RwLock::encode` (678-688): poisoning is ignored. -/
def encLock {α : Type} (enc : α → Enc Unit) (m : LockVal α) : Enc Unit := enc m.val

/-- `RefCell::encode`: 626-640. -/
def encRefCell {α : Type} (enc : α → Enc Unit) (c : RefCellVal α) : Enc Unit :=
  if c.mutBorrowed then Enc.fail .badBorrow
  else (enc c.val).mapErr .badValue

/-- `Duration::encode`: 325-336. -/
def encDuration (d : DurationVal) : Enc Unit := do
  encNum 8 d.secs.toNat
  encNum 4 d.nanos

/-- `SystemTime::encode`: 776-809. `duration.as_secs()` is the whole number of seconds of the
distance to the epoch; the range of `TimePlatform` makes `as_secs() as i64` lossless, save for
`2^63` before the epoch, which becomes `i64::MIN`, whose negation at 803 overflows (and wraps to
`i64::MIN` without overflow checks). -/
def encSystemTime (p : TimePlatform) (ns : Int) : Enc Unit :=
  if 0 ≤ ns then
    encNum 8 (ns / nanosPerSec).toNat
  else
    let secs := ((-ns) / nanosPerSec).toNat
    if secs = 2 ^ 63 then
      if p.overflowChecks then Enc.panic .arithmeticOverflow else encNum 8 (2 ^ 63)
    else
      encNum 8 ((0 - (secs : Int)) % (2 : Int) ^ 64).toNat

/-- `Ipv4Addr::encode`: 417-426 (`to_bits` then `u32::encode`). -/
def encIpv4 (a : Items Byte 4) : Enc Unit := encNum 4 (fromBe a.val)

/-- `Ipv6Addr::encode`: 428-437 (`to_bits` then `u128::encode`). -/
def encIpv6 (a : Items Byte 16) : Enc Unit := encNum 16 (fromBe a.val)

/-- `IpAddr::encode`: 391-415. -/
def encIpAddr : IpAddrVal → Enc Unit
  | .v4 a => do
    (encU8 4).mapErr .badDiscriminant
    (encIpv4 a).mapErr .badField
  | .v6 a => do
    (encU8 6).mapErr .badDiscriminant
    (encIpv6 a).mapErr .badField

/-- `SocketAddrV4::encode`: 724-735. -/
def encSocketAddrV4 (a : SocketAddrV4Val) : Enc Unit := do
  encIpv4 a.ip
  encNum 2 a.port.toNat

/-- `SocketAddrV6::encode`: 737-750. -/
def encSocketAddrV6 (a : SocketAddrV6Val) : Enc Unit := do
  encIpv6 a.ip
  encNum 2 a.port.toNat
  encNum 4 a.flowinfo.toNat
  encNum 4 a.scopeId.toNat

/-- `SocketAddr::encode`: 699-722. -/
def encSocketAddr : SocketAddrVal → Enc Unit
  | .v4 a => do
    encU8 4
    encSocketAddrV4 a
  | .v6 a => do
    encU8 6
    encSocketAddrV6 a

/-- One step of `Discriminants::next`: oct-macros/src/discriminants/mod.rs:46-79. `prev` is the
discriminant of the preceding variant. A literal of `2^128` or more and an overflow make the macro
panic; well-formed enumerations (`Ty.WF`) exclude both. -/
def nextDisc (prev : Option Nat) (disc : Option Nat) : Nat :=
  match disc with
  | some d => d
  | none =>
    match prev with
    | some p => p + 1
    | none => 0

/-- All discriminants of an enumeration: oct-macros/src/impls/encode_enum.rs:30. -/
def Variants.discs : Variants → (prev : Option Nat) → List Nat
  | .nil, _ => []
  | .cons d _ vs, prev => nextDisc prev d :: vs.discs (some (nextDisc prev d))

mutual

/-- Whether the type's encode error type is `GenericEncodeError`: that of derived structures
(oct-macros/src/impls/encode_struct.rs:51) and of types whose `Error` is that of a component. It
decides which `Into` conversion `Result` uses (oct/src/encode/encode/mod.rs:645): the only
conversions between distinct error types are those to `GenericEncodeError`
(oct/src/error/generic_encode_error.rs:85-154). -/
def Ty.encErrGeneric : Ty → Bool
  | .wrap _ t => t.encErrGeneric
  | .hashMap k _ => k.encErrGeneric
  | .hashSet k => k.encErrGeneric
  | .option t => t.encErrGeneric
  | .result t _ => t.encErrGeneric
  | .range t => t.encErrGeneric
  | .rangeInclusive t => t.encErrGeneric
  | .lock _ t => t.encErrGeneric
  | .tuple fs => fs.encErrGeneric
  | .struct _ => true
  | _ => false

/-- The error type of a tuple is the common error type of its members
(oct/src/encode/encode/mod.rs:874-877). -/
def Fields.encErrGeneric : Fields → Bool
  | .nil => false
  | .cons t _ => t.encErrGeneric

end

mutual

/-- `T::encode`, for every modelled `T`. -/
def Ty.encode : (t : Ty) → t.Val → Enc Unit
  | .num k, v => encNum k.bytes (show BitVec (8 * k.bytes) from v).toNat
  | .bool, v => encBool v
  | .char, v => encChar v
  | .usize, v => encUsize v
  | .isize, v => encIsize v
  | .nonZero r, v => encRepr r v.val
  | .unit _, _ => Enc.pure ()
  | .infallible, v => nomatch v
  | .wrap _ t, v => t.encode v
  | .array t _, v => encArray t.encode v.val
  | .seq .slice t, v => encSlice t.encode v
  | .seq .vec t, v => encSlice t.encode v
  | .seq .linkedList t, v => encLinkedList t.encode v
  | .hashMap k v, m => encHashMap k.encode v.encode m.val
  | .hashSet k, s => encHashSet k.encode s.val
  | .option t, v => encOption t.encode v
  | .result t e, v =>
    encResult t.encode e.encode (if t.encErrGeneric then EncErr.toGeneric else id) v
  | .bound t, v => encBound t.encode v
  | .range t, v => encRange t.encode v
  | .rangeInclusive t, v => encRangeInclusive t.encode v
  | .lock _ t, v => encLock t.encode v
  | .refCell t, v => encRefCell t.encode v
  | .duration, v => encDuration v
  | .systemTime p, v => encSystemTime p v.val
  | .ipv4, v => encIpv4 v
  | .ipv6, v => encIpv6 v
  | .ipAddr, v => encIpAddr v
  | .socketAddrV4, v => encSocketAddrV4 v
  | .socketAddrV6, v => encSocketAddrV6 v
  | .socketAddr, v => encSocketAddr v
  | .str _, v => encBytes v.val
  | .cStr _, v => encBytes v.val
  | .sizedStr _, v => encBytes v.val
  | .sizedSlice t _, v => encSlice t.encode v.val
  | .tuple fs, v => fs.encode id v
  | .struct fs, v => fs.encode EncErr.toGeneric v
  | .enum r vs, v => vs.encode r none v

/-- Encodes fields in order, mapping errors with `g`: oct/src/encode/encode/mod.rs:880-888 (tuples,
`g = id`), oct-macros/src/impls/encode_struct.rs:57-60 (`g = Into<GenericEncodeError>`), and
oct-macros/src/impls/encode_enum.rs:80-84 (`g = BadField ∘ Into<GenericEncodeError>`). -/
def Fields.encode : (fs : Fields) → (g : EncErr → EncErr) → fs.Val → Enc Unit
  | .nil, _, _ => Enc.pure ()
  | .cons t fs, g, v => do
    (t.encode v.1).mapErr g
    fs.encode g v.2

/-- The `match *self` of oct-macros/src/impls/encode_enum.rs:74-89: the discriminant of the
variant, encoded as the representation, then its fields. -/
def Variants.encode : (vs : Variants) → (r : Repr) → (prev : Option Nat) → vs.Val → Enc Unit
  | .nil, _, _, v => nomatch v
  | .cons d fs vs, r, prev, v =>
    match v with
    | .inl v => do
      (encRepr r (nextDisc prev d)).mapErr .badDiscriminant
      fs.encode (fun e => .badField e.toGeneric) v
    | .inr v => vs.encode r (some (nextDisc prev d)) v

end

mutual

/-- What rustc itself demands of the enumerations in a type: distinct discriminants (error E0081)
that are in the range of the representation (deny-by-default lint `overflowing_literals`, error
E0370 for an implicit overflow) and below `2^128` (else the macro panics,
oct-macros/src/discriminants/mod.rs:60-69). On the platform side, `usize` and `isize`
discriminants are unbounded in the model. -/
def Ty.WF : Ty → Prop
  | .wrap _ t => t.WF
  | .array t _ => t.WF
  | .seq _ t => t.WF
  | .hashMap k v => k.WF ∧ v.WF
  | .hashSet k => k.WF
  | .option t => t.WF
  | .result t e => t.WF ∧ e.WF
  | .bound t => t.WF
  | .range t => t.WF
  | .rangeInclusive t => t.WF
  | .lock _ t => t.WF
  | .refCell t => t.WF
  | .sizedSlice t _ => t.WF
  | .tuple fs => fs.WF
  | .struct fs => fs.WF
  | .enum r vs =>
    (vs.discs none).Nodup ∧ (∀ d ∈ vs.discs none, r.InRange d ∧ d < 2 ^ 128) ∧ vs.WF
  | _ => True

/-- See `Ty.WF`. -/
def Fields.WF : Fields → Prop
  | .nil => True
  | .cons t fs => t.WF ∧ fs.WF

/-- See `Ty.WF`. -/
def Variants.WF : Variants → Prop
  | .nil => True
  | .cons _ fs vs => fs.WF ∧ vs.WF

end

end Oct
