import Verif.Model.ErrorTypes
import Verif.Model.SizedEncode
/-
Derived impls of generic items. The macros give the impl the parameters and the where clause of the item
and nothing else (oct-macros/src/impl_derive_macro.rs:68-80), so that rustc has to find the impls for the
fields from the bounds of the item alone.

SIMPLIFICATIONS: of the bounds, only those on `Encode`, `Decode`, `SizedEncode` and their error types are
modelled; others that impls ask for (`Copy` for `Cell`, `ToOwned` for `Cow`, `Eq` and `Hash` for maps) are
taken to be declared. Bounds `Into<E>` are only modelled for the generic errors. A field is not of another
generic item, nor of the item itself. Parameters are `Sized`, as they are by default.
-/
namespace Oct

/-- Encode error types in generic code: those of `EncTy`, and the error types of parameters. -/
inductive XEnc where
  /-- `<T as Encode>::Error`, or a parameter `E` with `T: Encode<Error = E>`. -/
  | var (j : Nat)
  | infallible
  | usize
  | isize
  | coll (l i : XEnc)
  | item (e : XEnc)
  | pair (e : XEnc)
  | enum (d : Repr) (f : XEnc)
  | refCell (e : XEnc)
  | generic
  deriving DecidableEq

/-- Decode error types in generic code. -/
inductive XDec where
  | var (j : Nat)
  | infallible
  | char
  | cString
  | nonZero
  | systemTime
  | length
  | utf8
  | coll (l i : XDec)
  | item (e : XDec)
  | enum (d : Option Repr) (f : XDec)
  | generic
  deriving DecidableEq

/-- An error type without parameters. -/
def EncTy.lift : EncTy → XEnc
  | .infallible => .infallible
  | .usize => .usize
  | .isize => .isize
  | .coll l i => .coll l.lift i.lift
  | .item e => .item e.lift
  | .pair e => .pair e.lift
  | .enum d f => .enum d f.lift
  | .refCell e => .refCell e.lift
  | .generic => .generic

/-- An error type without parameters. -/
def DecTy.lift : DecTy → XDec
  | .infallible => .infallible
  | .char => .char
  | .cString => .cString
  | .nonZero => .nonZero
  | .systemTime => .systemTime
  | .length => .length
  | .utf8 => .utf8
  | .coll l i => .coll l.lift i.lift
  | .item e => .item e.lift
  | .enum d f => .enum d f.lift
  | .generic => .generic

/-- The bounds of the item on the parameter `i`: `none` if `T: Encode` is not among them, else what is
known of `T::Error`: that it is a certain type, or one of which only a name is known. The names `j` with
`into j` have the bound `Into<GenericEncodeError>`. -/
structure EncBounds where
  encode : Nat → Option (Nat ⊕ EncTy)
  into : Nat → Bool

/-- The same for `Decode`. -/
structure DecBounds where
  decode : Nat → Option (Nat ⊕ DecTy)
  into : Nat → Bool

/-- `<T as Encode>::Error` of a parameter. -/
def EncBounds.err (B : EncBounds) (i : Nat) : Option XEnc :=
  (B.encode i).map fun
    | .inl j => .var j
    | .inr e => e.lift

/-- `<T as Decode>::Error` of a parameter. -/
def DecBounds.err (B : DecBounds) (i : Nat) : Option XDec :=
  (B.decode i).map fun
    | .inl j => .var j
    | .inr e => e.lift

/-- As `EncTy.intoInfallible`; nothing is known of the error types of parameters. -/
def XEnc.intoInfallible : XEnc → Bool
  | .infallible => true
  | .coll l i => l.intoInfallible && i.intoInfallible
  | .item e => e.intoInfallible
  | .enum d f => (d.encErr == .infallible) && f.intoInfallible
  | _ => false

/-- As `EncTy.intoGeneric`: oct/src/error/generic_encode_error.rs:85-154. -/
def XEnc.intoGeneric (B : EncBounds) : XEnc → Bool
  | .var j => B.into j
  | .infallible | .usize | .isize | .generic => true
  | .coll l i => l.intoGeneric B && i.intoGeneric B
  | .item e => e.intoGeneric B
  | .enum _ f => f.intoGeneric B
  | .pair _ | .refCell _ => false

/-- As `EncTy.into`. -/
def XEnc.into (B : EncBounds) (b a : XEnc) : Bool :=
  (b == a) || (a == .infallible && b.intoInfallible) || (a == .generic && b.intoGeneric B)

/-- As `DecTy.intoGeneric`: oct/src/error/generic_decode_error.rs:125-214. -/
def XDec.intoGeneric (B : DecBounds) : XDec → Bool
  | .var j => B.into j
  | .infallible | .cString | .nonZero | .systemTime | .length | .utf8 | .generic => true
  | .coll l i => l.intoGeneric B && i.intoGeneric B
  | .item e => e.intoGeneric B
  | .enum d f => d.isSome && f.intoGeneric B
  | .char => false

mutual

/-- Types of fields of generic items. -/
inductive GTy where
  | param (i : Nat)
  /-- A type without parameters. -/
  | closed (t : Ty)
  /-- `PhantomData<T>`. -/
  | phantom (t : GTy)
  | wrap (w : Wrap) (t : GTy)
  | array (t : GTy) (n : Nat)
  | seq (k : SeqKind) (t : GTy)
  | hashMap (k v : GTy)
  | hashSet (k : GTy)
  | option (t : GTy)
  | result (t e : GTy)
  | bound (t : GTy)
  | range (t : GTy)
  | rangeInclusive (t : GTy)
  | lock (k : LockKind) (t : GTy)
  | refCell (t : GTy)
  | sizedSlice (t : GTy) (n : Nat)
  | tuple (fs : GFields)

/-- Fields, in order. -/
inductive GFields where
  | nil
  | cons (t : GTy) (fs : GFields)

end

/-- Variants, in order. -/
inductive GVariants where
  | nil
  | cons (disc : Option Nat) (fs : GFields) (vs : GVariants)

/-- What a derived impl is asked for. -/
inductive GItem where
  | struct (fs : GFields)
  | enum (r : Repr) (vs : GVariants)

/-- The number of fields. -/
def GFields.count : GFields → Nat
  | .nil => 0
  | .cons _ fs => fs.count + 1

mutual

/-- The associated `Error` of the `Encode` impl that rustc finds, `none` if it finds none: as
`Ty.encErr`. -/
def GTy.encErr (B : EncBounds) : GTy → Option XEnc
  | .param i => B.err i
  | .closed t => t.encErr.map EncTy.lift
  | .phantom _ => some .infallible                              -- 538
  | .wrap _ t => t.encErr B
  | .array t _ => (t.encErr B).map fun e => .coll .infallible (.item e)
  | .seq k t => (t.encErr B).map fun e =>
      .coll .usize (if k = .linkedList then .pair e else .item e)
  | .hashMap k v => if k.encErr B = v.encErr B then k.encErr B else none
  | .hashSet k => k.encErr B
  | .option t => t.encErr B
  | .result t u =>
    match t.encErr B, u.encErr B with
    | some a, some b => if b.into B a then some a else none
    | _, _ => none
  | .bound t => (t.encErr B).map fun e => .enum (.int .u8) e
  | .range t => t.encErr B
  | .rangeInclusive t => t.encErr B
  | .lock _ t => t.encErr B
  | .refCell t => (t.encErr B).map fun e => .refCell e
  | .sizedSlice t _ => (t.encErr B).map fun e => .coll .usize (.item e)
  | .tuple fs => if 2 ≤ fs.count ∧ fs.count ≤ 12 then fs.encErr B else none

/-- The common `Error` of the members of a tuple. -/
def GFields.encErr (B : EncBounds) : GFields → Option XEnc
  | .nil => none
  | .cons t .nil => t.encErr B
  | .cons t fs => if t.encErr B = fs.encErr B then t.encErr B else none

end

mutual

/-- The associated `Error` of the `Decode` impl that rustc finds: as `Ty.decErrOf`. A parameter is its own
`ToOwned` form. -/
def GTy.decErrOf (B : DecBounds) : GTy → Bool → Option XDec
  | .param i, _ => B.err i
  | .closed t, owned => (t.decErrOf owned).map DecTy.lift
  | .phantom _, _ => some .infallible
  | .wrap .cow t, _ => t.decErrOf B true
  | .wrap w t, _ => if w.hasDecode then t.decErrOf B false else none
  | .array t _, _ => (t.decErrOf B false).map fun e => .coll .infallible (.item e)
  | .seq .slice t, owned =>
    if owned then (t.decErrOf B false).map fun e => .coll .infallible (.item e) else none
  | .seq _ t, _ => (t.decErrOf B false).map fun e => .coll .infallible (.item e)
  | .hashMap k v, _ =>
    if k.decErrOf B false = v.decErrOf B false then
      (k.decErrOf B false).map fun e => .coll .infallible (.item e)
    else none
  | .hashSet k, _ => (k.decErrOf B false).map fun e => .coll .infallible (.item e)
  | .option t, _ => t.decErrOf B false
  | .result t u, _ =>
    if t.decErrOf B false = u.decErrOf B false then (t.decErrOf B false).map fun e => .enum none e
    else none
  | .bound t, _ => (t.decErrOf B false).map fun e => .enum (some (.int .u8)) e
  | .range t, _ => t.decErrOf B false
  | .rangeInclusive t, _ => t.decErrOf B false
  | .lock _ t, _ => t.decErrOf B false
  | .refCell t, _ => t.decErrOf B false
  | .sizedSlice t _, _ => (t.decErrOf B false).map fun e => .coll .length (.item e)
  | .tuple fs, _ => if 2 ≤ fs.count ∧ fs.count ≤ 12 then fs.decErr B else none

/-- The common `Error` of the members of a tuple. -/
def GFields.decErr (B : DecBounds) : GFields → Option XDec
  | .nil => none
  | .cons t .nil => t.decErrOf B false
  | .cons t fs => if t.decErrOf B false = fs.decErr B then t.decErrOf B false else none

end

mutual

/-- Whether rustc finds `SizedEncode`, if the parameters in `S` have it: as `Ty.HasSized`. -/
def GTy.HasSized (S : Nat → Prop) : GTy → Prop
  | .param i => S i
  | .closed t => t.HasSized
  | .phantom _ => True
  | .seq _ _ => False
  | .hashMap _ _ => False
  | .hashSet _ => False
  | .wrap _ t => t.HasSized S
  | .array t _ => t.HasSized S
  | .option t => t.HasSized S
  | .result t e => t.HasSized S ∧ e.HasSized S
  | .bound t => t.HasSized S
  | .range t => t.HasSized S
  | .rangeInclusive t => t.HasSized S
  | .lock _ t => t.HasSized S
  | .refCell t => t.HasSized S
  | .sizedSlice t _ => t.HasSized S
  | .tuple fs => fs.HasSized S

/-- All fields. -/
def GFields.HasSized (S : Nat → Prop) : GFields → Prop
  | .nil => True
  | .cons t fs => t.HasSized S ∧ fs.HasSized S

end

/-- Whether the emitted code for the fields compiles: `Into::<GenericEncodeError>::into` of the error of
each (oct-macros/src/impls/encode_struct.rs:57-60, encode_enum.rs:80-84). -/
def GFields.encInto (B : EncBounds) : GFields → Bool
  | .nil => true
  | .cons t fs => ((t.encErr B).any (·.intoGeneric B)) && fs.encInto B

def GVariants.encInto (B : EncBounds) : GVariants → Bool
  | .nil => true
  | .cons _ fs vs => fs.encInto B && vs.encInto B

/-- oct-macros/src/impls/decode_struct.rs:30-33, decode_enum.rs:39-43. -/
def GFields.decInto (B : DecBounds) : GFields → Bool
  | .nil => true
  | .cons t fs => ((t.decErrOf B false).any (·.intoGeneric B)) && fs.decInto B

def GVariants.decInto (B : DecBounds) : GVariants → Bool
  | .nil => true
  | .cons _ fs vs => fs.decInto B && vs.decInto B

/-- oct-macros/src/impls/sized_encode_enum.rs:30-59. -/
def GVariants.HasSized (S : Nat → Prop) : GVariants → Prop
  | .nil => True
  | .cons _ fs vs => fs.HasSized S ∧ vs.HasSized S

/-- `derive(Encode)` of a generic item is accepted, with this `Error`:
oct-macros/src/impl_derive_macro.rs:68-80, impls/encode_struct.rs:51, impls/encode_enum.rs:69. -/
def GItem.deriveEncode (B : EncBounds) : GItem → Option EncTy
  | .struct fs => if fs.encInto B then some .generic else none
  | .enum r vs => if vs.encInto B then some (.enum r .generic) else none

/-- `derive(Decode)`: impls/decode_struct.rs:53, impls/decode_enum.rs:65. -/
def GItem.deriveDecode (B : DecBounds) : GItem → Option DecTy
  | .struct fs => if fs.decInto B then some .generic else none
  | .enum r vs => if vs.decInto B then some (.enum (some r) .generic) else none

/-- `derive(SizedEncode)`: impls/sized_encode_struct.rs:27-36, impls/sized_encode_enum.rs:30-59. -/
def GItem.deriveSized (S : Nat → Prop) : GItem → Prop
  | .struct fs => fs.HasSized S
  | .enum _ vs => vs.HasSized S

mutual

/-- The type for certain arguments. -/
def GTy.inst (σ : Nat → Ty) : GTy → Ty
  | .param i => σ i
  | .closed t => t
  | .phantom _ => .unit .phantomData
  | .wrap w t => .wrap w (t.inst σ)
  | .array t n => .array (t.inst σ) n
  | .seq k t => .seq k (t.inst σ)
  | .hashMap k v => .hashMap (k.inst σ) (v.inst σ)
  | .hashSet k => .hashSet (k.inst σ)
  | .option t => .option (t.inst σ)
  | .result t e => .result (t.inst σ) (e.inst σ)
  | .bound t => .bound (t.inst σ)
  | .range t => .range (t.inst σ)
  | .rangeInclusive t => .rangeInclusive (t.inst σ)
  | .lock k t => .lock k (t.inst σ)
  | .refCell t => .refCell (t.inst σ)
  | .sizedSlice t n => .sizedSlice (t.inst σ) n
  | .tuple fs => .tuple (fs.inst σ)

def GFields.inst (σ : Nat → Ty) : GFields → Fields
  | .nil => .nil
  | .cons t fs => .cons (t.inst σ) (fs.inst σ)

end

def GVariants.inst (σ : Nat → Ty) : GVariants → Variants
  | .nil => .nil
  | .cons d fs vs => .cons d (fs.inst σ) (vs.inst σ)

/-- The item for certain arguments. -/
def GItem.inst (σ : Nat → Ty) : GItem → Ty
  | .struct fs => .struct (fs.inst σ)
  | .enum r vs => .enum r (vs.inst σ)

end Oct
