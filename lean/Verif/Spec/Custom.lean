import Verif.Model.Custom
import Verif.Spec.Format
/-
What is expected of types made of the crate's containers and derives around types with impls by
others, in terms of what those impls promise. Refers to types, values and streams only.
-/
namespace Oct.Spec

/-- `m`, given room for `w`, writes `w` at the position and succeeds. -/
def Writes (m : Enc Unit) (w : List UInt8) : Prop :=
  ∀ o : Output, o.pos + w.length ≤ o.buf.length →
    m o = (.ok (), ⟨o.buf.take o.pos ++ w ++ o.buf.drop (o.pos + w.length), o.pos + w.length⟩)

/-- `m` never succeeds. -/
def Never (m : Enc Unit) : Prop := ∀ o : Output, (m o).1 ≠ .ok ()

/-- `m` reads exactly `w` and returns `a`, whatever is before and after. -/
def Reads {α : Type} (m : Dec α) (w : List UInt8) (a : α) : Prop :=
  ∀ pre rest, m ⟨pre ++ (w ++ rest), pre.length⟩ = (.ok a, ⟨pre ++ (w ++ rest), pre.length + w.length⟩)

/-- What the authors promise of their types: which values have an encoding, which it is, and what is
recovered of the value. -/
structure Promise where
  ok : (T : Impl) → T.Val → Prop
  wire : (T : Impl) → T.Val → List UInt8
  back : (T : Impl) → T.Val → T.Val

/-- The impls of `T` for encoding are as promised. -/
def Promise.KeptEnc (P : Promise) (T : Impl) : Prop :=
  ∀ v, (P.ok T v → Writes (T.encode v) (P.wire T v)) ∧ (¬ P.ok T v → Never (T.encode v))

/-- The impl of `T` for decoding is as promised. -/
def Promise.KeptDec (P : Promise) (T : Impl) : Prop :=
  ∀ v, P.ok T v → Reads T.decode (P.wire T v) (P.back T v)

/-- The bound of `T` is as promised. -/
def Promise.KeptMax (P : Promise) (T : Impl) : Prop :=
  ∀ v, P.ok T v → (P.wire T v).length ≤ T.maxSize

mutual

/-- `p` holds of all types by others that the type is made of. -/
def Authors (p : Impl → Prop) : Open → Prop
  | .impl T => p T
  | .wrap _ t => Authors p t
  | .array t _ => Authors p t
  | .seq _ t => Authors p t
  | .hashMap K t => p K.toImpl ∧ Authors p t
  | .hashSet K => p K.toImpl
  | .option t => Authors p t
  | .result t e _ => Authors p t ∧ Authors p e
  | .bound t => Authors p t
  | .range t => Authors p t
  | .rangeInclusive t => Authors p t
  | .lock _ t => Authors p t
  | .refCell t => Authors p t
  | .sizedSlice t _ => Authors p t
  | .tuple fs => AuthorsFields p fs
  | .struct fs => AuthorsFields p fs
  | .enum _ vs => AuthorsVariants p vs

/-- See `Authors`. -/
def AuthorsFields (p : Impl → Prop) : OpenFields → Prop
  | .nil => True
  | .cons t fs => Authors p t ∧ AuthorsFields p fs

/-- See `Authors`. -/
def AuthorsVariants (p : Impl → Prop) : OpenVariants → Prop
  | .nil => True
  | .cons _ fs vs => AuthorsFields p fs ∧ AuthorsVariants p vs

end

/-- The explicit discriminants of an enumeration, in order. -/
def openDiscs : OpenVariants → List (Option Nat)
  | .nil => []
  | .cons d _ vs => d :: openDiscs vs

mutual

/-- The octets of a value, given those of the authors' types: as in `Spec/Format.lean`. -/
def openWire (P : Promise) : (t : Open) → t.Val → List UInt8
  | .impl T, v => P.wire T v
  | .wrap _ t, v => openWire P t v
  | .array t _, v => v.val.flatMap (openWire P t)
  | .seq _ t, v => leBytes 2 (List.length v) ++ List.flatMap (openWire P t) v
  | .hashMap K t, v => v.val.flatMap fun p => P.wire K.toImpl p.1 ++ openWire P t p.2
  | .hashSet K, v => v.val.flatMap (P.wire K.toImpl)
  | .option t, v =>
    match v with
    | none => [0]
    | some v => 1 :: openWire P t v
  | .result t e _, v =>
    match v with
    | .ok v => 0 :: openWire P t v
    | .err v => 1 :: openWire P e v
  | .bound t, v =>
    match v with
    | .included v => 0 :: openWire P t v
    | .excluded v => 1 :: openWire P t v
    | .unbounded => [2]
  | .range t, v => openWire P t v.start ++ openWire P t v.stop
  | .rangeInclusive t, v => openWire P t v.start ++ openWire P t v.stop
  | .lock _ t, v => openWire P t v.val
  | .refCell t, v => openWire P t v.val
  | .sizedSlice t _, v => leBytes 2 v.val.length ++ v.val.flatMap (openWire P t)
  | .tuple fs, v => openWireFields P fs v
  | .struct fs, v => openWireFields P fs v
  | .enum r vs, v => openWireVariants P r (openDiscs vs) vs 0 v

/-- Fields in order. -/
def openWireFields (P : Promise) : (fs : OpenFields) → fs.Val → List UInt8
  | .nil, _ => []
  | .cons t fs, v => openWire P t v.1 ++ openWireFields P fs v.2

/-- The discriminant of the variant and its fields. -/
def openWireVariants (P : Promise) (r : Repr) (explicit : List (Option Nat)) :
    (vs : OpenVariants) → (j : Nat) → vs.Val → List UInt8
  | .nil, _, v => nomatch v
  | .cons _ fs vs, j, v =>
    match v with
    | .inl v => reprWire r (discOf explicit j) ++ openWireFields P fs v
    | .inr v => openWireVariants P r explicit vs (j + 1) v

end

mutual

/-- The values that have an encoding, given those of the authors' types. -/
def OpenEncodable (P : Promise) : (t : Open) → t.Val → Prop
  | .impl T, v => P.ok T v
  | .wrap _ t, v => OpenEncodable P t v
  | .array t _, v => ∀ x ∈ v.val, OpenEncodable P t x
  | .seq _ t, v => List.length v ≤ 65535 ∧ ∀ x ∈ (show List t.Val from v), OpenEncodable P t x
  | .hashMap K t, v => ∀ p ∈ v.val, P.ok K.toImpl p.1 ∧ OpenEncodable P t p.2
  | .hashSet K, v => ∀ k ∈ v.val, P.ok K.toImpl k
  | .option t, v =>
    match v with
    | none => True
    | some v => OpenEncodable P t v
  | .result t e _, v =>
    match v with
    | .ok v => OpenEncodable P t v
    | .err v => OpenEncodable P e v
  | .bound t, v =>
    match v with
    | .included v => OpenEncodable P t v
    | .excluded v => OpenEncodable P t v
    | .unbounded => True
  | .range t, v => OpenEncodable P t v.start ∧ OpenEncodable P t v.stop
  | .rangeInclusive t, v => OpenEncodable P t v.start ∧ OpenEncodable P t v.stop
  | .lock _ t, v => OpenEncodable P t v.val
  | .refCell t, v => v.mutBorrowed = false ∧ OpenEncodable P t v.val
  | .sizedSlice t _, v => v.val.length ≤ 65535 ∧ ∀ x ∈ v.val, OpenEncodable P t x
  | .tuple fs, v => OpenEncodableFields P fs v
  | .struct fs, v => OpenEncodableFields P fs v
  | .enum r vs, v => OpenEncodableVariants P r (openDiscs vs) vs 0 v

/-- All fields are encodable. -/
def OpenEncodableFields (P : Promise) : (fs : OpenFields) → fs.Val → Prop
  | .nil, _ => True
  | .cons t fs, v => OpenEncodable P t v.1 ∧ OpenEncodableFields P fs v.2

/-- The discriminant and the fields of the variant are encodable. -/
def OpenEncodableVariants (P : Promise) (r : Repr) (explicit : List (Option Nat)) :
    (vs : OpenVariants) → (j : Nat) → vs.Val → Prop
  | .nil, _, v => nomatch v
  | .cons _ fs vs, j, v =>
    match v with
    | .inl v => ReprEncodable r (discOf explicit j) ∧ OpenEncodableFields P fs v
    | .inr v => OpenEncodableVariants P r explicit vs (j + 1) v

end

mutual

/-- What is recovered of a value, given what is recovered of the authors' types (nothing is said of hash
maps and sets here, which are not recovered). -/
def openCarried (P : Promise) : (t : Open) → t.Val → t.Val
  | .impl T, v => P.back T v
  | .wrap _ t, v => openCarried P t v
  | .array t _, v => ⟨v.val.map (openCarried P t), by simp [v.property]⟩
  | .seq _ t, v => List.map (openCarried P t) v
  | .hashMap _ _, v => v
  | .hashSet _, v => v
  | .option t, v => Option.map (openCarried P t) v
  | .result t e _, v =>
    match v with
    | .ok v => .ok (openCarried P t v)
    | .err v => .err (openCarried P e v)
  | .bound t, v =>
    match v with
    | .included v => .included (openCarried P t v)
    | .excluded v => .excluded (openCarried P t v)
    | .unbounded => .unbounded
  | .range t, v => ⟨openCarried P t v.start, openCarried P t v.stop⟩
  | .rangeInclusive t, v => ⟨openCarried P t v.start, openCarried P t v.stop, false⟩
  | .lock _ t, v => ⟨false, openCarried P t v.val⟩
  | .refCell t, v => ⟨false, openCarried P t v.val⟩
  | .sizedSlice t _, v => ⟨v.val.map (openCarried P t), by simp [v.property]⟩
  | .tuple fs, v => openCarriedFields P fs v
  | .struct fs, v => openCarriedFields P fs v
  | .enum _ vs, v => openCarriedVariants P vs v

/-- See `openCarried`. -/
def openCarriedFields (P : Promise) : (fs : OpenFields) → fs.Val → fs.Val
  | .nil, v => v
  | .cons t fs, v => (openCarried P t v.1, openCarriedFields P fs v.2)

/-- See `openCarried`. -/
def openCarriedVariants (P : Promise) : (vs : OpenVariants) → vs.Val → vs.Val
  | .nil, v => v
  | .cons _ fs vs, v =>
    match v with
    | .inl v => .inl (openCarriedFields P fs v)
    | .inr v => .inr (openCarriedVariants P vs v)

end

mutual

/-- All sized slices in the value are full (decoding one of capacity `N` always reads `N` items), and there
is no hash map or set in it (encoding them leaves out the length that decoding them reads). -/
def Full : (t : Open) → t.Val → Prop
  | .impl _, _ => True
  | .wrap _ t, v => Full t v
  | .array t _, v => ∀ x ∈ v.val, Full t x
  | .seq _ t, v => ∀ x ∈ (show List t.Val from v), Full t x
  | .hashMap _ _, _ => False
  | .hashSet _, _ => False
  | .option t, v =>
    match v with
    | none => True
    | some v => Full t v
  | .result t e _, v =>
    match v with
    | .ok v => Full t v
    | .err v => Full e v
  | .bound t, v =>
    match v with
    | .included v => Full t v
    | .excluded v => Full t v
    | .unbounded => True
  | .range t, v => Full t v.start ∧ Full t v.stop
  | .rangeInclusive t, v => Full t v.start ∧ Full t v.stop
  | .lock _ t, v => Full t v.val
  | .refCell t, v => Full t v.val
  | .sizedSlice t n, v => v.val.length = n ∧ ∀ x ∈ v.val, Full t x
  | .tuple fs, v => FullFields fs v
  | .struct fs, v => FullFields fs v
  | .enum _ vs, v => FullVariants vs v

/-- See `Full`. -/
def FullFields : (fs : OpenFields) → fs.Val → Prop
  | .nil, _ => True
  | .cons t fs, v => Full t v.1 ∧ FullFields fs v.2

/-- See `Full`. -/
def FullVariants : (vs : OpenVariants) → vs.Val → Prop
  | .nil, _ => True
  | .cons _ fs vs, v =>
    match v with
    | .inl v => FullFields fs v
    | .inr v => FullVariants vs v

end

mutual

/-- No `Result` and no sized slice is in the type: their `MAX_ENCODED_SIZE` is wrong (C18). -/
def OpenBounded : Open → Prop
  | .impl _ => True
  | .wrap _ t => OpenBounded t
  | .array t _ => OpenBounded t
  | .seq _ t => OpenBounded t
  | .hashMap _ t => OpenBounded t
  | .hashSet _ => True
  | .option t => OpenBounded t
  | .result _ _ _ => False
  | .bound t => OpenBounded t
  | .range t => OpenBounded t
  | .rangeInclusive t => OpenBounded t
  | .lock _ t => OpenBounded t
  | .refCell t => OpenBounded t
  | .sizedSlice _ _ => False
  | .tuple fs => OpenBoundedFields fs
  | .struct fs => OpenBoundedFields fs
  | .enum _ vs => OpenBoundedVariants vs

/-- See `OpenBounded`. -/
def OpenBoundedFields : OpenFields → Prop
  | .nil => True
  | .cons t fs => OpenBounded t ∧ OpenBoundedFields fs

/-- See `OpenBounded`. -/
def OpenBoundedVariants : OpenVariants → Prop
  | .nil => True
  | .cons _ fs vs => OpenBoundedFields fs ∧ OpenBoundedVariants vs

end

/-- The first `l.length` calls of `enc` succeed, one after another, and take the stream from `o` to
`o'`. -/
inductive Calls {α : Type} (enc : α → Enc Unit) : List α → Output → Output → Prop
  | nil (o : Output) : Calls enc [] o o
  | cons {x : α} {l : List α} {o o1 o2 : Output} : enc x o = (.ok (), o1) → Calls enc l o1 o2 →
    Calls enc (x :: l) o o2

/-- So many calls of `dec` succeed, one after another, with the values of `l`, and take the stream
from `i` to `i'`. -/
inductive Gets {α : Type} (dec : Dec α) : List α → Input → Input → Prop
  | nil (i : Input) : Gets dec [] i i
  | cons {x : α} {l : List α} {i i1 i2 : Input} : dec i = (.ok x, i1) → Gets dec l i1 i2 →
    Gets dec (x :: l) i i2

/-- The outcome of an item or field, as its container reports it. -/
def reported {ε α β : Type} (f : ε → ε) : Res ε α → Option (Res ε β)
  | .ok _ => none
  | .err e => some (.err (f e))
  | .panic p => some (.panic p)
  | .ub u => some (.ub u)

/-- The impls that a hash map calls, in order: key and value of each entry. -/
def entryCalls {α β : Type} (encK : α → Enc Unit) (encV : β → Enc Unit) (l : List (α × β)) :
    List (Enc Unit) :=
  l.flatMap fun p => [encK p.1, encV p.2]

/-- Key, then value. -/
def decEntry {α β : Type} (decK : Dec α) (decV : Dec β) : Dec (α × β) := do
  let k ← decK
  let v ← decV
  pure (k, v)

/-- The keys that are not the same as an earlier one. -/
def firstOnes {α : Type} (same : α → α → Bool) : List α → List α
  | [] => []
  | k :: l => k :: (firstOnes same l).filter fun x => !same x k

/-- The value that came last of those with a key the same as `k`. -/
def latest {α β : Type} (same : α → α → Bool) (k : α) (l : List (α × β)) : Option β :=
  (l.reverse.find? fun p => same p.1 k).map Prod.snd

/-- `==` is an equivalence, as `Eq` demands. -/
structure Lawful {α : Type} (same : α → α → Bool) : Prop where
  refl : ∀ a, same a a = true
  symm : ∀ a b, same a b = true → same b a = true
  trans : ∀ a b c, same a b = true → same b c = true → same a c = true

/-- The encodings of the fields, in order, each with the conversion of its errors. -/
def fieldCalls : (fs : OpenFields) → fs.Val → List (Enc Unit × (EncErr → EncErr))
  | .nil, _ => []
  | .cons t fs, v => (t.encode v.1, t.encInto) :: fieldCalls fs v.2

end Oct.Spec
