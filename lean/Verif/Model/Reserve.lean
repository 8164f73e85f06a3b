import Verif.Model.Decode
/-
Decoding on a machine on which not every buffer can be reserved: `Vec::with_capacity(len)` and
`with_capacity_and_hasher(len, ..)` panic with "capacity overflow" if the buffer would have more than
`isize::MAX` octets, whatever memory there is. Model/Decode has no such test, as if `isize::MAX` were large
enough. Line numbers without a file are those of oct/src/decode/decode/mod.rs.

SIMPLIFICATIONS: the sizes of types and the lengths at which a table of hashbrown is too large are
parameters; that memory runs out (which aborts the program) is not modelled. Texts (291, 722) are copied
from the input only when they have been read and tested, so that what is reserved for them is never larger
than the input (theorem `C131_text`); they are left as in Model/Decode.
-/
namespace Oct

/-- What decoding has to know of the machine. -/
structure Target where
  /-- `isize::MAX`. -/
  isizeMax : Nat
  /-- `size_of::<T>()`. -/
  size : Ty → Nat
  /-- Whether a table for this many entries of this size can be laid out. -/
  tableFits : (size : Nat) → (len : Nat) → Bool
  /-- A table for no entries is not allocated. -/
  tableFits_zero : ∀ s, tableFits s 0 = true

/-- Whether `Vec::<T>::with_capacity(len)` succeeds: the octets of the buffer, as a layout, are at most
`isize::MAX`. -/
def Target.vecFits (T : Target) (t : Ty) (len : Nat) : Bool := decide (len * T.size t ≤ T.isizeMax)

/-- Whether `HashMap::<K, V, S>::with_capacity_and_hasher(len, ..)` succeeds. The entries are pairs. -/
def Target.mapFits (T : Target) (k v : Ty) (len : Nat) : Bool :=
  T.tableFits (T.size (.tuple (.cons k (.cons v .nil)))) len

/-- Whether `HashSet::<K, S>::with_capacity_and_hasher(len, ..)` succeeds. -/
def Target.setFits (T : Target) (k : Ty) (len : Nat) : Bool := T.tableFits (T.size k) len

/-- Reserves a buffer, which panics if it does not fit. -/
def Dec.reserve (fits : Bool) : Dec Unit := if fits then pure () else Dec.panic .capacityOverflow

/-- `Vec::decode`: 781-805. The buffer is reserved before the first item is decoded (788). -/
def decVecOn {α : Type} (fits : Nat → Bool) (dec : Dec α) : Dec (List α) := do
  let len ← decUsize
  let _ ← Dec.reserve (fits len)
  let vs ← decItems dec len 0
  pure vs.val

/-- `HashMap::decode`: 322-348. The table is reserved before the first entry is decoded (334). -/
def decHashMapOn {α β : Type} [DecidableEq α] (fits : Nat → Bool) (decK : Dec α) (decV : Dec β) :
    Dec (MapVal α β) := do
  let len ← decUsize
  let _ ← Dec.reserve (fits len)
  decMapLoop decK decV len 0 ⟨[], List.nodup_nil⟩

/-- `HashSet::decode`: 352-374. The table is reserved before the first key is decoded (363). -/
def decHashSetOn {α : Type} [DecidableEq α] (fits : Nat → Bool) (decK : Dec α) : Dec (SetVal α) := do
  let len ← decUsize
  let _ ← Dec.reserve (fits len)
  decSetLoop decK len 0 ⟨[], List.nodup_nil⟩

mutual

/-- `T::decode`, for every modelled `T`, on the machine. -/
def Ty.decodeOn (T : Target) : (t : Ty) → Dec t.Val
  | .wrap _ t => t.decodeOn T
  | .array t n => decArray (t.decodeOn T) n
  | .seq .linkedList t => decSeq (t.decodeOn T)
  | .seq .vec t => decVecOn (T.vecFits t) (t.decodeOn T)
  | .seq .slice t => decVecOn (T.vecFits t) (t.decodeOn T)
  | .hashMap k v => @decHashMapOn _ _ k.decEq (T.mapFits k v) (k.decodeOn T) (v.decodeOn T)
  | .hashSet k => @decHashSetOn _ k.decEq (T.setFits k) (k.decodeOn T)
  | .option t => decOption (t.decodeOn T)
  | .result t e => decResult (t.decodeOn T) (e.decodeOn T)
  | .bound t => decBound (t.decodeOn T)
  | .range t => decRange (t.decodeOn T)
  | .rangeInclusive t => decRangeInclusive (t.decodeOn T)
  | .lock _ t => decLock (t.decodeOn T)
  | .refCell t => decRefCell (t.decodeOn T)
  | .sizedSlice t n => decSizedSlice (t.decodeOn T) n
  | .tuple fs => fs.decodeOn T id
  | .struct fs => fs.decodeOn T DecErr.toGeneric
  | .enum r vs => do
    let discriminant ← decRepr r
    vs.decodeOn T none discriminant
  | .num k => (Ty.num k).decode
  | .bool => decBool
  | .char => decChar
  | .usize => decUsize
  | .isize => decIsize
  | .nonZero r => decNonZero r
  | .unit _ => pure ()
  | .infallible => Dec.panic .infallible
  | .duration => decDuration
  | .systemTime p => decSystemTime p
  | .ipv4 => decIpv4
  | .ipv6 => decIpv6
  | .ipAddr => decIpAddr
  | .socketAddrV4 => decSocketAddrV4
  | .socketAddrV6 => decSocketAddrV6
  | .socketAddr => decSocketAddr
  | .str _ => decString
  | .cStr _ => decCString
  | .sizedStr n => decSizedStr n

/-- `Fields.decode`, on the machine. -/
def Fields.decodeOn (T : Target) : (fs : Fields) → (g : DecErr → DecErr) → Dec fs.Val
  | .nil, _ => pure ()
  | .cons t fs, g => do
    let v ← (t.decodeOn T).mapErr g
    let vs ← fs.decodeOn T g
    pure (v, vs)

/-- `Variants.decode`, on the machine. -/
def Variants.decodeOn (T : Target) :
    (vs : Variants) → (prev : Option Nat) → (discriminant : Int) → Dec vs.Val
  | .nil, _, x => Dec.fail (.unassigned x)
  | .cons d fs vs, prev, x =>
    if x = (nextDisc prev d : Int) then do
      let v ← fs.decodeOn T (fun e => .badField e.toGeneric)
      pure (.inl v)
    else do
      let v ← vs.decodeOn T (some (nextDisc prev d)) x
      pure (.inr v)

end

end Oct
