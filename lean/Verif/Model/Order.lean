import Verif.Model.Decode
/-
Decoding, with the entries of hash maps and hash sets in any order. `HashMap::insert` and `HashSet::insert`
put an entry where its hash says, and the hasher is a parameter of the type (by default a new `RandomState`
for each map), so that nothing is known of the order in which the entries come when they are iterated.
Model/Decode puts new entries last. Line numbers without a file are those of oct/src/decode/decode/mod.rs.

SIMPLIFICATION: equal keys are those with the same value, and hashing does not panic.
-/
namespace Oct

/-- What puts entries in order: after each `insert`, they may be in any order that there is. So that the
order of each map can be another one, it may depend on the stream and on where it is. -/
structure Order where
  entries : {α : Type} → Input → List α → List α
  perm : ∀ {α : Type} (i : Input) (l : List α), (entries i l).Perm l

/-- The map in its new order. -/
def Order.map {α β : Type} (o : Order) (m : MapVal α β) : Dec (MapVal α β) := fun i =>
  (.ok ⟨o.entries i m.val, (((o.perm i m.val).map Prod.fst).nodup_iff).mpr m.property⟩, i)

/-- The set in its new order. -/
def Order.set {α : Type} (o : Order) (s : SetVal α) : Dec (SetVal α) := fun i =>
  (.ok ⟨o.entries i s.val, ((o.perm i s.val).nodup_iff).mpr s.property⟩, i)

/-- The loop of `HashMap::decode`: 336-344. -/
def decMapLoopBy {α β : Type} [DecidableEq α] (o : Order) (decK : Dec α) (decV : Dec β) :
    (n : Nat) → (i : Nat) → MapVal α β → Dec (MapVal α β)
  | 0, _, m => pure m
  | n + 1, i, m => do
    let k ← decK.mapErr (fun e => .badItem (.item i e))
    let v ← decV.mapErr (fun e => .badItem (.item i e))
    let m ← o.map ⟨mapInsert k v m.val, mapInsert_nodup k v m.val m.property⟩
    decMapLoopBy o decK decV n (i + 1) m

/-- `HashMap::decode`: 322-348. -/
def decHashMapBy {α β : Type} [DecidableEq α] (o : Order) (decK : Dec α) (decV : Dec β) :
    Dec (MapVal α β) := do
  let len ← decUsize
  decMapLoopBy o decK decV len 0 ⟨[], List.nodup_nil⟩

/-- The loop of `HashSet::decode`: 365-370. -/
def decSetLoopBy {α : Type} [DecidableEq α] (o : Order) (decK : Dec α) :
    (n : Nat) → (i : Nat) → SetVal α → Dec (SetVal α)
  | 0, _, s => pure s
  | n + 1, i, s => do
    let k ← decK.mapErr (fun e => .badItem (.item i e))
    let s ← o.set ⟨setInsert k s.val, setInsert_nodup k s.val s.property⟩
    decSetLoopBy o decK n (i + 1) s

/-- `HashSet::decode`: 352-374. -/
def decHashSetBy {α : Type} [DecidableEq α] (o : Order) (decK : Dec α) : Dec (SetVal α) := do
  let len ← decUsize
  decSetLoopBy o decK len 0 ⟨[], List.nodup_nil⟩

mutual

/-- `T::decode`, for every modelled `T`, with entries in this order. -/
def Ty.decodeBy (o : Order) : (t : Ty) → Dec t.Val
  | .wrap _ t => t.decodeBy o
  | .array t n => decArray (t.decodeBy o) n
  | .seq _ t => decSeq (t.decodeBy o)
  | .hashMap k v => @decHashMapBy _ _ k.decEq o (k.decodeBy o) (v.decodeBy o)
  | .hashSet k => @decHashSetBy _ k.decEq o (k.decodeBy o)
  | .option t => decOption (t.decodeBy o)
  | .result t e => decResult (t.decodeBy o) (e.decodeBy o)
  | .bound t => decBound (t.decodeBy o)
  | .range t => decRange (t.decodeBy o)
  | .rangeInclusive t => decRangeInclusive (t.decodeBy o)
  | .lock _ t => decLock (t.decodeBy o)
  | .refCell t => decRefCell (t.decodeBy o)
  | .sizedSlice t n => decSizedSlice (t.decodeBy o) n
  | .tuple fs => fs.decodeBy o id
  | .struct fs => fs.decodeBy o DecErr.toGeneric
  | .enum r vs => do
    let discriminant ← decRepr r
    vs.decodeBy o none discriminant
  | .num k => (Ty.num k).decode
  | .bool => decBool
  | .char => decChar
  | .usize => decUsize
  | .isize => decIsize
  | .nonZero r => decNonZero r
  | .unit _ => pure ()
  | .infallible => Dec.panic .infallible
  | .duration => decDuration
  | .systemTime p => decSystemTime p
  | .ipv4 => decIpv4
  | .ipv6 => decIpv6
  | .ipAddr => decIpAddr
  | .socketAddrV4 => decSocketAddrV4
  | .socketAddrV6 => decSocketAddrV6
  | .socketAddr => decSocketAddr
  | .str _ => decString
  | .cStr _ => decCString
  | .sizedStr n => decSizedStr n

/-- `Fields.decode`, with entries in this order. -/
def Fields.decodeBy (o : Order) : (fs : Fields) → (g : DecErr → DecErr) → Dec fs.Val
  | .nil, _ => pure ()
  | .cons t fs, g => do
    let v ← (t.decodeBy o).mapErr g
    let vs ← fs.decodeBy o g
    pure (v, vs)

/-- `Variants.decode`, with entries in this order. -/
def Variants.decodeBy (o : Order) :
    (vs : Variants) → (prev : Option Nat) → (discriminant : Int) → Dec vs.Val
  | .nil, _, x => Dec.fail (.unassigned x)
  | .cons d fs vs, prev, x =>
    if x = (nextDisc prev d : Int) then do
      let v ← fs.decodeBy o (fun e => .badField e.toGeneric)
      pure (.inl v)
    else do
      let v ← vs.decodeBy o (some (nextDisc prev d)) x
      pure (.inr v)

end

end Oct
