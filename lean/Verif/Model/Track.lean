import Verif.Model.Decode
/-
Decoding, with an account of the heap: which allocations a decoding makes, and whether each is then
owned by the value, freed again, or lost (leaked). The result and the stream are those of
Model/Decode; `Proofs/Track.lean` proves that.
Line numbers without a file are those of oct/src/decode/decode/mod.rs.

The rules of Rust that matter: a local value is dropped when a later `?` returns or a panic unwinds;
`MaybeUninit` never drops its contents; a `Vec` drops as many items as its length says (0 until
`set_len`), and its buffer; `HashMap::insert` of an equal key drops the new key and the old value;
`HashSet::insert` of an equal key drops the new key.

SIMPLIFICATIONS: one identity per buffer, node or box; growing or shrinking a buffer (`CString`) keeps
the identity; the table of a map is one allocation, made if the capacity is not zero; items and boxes of
no size are treated as if they had one (so that fewer allocations are really made). Panics unwind.
-/
namespace Oct

/-- The outcome of a decoding, and what became of the allocations it made. -/
structure Tracked (α : Type) where
  res : Res DecErr α
  rest : Input
  /-- The next allocation. -/
  next : Nat
  /-- Freed when the value is dropped. -/
  owned : List Nat
  /-- In the cells of a sized slice in the value: not freed when the value is dropped. -/
  kept : List Nat
  /-- Freed by the decoding. -/
  freed : List Nat
  /-- Not freed, and not reachable any more. -/
  lost : List Nat

/-- A decoding, given the next allocation. -/
def Track (α : Type) := Input → Nat → Tracked α

namespace Track
variable {α β : Type}

/-- A decoding that does not allocate. -/
def of (d : Dec α) : Track α := fun I n => ⟨(d I).1, (d I).2, n, [], [], [], []⟩

/-- Allocates, and is then the owner of the allocation. -/
def alloc (a : α) : Track α := fun I n => ⟨.ok a, I, n + 1, [n], [], [], []⟩

/-- `.map_err(g)`. -/
def mapErr (g : DecErr → DecErr) (m : Track α) : Track α := fun I n =>
  let x := m I n
  { x with res := x.res.mapErr g }

/-- The outcome `y` of what comes after the outcome `x`, which was successful. If `y` is not, the value
of `x` is dropped; or it is not, if it has been written to a raw cell (`raw`). -/
def after (raw : Bool) (x : Tracked α) (y : Tracked β) : Tracked β :=
  match y.res with
  | .ok b => ⟨.ok b, y.rest, y.next, x.owned ++ y.owned, x.kept ++ y.kept, x.freed ++ y.freed,
      x.lost ++ y.lost⟩
  | r => ⟨r, y.rest, y.next, y.owned, y.kept, x.freed ++ y.freed ++ (if raw then [] else x.owned),
      x.lost ++ y.lost ++ x.kept ++ (if raw then x.owned else [])⟩

/-- Sequencing with the `?` operator. -/
def bindWith (raw : Bool) (m : Track α) (f : α → Track β) : Track β := fun I n =>
  let x := m I n
  match x.res with
  | .ok a => after raw x (f a x.rest x.next)
  | .err e => { x with res := .err e }
  | .panic p => { x with res := .panic p }
  | .ub u => { x with res := .ub u }

/-- `bindWith`, for local values. -/
def bind (m : Track α) (f : α → Track β) : Track β := bindWith false m f

/-- Turns the value into another one that owns the same. -/
def map (f : α → β) (m : Track α) : Track β := fun I n =>
  let x := m I n
  { x with res := x.res.map f }

/-- The value is now in the cells of a sized slice. -/
def keep (m : Track α) : Track α := fun I n =>
  let x := m I n
  { x with owned := [], kept := x.owned ++ x.kept }

end Track

/-- The loops of `Vec::decode` (788-798), `[T; N]::decode` (135-140) and `SizedSlice::decode`
(oct/src/sized_slice/code.rs:39-44): the items are written to raw cells. -/
def trackItems {α : Type} (m : Track α) : (n : Nat) → (i : Nat) → Track (Items α n)
  | 0, _ => Track.of (pure ⟨[], rfl⟩)
  | n + 1, i =>
    Track.bindWith true (m.mapErr (fun e => .badItem (.item i e))) fun v =>
      (trackItems m n (i + 1)).map fun vs => ⟨v :: vs.val, by simp [vs.property]⟩

/-- `Vec::with_capacity(len)` and the like. -/
def trackBuffer (len : Nat) : Track Unit := if len = 0 then Track.of (pure ()) else Track.alloc ()

/-- `Vec::decode`: 781-805. -/
def trackVec {α : Type} (m : Track α) : Track (List α) :=
  Track.bind (Track.of decUsize) fun len =>
    Track.bind (trackBuffer len) fun _ => (trackItems m len 0).map Subtype.val

/-- The loop of `LinkedList::decode`: 449-454. `push_back` allocates a node. -/
def trackNodes {α : Type} (m : Track α) : (n : Nat) → (i : Nat) → Track (Items α n)
  | 0, _ => Track.of (pure ⟨[], rfl⟩)
  | n + 1, i =>
    Track.bind (m.mapErr (fun e => .badItem (.item i e))) fun v =>
      Track.bind (Track.alloc ()) fun _ =>
        (trackNodes m n (i + 1)).map fun vs => ⟨v :: vs.val, by simp [vs.property]⟩

/-- `LinkedList::decode`: 441-459. -/
def trackList {α : Type} (m : Track α) : Track (List α) :=
  Track.bind (Track.of decUsize) fun len => (trackNodes m len 0).map Subtype.val

/-- `SizedSlice::decode`: oct/src/sized_slice/code.rs:29-48. -/
def trackSized {α : Type} (m : Track α) (n : Nat) : Track {l : List α // l.length ≤ n} :=
  Track.bind (Track.of decUsize) fun len =>
    if len > n then Track.of (Dec.fail (.badLength (.length n len)))
    else (trackItems m n 0).keep.map fun vs =>
      ⟨vs.val.take len, by simp [List.length_take, vs.property]; omega⟩

/-- What a key or a value of a map owns and keeps. -/
structure Holding where
  owned : List Nat
  kept : List Nat
  deriving DecidableEq

/-- What the entries of a map hold, in the order of the entries. -/
abbrev Holdings := List (Holding × Holding)

/-- Everything owned by the entries. -/
def Holdings.owned (h : Holdings) : List Nat := h.flatMap fun e => e.1.owned ++ e.2.owned

/-- Everything kept by the entries. -/
def Holdings.kept (h : Holdings) : List Nat := h.flatMap fun e => e.1.kept ++ e.2.kept

/-- `HashMap::insert`: the entries' holdings, and that of what is dropped (the new key and the old
value, if there is an equal key). -/
def holdInsert {α β : Type} [DecidableEq α] (k : α) (hk hv : Holding) :
    List (α × β) → Holdings → Holdings × Holding
  | (k', _) :: l, (hk', hv') :: h =>
    if k' = k then ((hk', hv) :: h, ⟨hk.owned ++ hv'.owned, hk.kept ++ hv'.kept⟩)
    else
      let r := holdInsert k hk hv l h
      ((hk', hv') :: r.1, r.2)
  | _, h => (h ++ [(hk, hv)], ⟨[], []⟩)

/-- Drops what is held, and stops. -/
def Tracked.stop {α β : Type} (x : Tracked α) (r : Res DecErr β) (owned kept : List Nat) : Tracked β :=
  ⟨r, x.rest, x.next, [], [], x.freed ++ owned, x.lost ++ kept⟩

/-- The loop of `HashMap::decode`: 336-344, with the map so far and what its entries hold. -/
def trackMapLoop {α β : Type} [DecidableEq α] (trackK : Track α) (trackV : Track β) :
    (n : Nat) → (i : Nat) → MapVal α β → Holdings → Track (MapVal α β)
  | 0, _, m, h => fun I n => ⟨.ok m, I, n, h.owned, h.kept, [], []⟩
  | c + 1, i, m, h => fun I n =>
    let x := trackK.mapErr (fun e => .badItem (.item i e)) I n
    match x.res with
    | .ok k =>
      let y := trackV.mapErr (fun e => .badItem (.item i e)) x.rest x.next
      match y.res with
      | .ok v =>
        let r := holdInsert k ⟨x.owned, x.kept⟩ ⟨y.owned, y.kept⟩ m.val h
        let z := trackMapLoop trackK trackV c (i + 1)
          ⟨mapInsert k v m.val, mapInsert_nodup k v m.val m.property⟩ r.1 y.rest y.next
        { z with freed := x.freed ++ y.freed ++ r.2.owned ++ z.freed
                 lost := x.lost ++ y.lost ++ r.2.kept ++ z.lost }
      | .err e => y.stop (.err e) (x.freed ++ x.owned ++ h.owned) (x.lost ++ x.kept ++ h.kept)
      | .panic p => y.stop (.panic p) (x.freed ++ x.owned ++ h.owned) (x.lost ++ x.kept ++ h.kept)
      | .ub u => y.stop (.ub u) (x.freed ++ x.owned ++ h.owned) (x.lost ++ x.kept ++ h.kept)
    | .err e => x.stop (.err e) h.owned h.kept
    | .panic p => x.stop (.panic p) h.owned h.kept
    | .ub u => x.stop (.ub u) h.owned h.kept

/-- `HashMap::decode`: 322-348. -/
def trackHashMap {α β : Type} [DecidableEq α] (trackK : Track α) (trackV : Track β) :
    Track (MapVal α β) :=
  Track.bind (Track.of decUsize) fun len =>
    Track.bind (trackBuffer len) fun _ => trackMapLoop trackK trackV len 0 ⟨[], List.nodup_nil⟩ []

/-- The loop of `HashSet::decode`: 365-370. -/
def trackSetLoop {α : Type} [DecidableEq α] (trackK : Track α) :
    (n : Nat) → (i : Nat) → SetVal α → (owned kept : List Nat) → Track (SetVal α)
  | 0, _, s, owned, kept => fun I n => ⟨.ok s, I, n, owned, kept, [], []⟩
  | c + 1, i, s, owned, kept => fun I n =>
    let x := trackK.mapErr (fun e => .badItem (.item i e)) I n
    match x.res with
    | .ok k =>
      let s' : SetVal α := ⟨setInsert k s.val, setInsert_nodup k s.val s.property⟩
      if k ∈ s.val then
        let z := trackSetLoop trackK c (i + 1) s' owned kept x.rest x.next
        { z with freed := x.freed ++ x.owned ++ z.freed, lost := x.lost ++ x.kept ++ z.lost }
      else
        let z := trackSetLoop trackK c (i + 1) s' (owned ++ x.owned) (kept ++ x.kept) x.rest x.next
        { z with freed := x.freed ++ z.freed, lost := x.lost ++ z.lost }
    | .err e => x.stop (.err e) owned kept
    | .panic p => x.stop (.panic p) owned kept
    | .ub u => x.stop (.ub u) owned kept

/-- `HashSet::decode`: 352-374. -/
def trackHashSet {α : Type} [DecidableEq α] (trackK : Track α) : Track (SetVal α) :=
  Track.bind (Track.of decUsize) fun len =>
    Track.bind (trackBuffer len) fun _ => trackSetLoop trackK len 0 ⟨[], List.nodup_nil⟩ [] []

/-- `Option::decode`: 475-492. -/
def trackOption {α : Type} (m : Track α) : Track (Option α) :=
  Track.bind (Track.of decBool) fun sign =>
    if sign then m.map some else Track.of (pure none)

/-- `Result::decode`: 601-627. -/
def trackResult {α β : Type} (mT : Track α) (mE : Track β) : Track (ResultVal α β) :=
  Track.bind (Track.of decBool) fun sign =>
    if sign then (mE.mapErr .badField).map .err else (mT.mapErr .badField).map .ok

/-- `Bound::decode`: 183-212. -/
def trackBound {α : Type} (m : Track α) : Track (BoundVal α) :=
  Track.bind (Track.of decU8) fun discriminant =>
    if discriminant = 0 then (m.mapErr .badField).map .included
    else if discriminant = 1 then (m.mapErr .badField).map .excluded
    else if discriminant = 2 then Track.of (pure .unbounded)
    else Track.of (Dec.fail (.unassigned discriminant))

/-- Boxes: the value is moved to the heap once it is decoded (156-165, 216-226, 580-587). -/
def Wrap.boxes : Wrap → Bool
  | .arc | .box | .rc => true
  | _ => false

mutual

/-- `T::decode`, for every modelled `T`, with an account of the heap. -/
def Ty.track : (t : Ty) → Track t.Val
  | .num k => Track.of (Ty.num k).decode
  | .bool => Track.of decBool
  | .char => Track.of decChar
  | .usize => Track.of decUsize
  | .isize => Track.of decIsize
  | .nonZero r => Track.of (decNonZero r)
  | .unit _ => Track.of (pure ())
  | .infallible => Track.of (Dec.panic .infallible)
  | .wrap w t => Track.bind t.track fun v => if w.boxes then Track.alloc v else Track.of (pure v)
  | .array t n => trackItems t.track n 0
  | .seq .linkedList t => trackList t.track
  | .seq _ t => trackVec t.track
  | .hashMap k v => @trackHashMap _ _ k.decEq k.track v.track
  | .hashSet k => @trackHashSet _ k.decEq k.track
  | .option t => trackOption t.track
  | .result t e => trackResult t.track e.track
  | .bound t => trackBound t.track
  | .range t => Track.bind t.track fun start => t.track.map fun stop => (⟨start, stop⟩ : RangeVal t.Val)
  | .rangeInclusive t => Track.bind t.track fun start =>
      t.track.map fun stop => (⟨start, stop, false⟩ : RangeInclusiveVal t.Val)
  | .lock _ t => t.track.map fun v => (⟨false, v⟩ : LockVal t.Val)
  | .refCell t => t.track.map fun v => (⟨false, v⟩ : RefCellVal t.Val)
  | .duration => Track.of decDuration
  | .systemTime p => Track.of (decSystemTime p)
  | .ipv4 => Track.of decIpv4
  | .ipv6 => Track.of decIpv6
  | .ipAddr => Track.of decIpAddr
  | .socketAddrV4 => Track.of decSocketAddrV4
  | .socketAddrV6 => Track.of decSocketAddrV6
  | .socketAddr => Track.of decSocketAddr
  -- The buffer is made when the text has been read and tested: 722-730 and 291-302.
  | .str _ => Track.bind (Track.of decString) fun s => (trackBuffer s.val.length).map fun _ => s
  | .cStr _ => Track.bind (Track.of decCString) fun s => Track.alloc s
  | .sizedStr n => Track.of (decSizedStr n)
  | .sizedSlice t n => trackSized t.track n
  | .tuple fs => fs.track id
  | .struct fs => fs.track DecErr.toGeneric
  | .enum r vs => Track.bind (Track.of (decRepr r)) fun discriminant => vs.track none discriminant

/-- `Fields.decode`, with an account of the heap. The fields decoded so far are temporaries of the
tuple, structure or variant expression, and are dropped if a later one fails. -/
def Fields.track : (fs : Fields) → (g : DecErr → DecErr) → Track fs.Val
  | .nil, _ => Track.of (pure ())
  | .cons t fs, g => Track.bind (t.track.mapErr g) fun v => (fs.track g).map fun vs => (v, vs)

/-- `Variants.decode`, with an account of the heap. -/
def Variants.track : (vs : Variants) → (prev : Option Nat) → (discriminant : Int) → Track vs.Val
  | .nil, _, x => Track.of (Dec.fail (.unassigned x))
  | .cons d fs vs, prev, x =>
    if x = (nextDisc prev d : Int) then (fs.track (fun e => .badField e.toGeneric)).map .inl
    else (vs.track (some (nextDisc prev d)) x).map .inr

end

end Oct
