import Verif.Model.Decode
/-
Decoding, with an account of what it costs: calls of `decode`, allocations, and cells of buffers that are
reserved. The result and the stream are those of Model/Decode; `Proofs/Cost.lean` proves that.
Line numbers without a file are those of oct/src/decode/decode/mod.rs.

SIMPLIFICATIONS: reading an integer, an address, a time or a text is one call, whatever it reads (the
octets read are accounted for by the stream); the table of a map has as many cells as entries asked for
(hashbrown rounds up); items and boxes of no size are treated as if they had one (no buffer is really
reserved for them); freeing is free.
-/
namespace Oct

/-- What each thing costs. -/
structure Weights where
  /-- A call of `decode`. -/
  call : Nat
  /-- An allocation. -/
  alloc : Nat
  /-- Space for one item in a buffer that is allocated. -/
  cell : Nat

/-- One for each call. -/
def Weights.calls : Weights := ⟨1, 0, 0⟩

/-- One for each allocation. -/
def Weights.allocs : Weights := ⟨0, 1, 0⟩

/-- One for each cell. -/
def Weights.cells : Weights := ⟨0, 0, 1⟩

/-- A decoding, and what it costs. -/
def Cost (α : Type) := Input → (Res DecErr α × Input) × Nat

namespace Cost
variable {α β : Type}

/-- A decoding that costs `c`. -/
def of (c : Nat) (d : Dec α) : Cost α := fun I => (d I, c)

/-- Costs, and does nothing else. -/
def tick (c : Nat) : Cost Unit := of c (pure ())

/-- `.map_err(g)`. -/
def mapErr (g : DecErr → DecErr) (m : Cost α) : Cost α := fun I =>
  (((m I).1.1.mapErr g, (m I).1.2), (m I).2)

/-- Sequencing with the `?` operator. -/
def bind (m : Cost α) (f : α → Cost β) : Cost β := fun I =>
  match m I with
  | ((.ok a, I'), c) => ((f a I').1, c + (f a I').2)
  | ((.err e, I'), c) => ((.err e, I'), c)
  | ((.panic p, I'), c) => ((.panic p, I'), c)
  | ((.ub u, I'), c) => ((.ub u, I'), c)

/-- Turns the value into another one, which costs nothing. -/
def map (f : α → β) (m : Cost α) : Cost β := bind m fun a => of 0 (pure (f a))

end Cost

/-- The loops of `Vec::decode` (788-798), `[T; N]::decode` (135-140) and `SizedSlice::decode`
(oct/src/sized_slice/code.rs:39-44), and with `node` as the cost of `push_back` that of
`LinkedList::decode` (449-454). -/
def costItems {α : Type} (node : Nat) (m : Cost α) : (n : Nat) → (i : Nat) → Cost (Items α n)
  | 0, _ => Cost.of 0 (pure ⟨[], rfl⟩)
  | n + 1, i =>
    (m.mapErr (fun e => .badItem (.item i e))).bind fun v =>
      (Cost.tick node).bind fun _ =>
        (costItems node m n (i + 1)).map fun vs => ⟨v :: vs.val, by simp [vs.property]⟩

/-- `Vec::with_capacity(len)` (788, 721, 291) and `with_capacity_and_hasher` (334, 363). -/
def Weights.buffer (w : Weights) (len : Nat) : Nat := if len = 0 then 0 else w.alloc + w.cell * len

/-- `Vec::decode`: 781-805. -/
def costVec {α : Type} (w : Weights) (m : Cost α) : Cost (List α) :=
  (Cost.of w.call decUsize).bind fun len =>
    (Cost.tick (w.buffer len)).bind fun _ => (costItems 0 m len 0).map Subtype.val

/-- `LinkedList::decode`: 441-459. Nothing is reserved, but each item has a node of its own. -/
def costList {α : Type} (w : Weights) (m : Cost α) : Cost (List α) :=
  (Cost.of w.call decUsize).bind fun len => (costItems w.alloc m len 0).map Subtype.val

/-- `SizedSlice::decode`: oct/src/sized_slice/code.rs:29-48. The buffer is not on the heap. -/
def costSized {α : Type} (w : Weights) (m : Cost α) (n : Nat) : Cost {l : List α // l.length ≤ n} :=
  (Cost.of w.call decUsize).bind fun len =>
    if len > n then Cost.of 0 (Dec.fail (.badLength (.length n len)))
    else (costItems 0 m n 0).map fun vs =>
      ⟨vs.val.take len, by simp [List.length_take, vs.property]; omega⟩

/-- The loop of `HashMap::decode`: 336-344. -/
def costMapLoop {α β : Type} [DecidableEq α] (mK : Cost α) (mV : Cost β) :
    (n : Nat) → (i : Nat) → MapVal α β → Cost (MapVal α β)
  | 0, _, m => Cost.of 0 (pure m)
  | n + 1, i, m =>
    (mK.mapErr (fun e => .badItem (.item i e))).bind fun k =>
      (mV.mapErr (fun e => .badItem (.item i e))).bind fun v =>
        costMapLoop mK mV n (i + 1) ⟨mapInsert k v m.val, mapInsert_nodup k v m.val m.property⟩

/-- `HashMap::decode`: 322-348. -/
def costHashMap {α β : Type} [DecidableEq α] (w : Weights) (mK : Cost α) (mV : Cost β) :
    Cost (MapVal α β) :=
  (Cost.of w.call decUsize).bind fun len =>
    (Cost.tick (w.buffer len)).bind fun _ => costMapLoop mK mV len 0 ⟨[], List.nodup_nil⟩

/-- The loop of `HashSet::decode`: 365-370. -/
def costSetLoop {α : Type} [DecidableEq α] (mK : Cost α) :
    (n : Nat) → (i : Nat) → SetVal α → Cost (SetVal α)
  | 0, _, s => Cost.of 0 (pure s)
  | n + 1, i, s =>
    (mK.mapErr (fun e => .badItem (.item i e))).bind fun k =>
      costSetLoop mK n (i + 1) ⟨setInsert k s.val, setInsert_nodup k s.val s.property⟩

/-- `HashSet::decode`: 352-374. -/
def costHashSet {α : Type} [DecidableEq α] (w : Weights) (mK : Cost α) : Cost (SetVal α) :=
  (Cost.of w.call decUsize).bind fun len =>
    (Cost.tick (w.buffer len)).bind fun _ => costSetLoop mK len 0 ⟨[], List.nodup_nil⟩

/-- `Option::decode`: 475-492. -/
def costOption {α : Type} (w : Weights) (m : Cost α) : Cost (Option α) :=
  (Cost.of w.call decBool).bind fun sign => if sign then m.map some else Cost.of 0 (pure none)

/-- `Result::decode`: 601-627. -/
def costResult {α β : Type} (w : Weights) (mT : Cost α) (mE : Cost β) : Cost (ResultVal α β) :=
  (Cost.of w.call decBool).bind fun sign =>
    if sign then (mE.mapErr .badField).map .err else (mT.mapErr .badField).map .ok

/-- `Bound::decode`: 183-212. -/
def costBound {α : Type} (w : Weights) (m : Cost α) : Cost (BoundVal α) :=
  (Cost.of w.call decU8).bind fun discriminant =>
    if discriminant = 0 then (m.mapErr .badField).map .included
    else if discriminant = 1 then (m.mapErr .badField).map .excluded
    else if discriminant = 2 then Cost.of 0 (pure .unbounded)
    else Cost.of 0 (Dec.fail (.unassigned discriminant))

/-- What it costs to move a value into the wrapper: `Arc::new`, `Box::new` and `Rc::new` allocate (156-165,
216-226, 580-587), the others do not. -/
def Wrap.cost (w : Weights) : Wrap → Nat
  | .arc | .box | .rc => w.alloc
  | _ => 0

mutual

/-- `T::decode`, for every modelled `T`, with what it costs. -/
def Ty.cost (w : Weights) : (t : Ty) → Cost t.Val
  | .num k => Cost.of w.call (Ty.num k).decode
  | .bool => Cost.of w.call decBool
  | .char => Cost.of w.call decChar
  | .usize => Cost.of w.call decUsize
  | .isize => Cost.of w.call decIsize
  | .nonZero r => Cost.of w.call (decNonZero r)
  | .unit _ => Cost.of w.call (pure ())
  | .infallible => Cost.of w.call (Dec.panic .infallible)
  | .wrap k t => (Cost.tick w.call).bind fun _ => (t.cost w).bind fun v => Cost.of (k.cost w) (pure v)
  | .array t n => (Cost.tick w.call).bind fun _ => costItems 0 (t.cost w) n 0
  | .seq .linkedList t => costList w (t.cost w)
  | .seq _ t => costVec w (t.cost w)
  | .hashMap k v => @costHashMap _ _ k.decEq w (k.cost w) (v.cost w)
  | .hashSet k => @costHashSet _ k.decEq w (k.cost w)
  | .option t => costOption w (t.cost w)
  | .result t e => costResult w (t.cost w) (e.cost w)
  | .bound t => costBound w (t.cost w)
  | .range t => (Cost.tick w.call).bind fun _ => (t.cost w).bind fun start =>
      (t.cost w).map fun stop => (⟨start, stop⟩ : RangeVal t.Val)
  | .rangeInclusive t => (Cost.tick w.call).bind fun _ => (t.cost w).bind fun start =>
      (t.cost w).map fun stop => (⟨start, stop, false⟩ : RangeInclusiveVal t.Val)
  | .lock _ t => (Cost.tick w.call).bind fun _ => (t.cost w).map fun v => (⟨false, v⟩ : LockVal t.Val)
  | .refCell t => (Cost.tick w.call).bind fun _ =>
      (t.cost w).map fun v => (⟨false, v⟩ : RefCellVal t.Val)
  | .duration => Cost.of w.call decDuration
  | .systemTime p => Cost.of w.call (decSystemTime p)
  | .ipv4 => Cost.of w.call decIpv4
  | .ipv6 => Cost.of w.call decIpv6
  | .ipAddr => Cost.of w.call decIpAddr
  | .socketAddrV4 => Cost.of w.call decSocketAddrV4
  | .socketAddrV6 => Cost.of w.call decSocketAddrV6
  | .socketAddr => Cost.of w.call decSocketAddr
  -- The buffer is made when the text has been read and tested: 722-730 and 291-302. The latter is
  -- extended by the terminating null octet.
  | .str _ => (Cost.of w.call decString).bind fun s => Cost.of (w.buffer s.val.length) (pure s)
  | .cStr _ => (Cost.of w.call decCString).bind fun s => Cost.of (w.buffer (s.val.length + 1)) (pure s)
  | .sizedStr n => Cost.of w.call (decSizedStr n)
  | .sizedSlice t n => costSized w (t.cost w) n
  | .tuple fs => (Cost.tick w.call).bind fun _ => fs.cost w id
  | .struct fs => (Cost.tick w.call).bind fun _ => fs.cost w DecErr.toGeneric
  | .enum r vs => (Cost.of w.call (decRepr r)).bind fun discriminant => vs.cost w none discriminant

/-- `Fields.decode`, with what it costs. -/
def Fields.cost (w : Weights) : (fs : Fields) → (g : DecErr → DecErr) → Cost fs.Val
  | .nil, _ => Cost.of 0 (pure ())
  | .cons t fs, g => ((t.cost w).mapErr g).bind fun v => (fs.cost w g).map fun vs => (v, vs)

/-- `Variants.decode`, with what it costs. -/
def Variants.cost (w : Weights) :
    (vs : Variants) → (prev : Option Nat) → (discriminant : Int) → Cost vs.Val
  | .nil, _, x => Cost.of 0 (Dec.fail (.unassigned x))
  | .cons d fs vs, prev, x =>
    if x = (nextDisc prev d : Int) then (fs.cost w (fun e => .badField e.toGeneric)).map .inl
    else (vs.cost w (some (nextDisc prev d)) x).map .inr

end

end Oct
