import Verif.Model.Decode
import Verif.Model.Unwind
/-
Decoding where memory may run out: each time something is put on the heap, the allocator is asked, and may refuse.
std then aborts the program (`handle_alloc_error`); there is no error, and nothing unwinds. Only
`SizedSlice::into_boxed_slice` (oct/src/sized_slice/conv.rs:118-137) asks the allocator itself.
Line numbers without a file are those of oct/src/decode/decode/mod.rs.

SIMPLIFICATIONS: what is freed is not followed. An allocator may be any function of what it was asked for before, so
those that take it into account are among them, for a given decoding. The hook that `std::alloc` has for programs to
panic instead is not stable and not modelled. Buffers above `isize::MAX` are in Model/Reserve. `new` of locks puts
nothing on the heap.
-/
namespace Oct

/-- An allocator: whether it grants so many octets, after it was asked for these, in order. -/
abbrev Allocator := List Nat → Nat → Bool

/-- What takes how many octets. -/
structure HeapOf where
  /-- `size_of::<T>()`. -/
  size : Ty → Nat
  /-- What is allocated for an `Rc` or an `Arc` of a value of this size. -/
  counted : Nat → Nat
  /-- What is allocated for a node of a `LinkedList` with an item of this size. -/
  node : Nat → Nat
  /-- What is allocated for a table of hashbrown, for entries of this size, and so many (not none). -/
  table : (size : Nat) → (len : Nat) → Nat

/-- How decoding ends. -/
inductive ScarceEnd (α : Type) where
  | came (r : Res DecErr α)
  | aborted

/-- Decoding, given what was asked for before: how it ends, the stream, and what was asked for until then. -/
def Scarce (α : Type) := Input → List Nat → ScarceEnd α × Input × List Nat

namespace Scarce
variable {α β : Type}

/-- A decoding that asks for nothing. -/
def of (d : Dec α) : Scarce α := fun I asked => (.came (d I).1, (d I).2, asked)

/-- Asks for so many octets. Nothing is asked for if these are none. -/
def ask (g : Allocator) (n : Nat) : Scarce Unit := fun I asked =>
  if n = 0 then (.came (.ok ()), I, asked)
  else if g asked n then (.came (.ok ()), I, asked ++ [n])
  else (.aborted, I, asked ++ [n])

/-- `.map_err(h)`. -/
def mapErr (h : DecErr → DecErr) (m : Scarce α) : Scarce α := fun I asked =>
  match m I asked with
  | (.came r, x) => (.came (r.mapErr h), x)
  | (.aborted, x) => (.aborted, x)

/-- Sequencing with the `?` operator. -/
def bind (m : Scarce α) (f : α → Scarce β) : Scarce β := fun I asked =>
  match m I asked with
  | (.came (.ok a), I', asked') => f a I' asked'
  | (.came (.err e), x) => (.came (.err e), x)
  | (.came (.panic p), x) => (.came (.panic p), x)
  | (.came (.ub u), x) => (.came (.ub u), x)
  | (.aborted, x) => (.aborted, x)

/-- Turns the value into another one. -/
def map (f : α → β) (m : Scarce α) : Scarce β := bind m fun a => of (pure (f a))

end Scarce

/-- The loops of `Vec::decode` (788-798), `[T; N]::decode` (135-140) and `SizedSlice::decode`
(oct/src/sized_slice/code.rs:39-44), and with the octets of a node that of `LinkedList::decode` (449-454), where
`push_back` comes after the item is decoded. -/
def scarceItems {α : Type} (g : Allocator) (node : Nat) (m : Scarce α) : (n : Nat) → (i : Nat) → Scarce (Items α n)
  | 0, _ => Scarce.of (pure ⟨[], rfl⟩)
  | n + 1, i =>
    (m.mapErr (fun e => .badItem (.item i e))).bind fun v =>
      (Scarce.ask g node).bind fun _ =>
        (scarceItems g node m n (i + 1)).map fun vs => ⟨v :: vs.val, by simp [vs.property]⟩

/-- `Vec::decode`: 781-805, with `Vec::with_capacity(len)` (788). -/
def scarceVec {α : Type} (g : Allocator) (size : Nat) (m : Scarce α) : Scarce (List α) :=
  (Scarce.of decUsize).bind fun len =>
    (Scarce.ask g (len * size)).bind fun _ => (scarceItems g 0 m len 0).map Subtype.val

/-- `LinkedList::decode`: 441-459. -/
def scarceList {α : Type} (g : Allocator) (node : Nat) (m : Scarce α) : Scarce (List α) :=
  (Scarce.of decUsize).bind fun len => (scarceItems g node m len 0).map Subtype.val

/-- `SizedSlice::decode`: oct/src/sized_slice/code.rs:29-48. The buffer is not on the heap. -/
def scarceSized {α : Type} (g : Allocator) (m : Scarce α) (n : Nat) : Scarce {l : List α // l.length ≤ n} :=
  (Scarce.of decUsize).bind fun len =>
    if len > n then Scarce.of (Dec.fail (.badLength (.length n len)))
    else (scarceItems g 0 m n 0).map fun vs =>
      ⟨vs.val.take len, by simp [List.length_take, vs.property]; omega⟩

/-- The loop of `HashMap::decode`: 336-344. The table is large enough. -/
def scarceMapLoop {α β : Type} [DecidableEq α] (mK : Scarce α) (mV : Scarce β) :
    (n : Nat) → (i : Nat) → MapVal α β → Scarce (MapVal α β)
  | 0, _, m => Scarce.of (pure m)
  | n + 1, i, m =>
    (mK.mapErr (fun e => .badItem (.item i e))).bind fun k =>
      (mV.mapErr (fun e => .badItem (.item i e))).bind fun v =>
        scarceMapLoop mK mV n (i + 1) ⟨mapInsert k v m.val, mapInsert_nodup k v m.val m.property⟩

/-- `HashMap::decode`: 322-348, with `with_capacity_and_hasher` (334). -/
def scarceHashMap {α β : Type} [DecidableEq α] (g : Allocator) (table : Nat → Nat) (mK : Scarce α) (mV : Scarce β) :
    Scarce (MapVal α β) :=
  (Scarce.of decUsize).bind fun len =>
    (Scarce.ask g (if len = 0 then 0 else table len)).bind fun _ => scarceMapLoop mK mV len 0 ⟨[], List.nodup_nil⟩

/-- The loop of `HashSet::decode`: 365-370. The table is large enough. -/
def scarceSetLoop {α : Type} [DecidableEq α] (mK : Scarce α) :
    (n : Nat) → (i : Nat) → SetVal α → Scarce (SetVal α)
  | 0, _, s => Scarce.of (pure s)
  | n + 1, i, s =>
    (mK.mapErr (fun e => .badItem (.item i e))).bind fun k =>
      scarceSetLoop mK n (i + 1) ⟨setInsert k s.val, setInsert_nodup k s.val s.property⟩

/-- `HashSet::decode`: 352-374, with `with_capacity_and_hasher` (363). -/
def scarceHashSet {α : Type} [DecidableEq α] (g : Allocator) (table : Nat → Nat) (mK : Scarce α) :
    Scarce (SetVal α) :=
  (Scarce.of decUsize).bind fun len =>
    (Scarce.ask g (if len = 0 then 0 else table len)).bind fun _ => scarceSetLoop mK len 0 ⟨[], List.nodup_nil⟩

/-- `Option::decode`: 475-492. -/
def scarceOption {α : Type} (m : Scarce α) : Scarce (Option α) :=
  (Scarce.of decBool).bind fun sign => if sign then m.map some else Scarce.of (pure none)

/-- `Result::decode`: 601-627. -/
def scarceResult {α β : Type} (mT : Scarce α) (mE : Scarce β) : Scarce (ResultVal α β) :=
  (Scarce.of decBool).bind fun sign =>
    if sign then (mE.mapErr .badField).map .err else (mT.mapErr .badField).map .ok

/-- `Bound::decode`: 183-212. -/
def scarceBound {α : Type} (m : Scarce α) : Scarce (BoundVal α) :=
  (Scarce.of decU8).bind fun discriminant =>
    if discriminant = 0 then (m.mapErr .badField).map .included
    else if discriminant = 1 then (m.mapErr .badField).map .excluded
    else if discriminant = 2 then Scarce.of (pure .unbounded)
    else Scarce.of (Dec.fail (.unassigned discriminant))

/-- What is asked for to move a value of this size into the wrapper: `Arc::new`, `Box::new` and `Rc::new` (156-165,
216-226, 580-587). -/
def HeapOf.wrapped (H : HeapOf) (size : Nat) : Wrap → Nat
  | .arc | .rc => H.counted size
  | .box => size
  | _ => 0

mutual

/-- `T::decode`, for every modelled `T`, where memory may run out. -/
def Ty.scarce (H : HeapOf) (g : Allocator) : (t : Ty) → Scarce t.Val
  | .wrap k t => (t.scarce H g).bind fun v =>
      (Scarce.ask g (H.wrapped (H.size t) k)).bind fun _ => Scarce.of (pure v)
  | .array t n => scarceItems g 0 (t.scarce H g) n 0
  | .seq .linkedList t => scarceList g (H.node (H.size t)) (t.scarce H g)
  | .seq _ t => scarceVec g (H.size t) (t.scarce H g)
  | .hashMap k v => @scarceHashMap _ _ k.decEq g (H.table (H.size (.tuple (.cons k (.cons v .nil)))))
      (k.scarce H g) (v.scarce H g)
  | .hashSet k => @scarceHashSet _ k.decEq g (H.table (H.size k)) (k.scarce H g)
  | .option t => scarceOption (t.scarce H g)
  | .result t e => scarceResult (t.scarce H g) (e.scarce H g)
  | .bound t => scarceBound (t.scarce H g)
  | .range t => (t.scarce H g).bind fun start => (t.scarce H g).map fun stop => (⟨start, stop⟩ : RangeVal t.Val)
  | .rangeInclusive t => (t.scarce H g).bind fun start =>
      (t.scarce H g).map fun stop => (⟨start, stop, false⟩ : RangeInclusiveVal t.Val)
  | .lock _ t => (t.scarce H g).map fun v => (⟨false, v⟩ : LockVal t.Val)
  | .refCell t => (t.scarce H g).map fun v => (⟨false, v⟩ : RefCellVal t.Val)
  -- The buffer is made when the text has been read and tested: 722-730 and 291-302. The latter is then extended by the
  -- terminating null octet (`CString::from_vec_unchecked`), that is, allocated again.
  | .str _ => (Scarce.of decString).bind fun s => (Scarce.ask g s.val.length).bind fun _ => Scarce.of (pure s)
  | .cStr _ => (Scarce.of decCString).bind fun s => (Scarce.ask g s.val.length).bind fun _ =>
      (Scarce.ask g (s.val.length + 1)).bind fun _ => Scarce.of (pure s)
  | .sizedSlice t n => scarceSized g (t.scarce H g) n
  | .tuple fs => fs.scarce H g id
  | .struct fs => fs.scarce H g DecErr.toGeneric
  | .enum r vs => (Scarce.of (decRepr r)).bind fun discriminant => vs.scarce H g none discriminant
  | .num k => Scarce.of (Ty.num k).decode
  | .bool => Scarce.of decBool
  | .char => Scarce.of decChar
  | .usize => Scarce.of decUsize
  | .isize => Scarce.of decIsize
  | .nonZero r => Scarce.of (decNonZero r)
  | .unit _ => Scarce.of (pure ())
  | .infallible => Scarce.of (Dec.panic .infallible)
  | .duration => Scarce.of decDuration
  | .systemTime p => Scarce.of (decSystemTime p)
  | .ipv4 => Scarce.of decIpv4
  | .ipv6 => Scarce.of decIpv6
  | .ipAddr => Scarce.of decIpAddr
  | .socketAddrV4 => Scarce.of decSocketAddrV4
  | .socketAddrV6 => Scarce.of decSocketAddrV6
  | .socketAddr => Scarce.of decSocketAddr
  | .sizedStr n => Scarce.of (decSizedStr n)

/-- `Fields.decode`, where memory may run out. -/
def Fields.scarce (H : HeapOf) (g : Allocator) : (fs : Fields) → (h : DecErr → DecErr) → Scarce fs.Val
  | .nil, _ => Scarce.of (pure ())
  | .cons t fs, h => ((t.scarce H g).mapErr h).bind fun v => (fs.scarce H g h).map fun vs => (v, vs)

/-- `Variants.decode`, where memory may run out. -/
def Variants.scarce (H : HeapOf) (g : Allocator) :
    (vs : Variants) → (prev : Option Nat) → (discriminant : Int) → Scarce vs.Val
  | .nil, _, x => Scarce.of (Dec.fail (.unassigned x))
  | .cons d fs vs, prev, x =>
    if x = (nextDisc prev d : Int) then (fs.scarce H g (fun e => .badField e.toGeneric)).map .inl
    else (vs.scarce H g (some (nextDisc prev d)) x).map .inr

end

/-- `SizedSlice::into_boxed_slice` (oct/src/sized_slice/conv.rs:118-137) of a slice with these items, each of so many
octets: `self` is taken apart into raw parts (119), which have no destructor; if the allocator refuses, `assert!`
panics (125). Zero octets are left aside, see C27. -/
def boxItems (granted : Bool) (items : List Nat) : Act (List Nat) := fun s =>
  if granted then (.ok items, s) else (.unwind, s)

end Oct
