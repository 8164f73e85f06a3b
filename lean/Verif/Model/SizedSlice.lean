import Verif.Model.Decode
/-
`SizedSlice` as it is stored: a buffer of `MaybeUninit` cells and a length. `Ty.Val` uses the list of
items instead; `Proofs/SizedSlice.lean` relates the two.
Files: oct/src/sized_slice/mod.rs, conv.rs, iter.rs, cmp.rs, code.rs.
-/
namespace Oct

/-- `MaybeUninit<T>`: `none` is uninitialised (or logically moved out of). -/
abbrev MaybeUninit (α : Type) := Option α

/-- The values in cells that are all initialised; `none` if one of them is not. -/
def initAll {α : Type} : List (MaybeUninit α) → Option (List α)
  | [] => some []
  | none :: _ => none
  | some a :: l => (initAll l).map (a :: ·)

/-- `slice::from_raw_parts(ptr, len)` on a buffer: undefined if it exceeds the buffer, or (as soon as
the items are looked at) if an item is not initialised. -/
def sliceOf {ε α : Type} (cells : List (MaybeUninit α)) (len : Nat) : Res ε (List α) :=
  if len > cells.length then .ub .outOfBounds
  else
    match initAll (cells.take len) with
    | some l => .ok l
    | none => .ub .uninitRead

/-- `LengthError { capacity, len }`: oct/src/error/length_error.rs:35. -/
structure LengthError where
  capacity : Nat
  len : Nat
  deriving DecidableEq

/-- `pub struct SizedSlice<T, const N: usize> { buf: [MaybeUninit<T>; N], len: usize }`:
oct/src/sized_slice/mod.rs:73-76. `N` is the length of the buffer. -/
structure SizedSlice (α : Type) where
  buf : List (MaybeUninit α)
  len : Nat
  deriving DecidableEq

namespace SizedSlice
variable {α : Type}

/-- `[const { MaybeUninit::<T>::uninit() };N]`: oct/src/sized_slice/mod.rs:206. -/
def uninit (n : Nat) : List (MaybeUninit α) := List.replicate n none

/-- `for (item, value) in buf.iter_mut().zip(data.iter()) { item.write(value.clone()) }`:
oct/src/sized_slice/mod.rs:210-212. SIMPLIFICATION: `clone` returns an equal value. -/
def zipWrite : List (MaybeUninit α) → List α → List (MaybeUninit α)
  | _ :: cells, a :: data => some a :: zipWrite cells data
  | cells, _ => cells

/-- `SizedSlice::new`: oct/src/sized_slice/mod.rs:204-215; `TryFrom<&[T]>` (conv.rs:205-211)
forwards to it. -/
def new (n : Nat) (data : List α) : Except LengthError (SizedSlice α) :=
  let buf := uninit n
  let len := data.length
  if len > n then .error { capacity := n, len := len }
  else .ok { buf := zipWrite buf data, len := len }

/-- The loop of `from_iter`: oct/src/sized_slice/iter.rs:35-40. Returns the cells and the number of
items written. -/
def fillFrom : List (MaybeUninit α) → List α → List (MaybeUninit α) × Nat
  | [], _ => ([], 0)
  | cells, [] => (cells, 0)
  | _ :: cells, a :: items =>
    let (cells', len) := fillFrom cells items
    (some a :: cells', len + 1)

/-- `FromIterator::from_iter`: oct/src/sized_slice/iter.rs:29-43, for an iterator that yields
`items`. SIMPLIFICATION: finite iterators. -/
def fromIter (n : Nat) (items : List α) : SizedSlice α :=
  let (buf, len) := fillFrom (uninit n) items
  { buf := buf, len := len }

/-- `From<[T; N]>`: oct/src/sized_slice/conv.rs:194-203. The array is copied bit by bit (198) but not
forgotten, so it is dropped when `from` returns; `needsDrop` is `core::mem::needs_drop::<T>()`. A
dropped item is modelled like an uninitialised one. -/
def fromArray (needsDrop : Bool) (items : List α) : SizedSlice α :=
  { buf := items.map (fun a => if needsDrop then none else some a), len := items.length }

/-- `Default::default`: oct/src/sized_slice/mod.rs:241-252. -/
def default (n : Nat) : SizedSlice α := { buf := uninit n, len := 0 }

/-- `SizedSlice::capacity`: oct/src/sized_slice/mod.rs:171-173. -/
def capacity (s : SizedSlice α) : Nat := s.buf.length

/-- `SizedSlice::is_empty`: oct/src/sized_slice/mod.rs:189-191. -/
def isEmpty (s : SizedSlice α) : Bool := s.len == 0

/-- `SizedSlice::is_full`: oct/src/sized_slice/mod.rs:196-198. -/
def isFull (s : SizedSlice α) : Bool := s.len == s.capacity

/-- `SizedSlice::as_slice`: oct/src/sized_slice/conv.rs:84-89; also `AsRef`, `Borrow`, `Deref`
(157-185) and the iteration over `&SizedSlice` (iter.rs:59-68). -/
def asSlice {ε : Type} (s : SizedSlice α) : Res ε (List α) := sliceOf s.buf s.len

/-- `SizedSlice::copy_from_slice`: oct/src/sized_slice/mod.rs:81-95. The copy comes before the
`debug_assert!` of `set_len` (161). -/
def copyFromSlice {ε : Type} (s : SizedSlice α) (data : List α) : Res ε (SizedSlice α) :=
  let count := data.length
  if count > s.buf.length then .ub .outOfBounds
  else .ok { buf := data.map some ++ s.buf.drop count, len := count }

/-- `SizedSlice::set_len` (unsafe): oct/src/sized_slice/mod.rs:160-164, with or without debug
assertions. -/
def setLen {ε : Type} (debug : Bool) (s : SizedSlice α) (len : Nat) : Res ε (SizedSlice α) :=
  if debug = true ∧ len > s.buf.length then .panic .debugAssertion
  else .ok { s with len := len }

/-- The loops of `Clone::clone` (oct/src/sized_slice/mod.rs:223-226, reading through
`get_unchecked`) and of `each_ref` / `each_mut` (99-145): cell `i` for `i` in `0..len` is read and
its copy (or the reference to it) written to cell `i` of a fresh buffer. -/
def copyCells : (len : Nat) → List (MaybeUninit α) → Option (List (MaybeUninit α))
  | 0, cells => some (uninit cells.length)
  | _ + 1, [] => none
  | _ + 1, none :: _ => none
  | n + 1, some a :: cells => (copyCells n cells).map (some a :: ·)

/-- `Clone::clone`: oct/src/sized_slice/mod.rs:218-232. SIMPLIFICATION: as for `zipWrite`. -/
def clone {ε : Type} (s : SizedSlice α) : Res ε (SizedSlice α) :=
  match copyCells s.len s.buf with
  | some buf => .ok { buf := buf, len := s.len }
  | none => .ub .uninitRead

/-- `SizedSlice::each_ref` (oct/src/sized_slice/mod.rs:99-121) and `each_mut` (125-147).
SIMPLIFICATION: a reference is modelled as the item it refers to. -/
def eachRef {ε : Type} (s : SizedSlice α) : Res ε (SizedSlice α) :=
  match copyCells s.len s.buf with
  | some buf => .ok { buf := buf, len := s.len }
  | none => .ub .uninitRead

/-- `SizedSlice::into_boxed_slice`: oct/src/sized_slice/conv.rs:119-136, for an item type of
`itemSize` octets. `alloc` is undefined for a layout of size zero (std documentation of
`GlobalAlloc::alloc`). SIMPLIFICATION: the allocation succeeds. -/
def intoBoxedSlice {ε : Type} (itemSize : Nat) (s : SizedSlice α) : Res ε (List α) :=
  if itemSize * s.len = 0 then .ub .zeroAlloc
  else sliceOf s.buf s.len

/-- `SizedSlice::into_vec`: oct/src/sized_slice/conv.rs:145-147. -/
def intoVec {ε : Type} (itemSize : Nat) (s : SizedSlice α) : Res ε (List α) :=
  s.intoBoxedSlice itemSize

/-- `self.get(index).unwrap()` for an integer index: oct/src/sized_slice/mod.rs:263-270. -/
def index {ε : Type} (s : SizedSlice α) (i : Nat) : Res ε α :=
  match s.asSlice (ε := ε) with
  | .ok l =>
    match l[i]? with
    | some a => .ok a
    | none => .panic .indexOutOfBounds
  | .err e => .err e
  | .panic p => .panic p
  | .ub u => .ub u

/-- `*self.get_mut(index).unwrap() = value`: oct/src/sized_slice/mod.rs:272-277. -/
def setIndex {ε : Type} (s : SizedSlice α) (i : Nat) (a : α) : Res ε (SizedSlice α) :=
  match s.asSlice (ε := ε) with
  | .ok l => if i < l.length then .ok { s with buf := s.buf.set i (some a) }
    else .panic .indexOutOfBounds
  | .err e => .err e
  | .panic p => .panic p
  | .ub u => .ub u

/-- What a hasher is fed with: `write_length_prefix` or the hash of an item. SIMPLIFICATION: the
hasher itself is arbitrary; two values hash alike for every hasher when they feed it alike. -/
inductive HashFeed (α : Type) where
  | lengthPrefix (n : Nat)
  | item (a : α)
  | octet (b : Byte)
  deriving DecidableEq

/-- `<[T] as Hash>::hash` of std: the length prefix, then the items. -/
def hashSlice (l : List α) : List (HashFeed α) := .lengthPrefix l.length :: l.map .item

/-- `SizedSlice::hash`: oct/src/sized_slice/mod.rs:254-261. The items only. -/
def hash {ε : Type} (s : SizedSlice α) : Res ε (List (HashFeed α)) :=
  (s.asSlice (ε := ε)).map (·.map HashFeed.item)

/-- `<[T] as PartialEq<[U]>>::eq` of std, with `eq` the comparison of items. -/
def eqSlice {β : Type} (eq : α → β → Bool) : List α → List β → Bool
  | [], [] => true
  | a :: l, b :: m => eq a b && eqSlice eq l m
  | _, _ => false

/-- `<[T] as PartialOrd>::partial_cmp` and `Ord::cmp` of std: lexicographic; `none` as soon as two
items are not comparable. -/
def cmpSlice (cmp : α → α → Option Ordering) : List α → List α → Option Ordering
  | [], [] => some .eq
  | [], _ :: _ => some .lt
  | _ :: _, [] => some .gt
  | a :: l, b :: m =>
    match cmp a b with
    | some .eq => cmpSlice cmp l m
    | r => r

/-- `PartialEq` between sized slices: oct/src/sized_slice/cmp.rs:38-43. Those with arrays, slices and
vectors (45-66) only differ in how the other side is borrowed. -/
def eq {ε β : Type} (f : α → β → Bool) (a : SizedSlice α) (b : SizedSlice β) : Res ε Bool :=
  match a.asSlice (ε := ε), b.asSlice (ε := ε) with
  | .ok l, .ok m => .ok (eqSlice f l m)
  | .ub u, _ => .ub u
  | _, .ub u => .ub u
  | _, _ => .panic .unreachable

/-- `PartialOrd` between sized slices: oct/src/sized_slice/cmp.rs:68-73 (and 75-96), `Ord` 31-36. -/
def partialCmp {ε : Type} (f : α → α → Option Ordering) (a b : SizedSlice α) :
    Res ε (Option Ordering) :=
  match a.asSlice (ε := ε), b.asSlice (ε := ε) with
  | .ok l, .ok m => .ok (cmpSlice f l m)
  | .ub u, _ => .ub u
  | _, .ub u => .ub u
  | _, _ => .panic .unreachable

/-- The loop of `SizedSlice::decode`, over the cells of the buffer:
oct/src/sized_slice/code.rs:39-44. -/
def decodeCells (dec : Dec α) : List (MaybeUninit α) → (i : Nat) → Dec (List (MaybeUninit α))
  | [], _ => pure []
  | _ :: cells, i => do
    let v ← dec.mapErr (fun e => .badItem (.item i e))
    let cells' ← decodeCells dec cells (i + 1)
    pure (some v :: cells')

/-- `SizedSlice::decode`, giving the stored form: oct/src/sized_slice/code.rs:33-47. -/
def decode (dec : Dec α) (n : Nat) : Dec (SizedSlice α) := do
  let len ← decUsize
  if len > n then Dec.fail (.badLength (.length n len))
  else do
    let buf ← decodeCells dec (uninit n) 0
    pure { buf := buf, len := len }

end SizedSlice

/-- `pub struct SizedIter<T, const N: usize> { buf, pos, len }`: oct/src/sized_iter/mod.rs:31-36. A
cell that was moved out of is `none`; SIMPLIFICATION: also if `T` is `Copy`, when moving out twice
would be harmless. -/
structure SizedIter (α : Type) where
  buf : List (MaybeUninit α)
  pos : Nat
  len : Nat
  deriving DecidableEq

/-- `SizedSlice::into_iter`: oct/src/sized_slice/iter.rs:52-56, with `SizedIter::new`
(oct/src/sized_iter/mod.rs:41-45). -/
def SizedSlice.intoIter {α : Type} (s : SizedSlice α) : SizedIter α :=
  { buf := s.buf, pos := 0, len := s.len }

namespace SizedIter
variable {α : Type}

/-- `self.buf.get_unchecked(index).assume_init_read()`: the item, and the buffer after the item was
moved out. For items that are plain data see `SizedIter.peek` of `Verif.Model.CopyIter`. -/
def take {ε : Type} (cells : List (MaybeUninit α)) (index : Nat) :
    Res ε (α × List (MaybeUninit α)) :=
  match cells[index]? with
  | none => .ub .outOfBounds
  | some none => .ub .uninitRead
  | some (some a) => .ok (a, cells.set index none)

/-- `SizedIter::next`: oct/src/sized_iter/mod.rs:134-145. -/
def next (it : SizedIter α) : Res Empty (Option α × SizedIter α) :=
  if it.len = 0 then .ok (none, it)
  else (take it.buf it.pos).map fun (a, buf) =>
    (some a, { buf := buf, pos := it.pos + 1, len := it.len - 1 })

/-- `SizedIter::next_back`: oct/src/sized_iter/mod.rs:113-124. -/
def nextBack (it : SizedIter α) : Res Empty (Option α × SizedIter α) :=
  if it.len = 0 then .ok (none, it)
  else (take it.buf (it.pos + it.len - 1)).map fun (a, buf) =>
    (some a, { buf := buf, pos := it.pos, len := it.len - 1 })

/-- `for item in skipped { item.assume_init_drop() }`: oct/src/sized_iter/mod.rs:160-162, for the
cells `start..stop`. -/
def dropRange (cells : List (MaybeUninit α)) (start stop : Nat) :
    Res Empty (List (MaybeUninit α)) :=
  match initAll ((cells.drop start).take (stop - start)) with
  | some _ => .ok (cells.take start ++ List.replicate (stop - start) none ++ cells.drop stop)
  | none => .ub .uninitRead

/-- `SizedIter::nth`: oct/src/sized_iter/mod.rs:148-175. `checks`: whether the crate is compiled with
overflow checks; without, `0 - 1` wraps to `usize::MAX` and the range is out of bounds. A range with
`start > stop` is undefined for `get_unchecked_mut`. -/
def nth (checks : Bool) (it : SizedIter α) (index : Nat) : Res Empty (Option α × SizedIter α) :=
  if index > it.len then .ok (none, it)
  else
    let start := it.pos
    if start + index = 0 then (if checks then .panic .arithmeticOverflow else .ub .outOfBounds)
    else
      let stop := start + index - 1
      if start > stop ∨ stop > it.buf.length then .ub .outOfBounds
      else
        match dropRange it.buf start stop with
        | .ok buf =>
          (take buf index).map fun (a, buf) =>
            (some a, { buf := buf, pos := it.pos + index, len := it.len - index })
        | .err e => .err e
        | .panic p => .panic p
        | .ub u => .ub u

/-- `SizedIter::size_hint` (also the `len` of `ExactSizeIterator`): oct/src/sized_iter/mod.rs:178-182.
Both bounds are the returned number. -/
def sizeHint (it : SizedIter α) : Res Empty Nat :=
  if it.len < it.pos then .ub .uncheckedSub else .ok (it.len - it.pos)

/-- `SizedIter::as_slice`: oct/src/sized_iter/mod.rs:49-58. -/
def asSlice (it : SizedIter α) : Res Empty (List α) :=
  sliceOf (it.buf.drop it.pos) it.len

/-- `self.as_mut_slice()[i] = value`: oct/src/sized_iter/mod.rs:62-71. -/
def setIndex (it : SizedIter α) (i : Nat) (a : α) : Res Empty (SizedIter α) :=
  match it.asSlice with
  | .ok l => if i < l.length then .ok { it with buf := it.buf.set (it.pos + i) (some a) }
    else .panic .indexOutOfBounds
  | .err e => .err e
  | .panic p => .panic p
  | .ub u => .ub u

/-- `SizedIter::clone`: oct/src/sized_iter/mod.rs:88-109. -/
def clone (it : SizedIter α) : Res Empty (SizedIter α) :=
  match SizedSlice.copyCells it.len (it.buf.drop it.pos) with
  | some cells =>
    if it.pos > it.buf.length then .ub .outOfBounds
    else .ok { buf := SizedSlice.uninit it.pos ++ cells, pos := it.pos, len := it.len }
  | none => .ub .uninitRead

end SizedIter

end Oct
