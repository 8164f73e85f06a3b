import Verif.Model.BuildMemory
/-
Sized slices and their iterators in memory: a program has any number of them, and of boxed slices made
from them, and each has cells of its own.
Files: oct/src/sized_slice/mod.rs, conv.rs, iter.rs, oct/src/sized_iter/mod.rs, and the parts of
oct/src/sized_str/conv.rs that use pointers.

SIMPLIFICATIONS: as in Model/Memory. A cell is an item, whatever its size. The buffer of a sized slice
stands in the sized slice itself; here that place is an allocation like others, and its length is kept
beside. Moving a sized slice copies it to another place, which is only modelled where the code names the
parts (`into_iter`). A cell from which an item is moved is left uninitialised; for plain data see
Model/CopyIter. `clone` of an item gives an equal one. The destructors of items are those of
Model/Ownership and not called here.
-/
namespace Oct

/-- `SizedSlice`: oct/src/sized_slice/mod.rs:73-76. `ptr` is where the buffer is, `cap` is `N`. -/
structure RawSized where
  ptr : Ptr
  cap : Nat
  len : Nat
  deriving DecidableEq

/-- `SizedIter`: oct/src/sized_iter/mod.rs:31-36. -/
structure RawIter where
  ptr : Ptr
  cap : Nat
  pos : Nat
  len : Nat
  deriving DecidableEq

namespace Mem
variable {α : Type}

/-- `&*ptr.add(i)`, also as `get_unchecked(i)`: the item is looked at. -/
def readAt (m : Mem α) (p : Ptr) (i : Nat) : Except Ub α :=
  match m.add p i with
  | .error u => .error u
  | .ok q =>
    match m.values q 1 with
    | .ok (v :: _) => .ok v
    | .ok [] => .error .outOfBounds
    | .error u => .error u

/-- `ptr.add(i)` read with `assume_init_read`: the item is moved out of the cell. -/
def moveAt (m : Mem α) (p : Ptr) (i : Nat) : Except Ub (α × Mem α) :=
  match m.readAt p i, m.add p i with
  | .ok v, .ok q =>
    match m.store q [none] with
    | some m' => .ok (v, m')
    | none => .error .outOfBounds
  | .error u, _ => .error u
  | _, .error u => .error u

/-- `for j in i..i + k { dst[j].write(src[j].clone()) }`: oct/src/sized_slice/mod.rs:210-212 and
223-226, oct/src/sized_iter/mod.rs:97-106. -/
def cloneLoop (src dst : Ptr) : (k i : Nat) → Mem α → Except Ub (Mem α)
  | 0, _, m => .ok m
  | k + 1, i, m =>
    match m.readAt src i with
    | .error u => .error u
    | .ok v =>
      match m.writeAt dst i v with
      | .error u => .error u
      | .ok m' => cloneLoop src dst k (i + 1) m'

/-- `for item in &mut buf { let Some(value) = iter.next() else { break }; item.write(value); len += 1 }`:
oct/src/sized_slice/iter.rs:35-40. The number of items written is returned. -/
def fillLoop (p : Ptr) (n : Nat) : (items : List α) → (i : Nat) → Mem α → Except Ub (Nat × Mem α)
  | [], i, m => .ok (i, m)
  | v :: items, i, m =>
    if i < n then
      match m.writeAt p i v with
      | .error u => .error u
      | .ok m' => fillLoop p n items (i + 1) m'
    else .ok (i, m)

/-- `for item in skipped { item.assume_init_drop() }` for the cells from `i` on:
oct/src/sized_iter/mod.rs:160-162. -/
def dropLoop (p : Ptr) : (k i : Nat) → Mem α → Except Ub (Mem α)
  | 0, _, m => .ok m
  | k + 1, i, m =>
    match m.moveAt p i with
    | .error u => .error u
    | .ok (_, m') => dropLoop p k (i + 1) m'

end Mem

/-- An array of `n` uninitialised cells: oct/src/sized_slice/mod.rs:206, 222. -/
def Mem.uninitAt {α : Type} (m : Mem α) (a n : Nat) : Mem α := m.alloc a (List.replicate n none)

namespace RawSized
variable {α : Type}

/-- `SizedSlice::new`: oct/src/sized_slice/mod.rs:204-215. -/
def new (a n : Nat) (data : RawSlice) (m : Mem α) : Res LengthError (RawSized × Mem α) :=
  if data.len > n then .err { capacity := n, len := data.len }
  else
    match Mem.cloneLoop data.ptr ⟨a, 0⟩ (min n data.len) 0 (m.uninitAt a n) with
    | .ok m' => .ok (⟨⟨a, 0⟩, n, data.len⟩, m')
    | .error u => .ub u

/-- `FromIterator::from_iter`: oct/src/sized_slice/iter.rs:29-43. -/
def fromIter (a n : Nat) (items : List α) (m : Mem α) : Res Empty (RawSized × Mem α) :=
  match Mem.fillLoop ⟨a, 0⟩ n items 0 (m.uninitAt a n) with
  | .ok (len, m') => .ok (⟨⟨a, 0⟩, n, len⟩, m')
  | .error u => .ub u

/-- `From<[T; N]>`: oct/src/sized_slice/conv.rs:196-202, for plain data: the array is copied as a whole,
and goes out of scope. -/
def fromArray (a : Nat) (array : RawSlice) (m : Mem α) : Res Empty (RawSized × Mem α) :=
  match (m.uninitAt a array.len).copyNonoverlapping array.ptr ⟨a, 0⟩ array.len with
  | .ok m' => .ok (⟨⟨a, 0⟩, array.len, array.len⟩, m')
  | .error u => .ub u

/-- `Default::default`: oct/src/sized_slice/mod.rs:241-252. -/
def default (a n : Nat) (m : Mem α) : RawSized × Mem α := (⟨⟨a, 0⟩, n, 0⟩, m.uninitAt a n)

/-- `SizedSlice::as_slice`: oct/src/sized_slice/conv.rs:84-89. -/
def asSlice (s : RawSized) (m : Mem α) : Res Empty (List α) :=
  match m.values s.ptr s.len with
  | .ok l => .ok l
  | .error u => .ub u

/-- `SizedSlice::copy_from_slice`: oct/src/sized_slice/mod.rs:81-95; after the copy the length is set
(160-164). -/
def copyFromSlice (s : RawSized) (data : RawSlice) (m : Mem α) : Res Empty (RawSized × Mem α) :=
  match m.copyNonoverlapping data.ptr s.ptr data.len with
  | .ok m' => .ok ({ s with len := data.len }, m')
  | .error u => .ub u

/-- `self[i] = v`, by way of `as_mut_slice`: oct/src/sized_slice/mod.rs:272-277, conv.rs:96-101. -/
def setIndex (s : RawSized) (i : Nat) (v : α) (m : Mem α) : Res Empty (Mem α) :=
  match m.values s.ptr s.len with
  | .error u => .ub u
  | .ok _ =>
    if i < s.len then
      match m.writeAt s.ptr i v with
      | .ok m' => .ok m'
      | .error u => .ub u
    else .panic .indexOutOfBounds

/-- `Clone::clone`: oct/src/sized_slice/mod.rs:218-232. -/
def clone (a : Nat) (s : RawSized) (m : Mem α) : Res Empty (RawSized × Mem α) :=
  match Mem.cloneLoop s.ptr ⟨a, 0⟩ s.len 0 (m.uninitAt a s.cap) with
  | .ok m' => .ok (⟨⟨a, 0⟩, s.cap, s.len⟩, m')
  | .error u => .ub u

/-- The loops of `each_ref` and `each_mut`: oct/src/sized_slice/mod.rs:104-113, 130-139. The buffer is a
local array of pointers, at first all null (`none`). -/
def eachLoop (p : Ptr) (m : Mem α) :
    (k i : Nat) → List (MaybeUninit Ptr) → Except Ub (List (MaybeUninit Ptr))
  | 0, _, buf => .ok buf
  | k + 1, i, buf =>
    if i < buf.length then
      match m.add p i with
      | .ok q => eachLoop p m k (i + 1) (buf.set i (some q))
      | .error u => .error u
    else .error .outOfBounds

/-- `SizedSlice::each_ref` and `each_mut`: oct/src/sized_slice/mod.rs:99-121, 125-147. What is returned
is a sized slice of references, that is, of pointers. -/
def eachRef (s : RawSized) (m : Mem α) : Res Empty (SizedSlice Ptr) :=
  match eachLoop s.ptr m s.len 0 (List.replicate s.cap none) with
  | .ok buf => .ok { buf := buf, len := s.len }
  | .error u => .ub u

/-- `SizedSlice::into_boxed_slice`: oct/src/sized_slice/conv.rs:119-136. The sized slice goes out of
scope without destructors. -/
def intoBoxedSlice (itemSize a : Nat) (s : RawSized) (m : Mem α) : Res Empty (RawSlice × Mem α) :=
  if itemSize * s.len = 0 then .ub .zeroAlloc
  else
    match (m.uninitAt a s.len).copyNonoverlapping s.ptr ⟨a, 0⟩ s.len with
    | .ok m' => .ok (⟨⟨a, 0⟩, s.len⟩, m'.free s.ptr.alloc)
    | .error u => .ub u

/-- `SizedSlice::into_iter`: oct/src/sized_slice/iter.rs:52-56 and oct/src/sized_iter/mod.rs:41-45. The
whole buffer is moved, uninitialised cells too. -/
def intoIter (a : Nat) (s : RawSized) (m : Mem α) : Res Empty (RawIter × Mem α) :=
  match (m.uninitAt a s.cap).copyNonoverlapping s.ptr ⟨a, 0⟩ s.cap with
  | .ok m' => .ok (⟨⟨a, 0⟩, s.cap, 0, s.len⟩, m'.free s.ptr.alloc)
  | .error u => .ub u

/-- `SizedStr::from_utf8_unchecked` and `from_raw_parts`: oct/src/sized_str/conv.rs:85-95, 109-115. The
array of octets is at first zero. The `debug_assert!` (86) is left out: `Model/SizedStr` has it. -/
def fromUtf8Unchecked (a n : Nat) (s : RawSlice) (m : Mem Byte) : Res Empty (RawSized × Mem Byte) :=
  match (m.alloc a (List.replicate n (some 0))).copyNonoverlapping s.ptr ⟨a, 0⟩ s.len with
  | .ok m' => .ok (⟨⟨a, 0⟩, n, s.len⟩, m')
  | .error u => .ub u

end RawSized

namespace RawIter
variable {α : Type}

/-- `SizedIter::as_slice`: oct/src/sized_iter/mod.rs:49-58. -/
def asSlice (it : RawIter) (m : Mem α) : Res Empty (List α) :=
  match m.add it.ptr it.pos with
  | .error u => .ub u
  | .ok p =>
    match m.values p it.len with
    | .ok l => .ok l
    | .error u => .ub u

/-- `self.as_mut_slice()[i] = v`: oct/src/sized_iter/mod.rs:62-71. -/
def setIndex (it : RawIter) (i : Nat) (v : α) (m : Mem α) : Res Empty (Mem α) :=
  match m.add it.ptr it.pos with
  | .error u => .ub u
  | .ok p =>
    match m.values p it.len with
    | .error u => .ub u
    | .ok _ =>
      if i < it.len then
        match m.writeAt p i v with
        | .ok m' => .ok m'
        | .error u => .ub u
      else .panic .indexOutOfBounds

/-- `SizedIter::next`: oct/src/sized_iter/mod.rs:134-145. -/
def next (it : RawIter) (m : Mem α) : Res Empty (Option α × RawIter × Mem α) :=
  if it.len = 0 then .ok (none, it, m)
  else
    match m.moveAt it.ptr it.pos with
    | .ok (v, m') => .ok (some v, { it with pos := it.pos + 1, len := it.len - 1 }, m')
    | .error u => .ub u

/-- `SizedIter::next_back`: oct/src/sized_iter/mod.rs:113-124. -/
def nextBack (it : RawIter) (m : Mem α) : Res Empty (Option α × RawIter × Mem α) :=
  if it.len = 0 then .ok (none, it, m)
  else
    match m.moveAt it.ptr (it.pos + it.len - 1) with
    | .ok (v, m') => .ok (some v, { it with len := it.len - 1 }, m')
    | .error u => .ub u

/-- `SizedIter::nth`: oct/src/sized_iter/mod.rs:148-175; `checks` as in `SizedIter.nth`. -/
def nth (checks : Bool) (it : RawIter) (index : Nat) (m : Mem α) :
    Res Empty (Option α × RawIter × Mem α) :=
  if index > it.len then .ok (none, it, m)
  else if it.pos + index = 0 then (if checks then .panic .arithmeticOverflow else .ub .outOfBounds)
  else if it.pos > it.pos + index - 1 ∨ it.pos + index - 1 > it.cap then .ub .outOfBounds
  else
    match Mem.dropLoop it.ptr (it.pos + index - 1 - it.pos) it.pos m with
    | .error u => .ub u
    | .ok m1 =>
      match m1.moveAt it.ptr index with
      | .ok (v, m2) => .ok (some v, { it with pos := it.pos + index, len := it.len - index }, m2)
      | .error u => .ub u

/-- `SizedIter::clone`: oct/src/sized_iter/mod.rs:88-109. -/
def clone (a : Nat) (it : RawIter) (m : Mem α) : Res Empty (RawIter × Mem α) :=
  match Mem.cloneLoop it.ptr ⟨a, 0⟩ it.len it.pos (m.uninitAt a it.cap) with
  | .ok m' => .ok ({ it with ptr := ⟨a, 0⟩ }, m')
  | .error u => .ub u

end RawIter

/-- What a program has: sized slices, iterators and boxed slices, in memory. -/
inductive RawObj where
  | slice (s : RawSized)
  | iter (it : RawIter)
  | boxed (b : RawSlice)
  deriving DecidableEq

/-- Where it is. -/
def RawObj.alloc : RawObj → Nat
  | .slice s => s.ptr.alloc
  | .iter it => it.ptr.alloc
  | .boxed b => b.ptr.alloc

/-- The same as values: Model/SizedSlice. -/
inductive SliceObj (α : Type) where
  | slice (s : SizedSlice α)
  | iter (it : SizedIter α)
  | boxed (l : List α)

/-- What a program does with them. They are numbered in the order of their making, those that are
dropped excepted; one that is converted keeps its number. -/
inductive SliceOp (α : Type) where
  | new (n : Nat) (data : List α)
  | fromIter (n : Nat) (items : List α)
  | fromArray (items : List α)
  | default (n : Nat)
  | asSlice (i : Nat)
  | copyData (i : Nat) (data : List α)
  | copyFrom (i j : Nat)
  | set (i k : Nat) (v : α)
  | clone (i : Nat)
  | refs (i : Nat)
  | setByRef (i k : Nat) (v : α)
  | intoBoxed (i : Nat)
  | intoIter (i : Nat)
  | next (i : Nat)
  | nextBack (i : Nat)
  | nth (i k : Nat)
  | drop (i : Nat)

/-- What the program gets. -/
inductive SliceOut (α : Type) where
  | unit (r : Res LengthError Unit)
  | items (r : Res Empty (List α))
  | item (r : Res Empty (Option α))

/-- The program's objects, and memory. -/
structure SliceHeap (α : Type) where
  objs : List RawObj
  mem : Mem α

/-- The program: whether overflows are checked, and how many octets an item takes. -/
structure SliceCfg where
  checks : Bool
  itemSize : Nat

namespace SliceOp
variable {α : Type}

/-- Something is made, or not. -/
def rawPush {ε : Type} (h : SliceHeap α) (f : β → RawObj) (g : ε → LengthError) :
    Res ε (β × Mem α) → SliceOut α × SliceHeap α
  | .ok (x, m) => (.unit (.ok ()), ⟨h.objs ++ [f x], m⟩)
  | .err e => (.unit (.err (g e)), h)
  | .panic p => (.unit (.panic p), h)
  | .ub u => (.unit (.ub u), h)

/-- An object is put in place of another one, or not. -/
def rawSet (h : SliceHeap α) (i : Nat) (f : β → RawObj) :
    Res Empty (β × Mem α) → SliceOut α × SliceHeap α
  | .ok (x, m) => (.unit (.ok ()), ⟨h.objs.set i (f x), m⟩)
  | .err e => e.elim
  | .panic p => (.unit (.panic p), h)
  | .ub u => (.unit (.ub u), h)

/-- An item is taken from an iterator, or not. -/
def rawTake (h : SliceHeap α) (i : Nat) :
    Res Empty (Option α × RawIter × Mem α) → SliceOut α × SliceHeap α
  | .ok (x, it, m) => (.item (.ok x), ⟨h.objs.set i (.iter it), m⟩)
  | .err e => e.elim
  | .panic p => (.item (.panic p), h)
  | .ub u => (.item (.ub u), h)

/-- Looks at the pointed-to items, in order. -/
def readAll (m : Mem α) : List Ptr → Except Ub (List α)
  | [] => .ok []
  | p :: ps =>
    match m.readAt p 0, readAll m ps with
    | .ok v, .ok vs => .ok (v :: vs)
    | .error u, _ => .error u
    | _, .error u => .error u

/-- The items, looked at through the references that `each_ref` gives. -/
def rawRefs (s : RawSized) (m : Mem α) : Res Empty (List α) :=
  match s.eachRef m with
  | .ok R =>
    match (R.asSlice : Res Empty (List Ptr)) with
    | .ok ps => match readAll m ps with | .ok vs => .ok vs | .error u => .ub u
    | .err e => e.elim
    | .panic p => .panic p
    | .ub u => .ub u
  | .err e => e.elim
  | .panic p => .panic p
  | .ub u => .ub u

/-- `*self.each_mut()[k] = v`. -/
def rawSetByRef (s : RawSized) (k : Nat) (v : α) (m : Mem α) : Res Empty (Mem α) :=
  match s.eachRef m with
  | .ok R =>
    match (R.asSlice : Res Empty (List Ptr)) with
    | .ok ps =>
      match ps[k]? with
      | some p => match m.writeAt p 0 v with | .ok m' => .ok m' | .error u => .ub u
      | none => .panic .indexOutOfBounds
    | .err e => e.elim
    | .panic p => .panic p
    | .ub u => .ub u
  | .err e => e.elim
  | .panic p => .panic p
  | .ub u => .ub u

/-- Memory, as the operations change it: `a` is where what is made is put, and `b` where the data of
the caller are meanwhile. `none`: there is no such object. -/
def raw (cfg : SliceCfg) (a b : Nat) : SliceOp α → SliceHeap α → Option (SliceOut α × SliceHeap α)
  | .new n data, h => some (rawPush h .slice id
      ((RawSized.new a n ⟨⟨b, 0⟩, data.length⟩ (h.mem.alloc b (data.map some))).map
        fun (s, m) => (s, m.free b)))
  | .fromIter n items, h => some (rawPush h .slice Empty.elim (RawSized.fromIter a n items h.mem))
  | .fromArray items, h => some (rawPush h .slice Empty.elim
      ((RawSized.fromArray a ⟨⟨b, 0⟩, items.length⟩ (h.mem.alloc b (items.map some))).map
        fun (s, m) => (s, m.free b)))
  | .default n, h => some (rawPush h .slice Empty.elim (.ok (RawSized.default a n h.mem)))
  | .asSlice i, h =>
    match h.objs[i]? with
    | some (.slice s) => some (.items (s.asSlice h.mem), h)
    | some (.iter it) => some (.items (it.asSlice h.mem), h)
    | some (.boxed s) =>
      some (.items (match h.mem.values s.ptr s.len with | .ok l => .ok l | .error u => .ub u), h)
    | none => none
  | .copyData i data, h =>
    match h.objs[i]? with
    | some (.slice s) => some (rawSet h i .slice
        ((s.copyFromSlice ⟨⟨b, 0⟩, data.length⟩ (h.mem.alloc b (data.map some))).map
          fun (s, m) => (s, m.free b)))
    | _ => none
  | .copyFrom i j, h =>
    if i = j then none
    else
      match h.objs[i]?, h.objs[j]? with
      | some (.slice s), some (.slice q) =>
        some (rawSet h i .slice (s.copyFromSlice ⟨q.ptr, q.len⟩ h.mem))
      | _, _ => none
  | .set i k v, h =>
    match h.objs[i]? with
    | some (.slice s) => some (rawSet h i .slice ((s.setIndex k v h.mem).map fun m => (s, m)))
    | some (.iter it) => some (rawSet h i .iter ((it.setIndex k v h.mem).map fun m => (it, m)))
    | _ => none
  | .clone i, h =>
    match h.objs[i]? with
    | some (.slice s) => some (rawPush h .slice Empty.elim (s.clone a h.mem))
    | some (.iter it) => some (rawPush h .iter Empty.elim (it.clone a h.mem))
    | _ => none
  | .refs i, h =>
    match h.objs[i]? with
    | some (.slice s) => some (.items (rawRefs s h.mem), h)
    | _ => none
  | .setByRef i k v, h =>
    match h.objs[i]? with
    | some (.slice s) => some (rawSet h i .slice ((rawSetByRef s k v h.mem).map fun m => (s, m)))
    | _ => none
  | .intoBoxed i, h =>
    match h.objs[i]? with
    | some (.slice s) => some (rawSet h i .boxed (s.intoBoxedSlice cfg.itemSize a h.mem))
    | _ => none
  | .intoIter i, h =>
    match h.objs[i]? with
    | some (.slice s) => some (rawSet h i .iter (s.intoIter a h.mem))
    | _ => none
  | .next i, h =>
    match h.objs[i]? with
    | some (.iter it) => some (rawTake h i (it.next h.mem))
    | _ => none
  | .nextBack i, h =>
    match h.objs[i]? with
    | some (.iter it) => some (rawTake h i (it.nextBack h.mem))
    | _ => none
  | .nth i k, h =>
    match h.objs[i]? with
    | some (.iter it) => some (rawTake h i (it.nth cfg.checks k h.mem))
    | _ => none
  | .drop i, h =>
    match h.objs[i]? with
    | some o => some (.unit (.ok ()), ⟨h.objs.eraseIdx i, h.mem.free o.alloc⟩)
    | none => none

/-- As `rawPush`, of values. -/
def push {ε : Type} (L : List (SliceObj α)) (f : β → SliceObj α) (g : ε → LengthError) :
    Res ε β → SliceOut α × List (SliceObj α)
  | .ok x => (.unit (.ok ()), L ++ [f x])
  | .err e => (.unit (.err (g e)), L)
  | .panic p => (.unit (.panic p), L)
  | .ub u => (.unit (.ub u), L)

/-- As `rawSet`, of values. -/
def put (L : List (SliceObj α)) (i : Nat) (f : β → SliceObj α) :
    Res Empty β → SliceOut α × List (SliceObj α)
  | .ok x => (.unit (.ok ()), L.set i (f x))
  | .err e => e.elim
  | .panic p => (.unit (.panic p), L)
  | .ub u => (.unit (.ub u), L)

/-- As `rawTake`, of values. -/
def takeItem (L : List (SliceObj α)) (i : Nat) :
    Res Empty (Option α × SizedIter α) → SliceOut α × List (SliceObj α)
  | .ok (x, it) => (.item (.ok x), L.set i (.iter it))
  | .err e => e.elim
  | .panic p => (.item (.panic p), L)
  | .ub u => (.item (.ub u), L)

/-- What the operation is with values: Model/SizedSlice. -/
def step (cfg : SliceCfg) : SliceOp α → List (SliceObj α) → Option (SliceOut α × List (SliceObj α))
  | .new n data, L => some (push L .slice id
      (match SizedSlice.new n data with | .ok s => .ok s | .error e => .err e))
  | .fromIter n items, L => some (push L .slice Empty.elim (.ok (SizedSlice.fromIter n items)))
  | .fromArray items, L => some (push L .slice Empty.elim (.ok (SizedSlice.fromArray false items)))
  | .default n, L => some (push L .slice Empty.elim (.ok (SizedSlice.default n)))
  | .asSlice i, L =>
    match L[i]? with
    | some (.slice s) => some (.items s.asSlice, L)
    | some (.iter it) => some (.items it.asSlice, L)
    | some (.boxed l) => some (.items (.ok l), L)
    | none => none
  | .copyData i data, L =>
    match L[i]? with
    | some (.slice s) => some (put L i .slice (s.copyFromSlice data))
    | _ => none
  | .copyFrom i j, L =>
    if i = j then none
    else
      match L[i]?, L[j]? with
      | some (.slice s), some (.slice q) =>
        some (put L i .slice
          (match (q.asSlice : Res Empty (List α)) with
            | .ok data => s.copyFromSlice data
            | .err e => e.elim
            | .panic p => .panic p
            | .ub u => .ub u))
      | _, _ => none
  | .set i k v, L =>
    match L[i]? with
    | some (.slice s) => some (put L i .slice (s.setIndex k v))
    | some (.iter it) => some (put L i .iter (it.setIndex k v))
    | _ => none
  | .clone i, L =>
    match L[i]? with
    | some (.slice s) => some (push L .slice Empty.elim (s.clone : Res Empty _))
    | some (.iter it) => some (push L .iter Empty.elim it.clone)
    | _ => none
  | .refs i, L =>
    match L[i]? with
    | some (.slice s) => some (.items s.asSlice, L)
    | _ => none
  | .setByRef i k v, L =>
    match L[i]? with
    | some (.slice s) => some (put L i .slice (s.setIndex k v))
    | _ => none
  | .intoBoxed i, L =>
    match L[i]? with
    | some (.slice s) => some (put L i .boxed (s.intoBoxedSlice cfg.itemSize))
    | _ => none
  | .intoIter i, L =>
    match L[i]? with
    | some (.slice s) => some (put L i .iter (.ok s.intoIter))
    | _ => none
  | .next i, L =>
    match L[i]? with
    | some (.iter it) => some (takeItem L i it.next)
    | _ => none
  | .nextBack i, L =>
    match L[i]? with
    | some (.iter it) => some (takeItem L i it.nextBack)
    | _ => none
  | .nth i k, L =>
    match L[i]? with
    | some (.iter it) => some (takeItem L i (it.nth cfg.checks k))
    | _ => none
  | .drop i, L => if i < L.length then some (.unit (.ok ()), L.eraseIdx i) else none

end SliceOp

/-- Histories in memory; whatever is made is put anywhere where nothing is. -/
inductive SliceOp.RawRun {α : Type} (cfg : SliceCfg) :
    List (SliceOp α) → SliceHeap α → List (SliceOut α) → SliceHeap α → Prop
  | nil (h : SliceHeap α) : RawRun cfg [] h [] h
  | cons {op : SliceOp α} {ops : List (SliceOp α)} {h h1 h2 : SliceHeap α} {x : SliceOut α}
    {xs : List (SliceOut α)} (a b : Nat) : h.mem a = none → h.mem b = none → a ≠ b →
    op.raw cfg a b h = some (x, h1) → RawRun cfg ops h1 xs h2 → RawRun cfg (op :: ops) h (x :: xs) h2

/-- Histories of values. -/
def SliceOp.run {α : Type} (cfg : SliceCfg) :
    List (SliceOp α) → List (SliceObj α) → Option (List (SliceOut α) × List (SliceObj α))
  | [], L => some ([], L)
  | op :: ops, L =>
    match op.step cfg L with
    | none => none
    | some (x, L1) =>
      match run cfg ops L1 with
      | none => none
      | some (xs, L2) => some (x :: xs, L2)

end Oct
