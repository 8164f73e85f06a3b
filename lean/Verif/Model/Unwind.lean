import Verif.Model.Ownership
/-
Panics in the code of the user of the crate (`T::clone`, `T::decode`, `T::drop`, `Iterator::next`) in
the middle of the crate's operations: what unwinding destroys. Items have identities, as in
Model/Ownership, and the loops are written out call by call.

SIMPLIFICATIONS: one thread; each item is of a type with a destructor; hash maps and sets are in
Model/UnwindMap; a call by the user's code either has its effect or none.
-/
namespace Oct

/-- What a call of the user's code does. `fails` is an error, for those that can return one. -/
inductive Fate where
  | returns
  | fails
  | panics
  deriving DecidableEq

/-- What has become of the items: the destructors that have run, the next identity, and what the
coming calls will do (they return, once the list is at its end). A destructor that panics has run. -/
structure Tally where
  dropped : List Nat
  fresh : Nat
  fates : List Fate
  deriving DecidableEq

/-- How code ends: normally, with a panic that unwinds, with a panic while unwinding (which aborts
the program), or undefined. -/
inductive Ended (α : Type) where
  | ok (a : α)
  | unwind
  | abort
  | ub (u : Ub)
  deriving DecidableEq

/-- Code. -/
abbrev Act (α : Type) := Tally → Ended α × Tally

/-- First one, then the other. -/
def Act.bind {α β : Type} (m : Act α) (f : α → Act β) : Act β := fun s =>
  match m s with
  | (.ok a, s') => f a s'
  | (.unwind, s') => (.unwind, s')
  | (.abort, s') => (.abort, s')
  | (.ub u, s') => (.ub u, s')

instance : Monad Act where
  pure a := fun s => (.ok a, s)
  bind := Act.bind

/-- Code with locals that `cleanup` destroys when it unwinds. -/
def Act.guard {α : Type} (m : Act α) (cleanup : Act Unit) : Act α := fun s =>
  match m s with
  | (.unwind, s') =>
    match cleanup s' with
    | (.ok (), s'') => (.unwind, s'')
    | (.unwind, s'') => (.abort, s'')
    | (.abort, s'') => (.abort, s'')
    | (.ub u, s'') => (.ub u, s'')
  | r => r

/-- A call of the user's code: whether it succeeds. -/
def userCall : Act Bool := fun s =>
  match s.fates with
  | [] => (.ok true, s)
  | .returns :: fs => (.ok true, { s with fates := fs })
  | .fails :: fs => (.ok false, { s with fates := fs })
  | .panics :: fs => (.unwind, { s with fates := fs })

/-- An item that was not there before. -/
def newItem : Act Nat := fun s => (.ok s.fresh, { s with fresh := s.fresh + 1 })

/-- Using an item: undefined if it was destroyed. -/
def touch (x : Nat) : Act Unit := fun s =>
  if x ∈ s.dropped then (.ub .uninitRead, s) else (.ok (), s)

/-- The destructor of an item is about to run. -/
def markDropped (x : Nat) : Act Unit := fun s => (.ok (), { s with dropped := s.dropped ++ [x] })

/-- `T::decode(input)`. -/
def userDecode : Act (Option Nat) := do
  if ← userCall then
    let x ← newItem
    pure (some x)
  else pure none

/-- `T::clone(x)`. -/
def userClone (x : Nat) : Act Nat := do
  touch x
  let _ ← userCall
  newItem

/-- The destructor of an item. -/
def userDrop (x : Nat) : Act Unit := do
  touch x
  markDropped x
  let _ ← userCall
  pure ()

/-- What Rust does to destroy several items: if one destructor panics, those of the others still
run. -/
def dropGlue : List Nat → Act Unit
  | [] => pure ()
  | x :: xs => do
    (userDrop x).guard (dropGlue xs)
    dropGlue xs

/-- Clones items one by one into cells: oct/src/sized_slice/mod.rs:210-212, 224-227,
oct/src/sized_iter/mod.rs:96-105. What was cloned so far is in `[MaybeUninit<T>; N]`, which has no
destructor. -/
def cloneEach : List Nat → Act (List Nat)
  | [] => pure []
  | x :: xs => do
    let y ← userClone x
    let ys ← cloneEach xs
    pure (y :: ys)

/-- The loop of `from_iter` (oct/src/sized_slice/iter.rs:35-40) with `n` cells left: the items that
were taken, and those that the iterator still has. If `next` panics, the iterator is destroyed, and
the cells are not. -/
def takeEach : (n : Nat) → List Nat → Act (List Nat × List Nat)
  | 0, l => pure ([], l)
  | n + 1, l => do
    let _ ← userCall.guard (dropGlue l)
    match l with
    | [] => pure ([], [])
    | x :: l => do
      let (taken, rest) ← takeEach n l
      pure (x :: taken, rest)

/-- The loop of `nth` over the skipped items (oct/src/sized_iter/mod.rs:160-162): `count` cells from
`i` on. The cells afterwards, and whether the loop came to its end. -/
def dropCells : (count i : Nat) → List (MaybeUninit Nat) → Act (Bool × List (MaybeUninit Nat))
  | 0, _, cells => pure (true, cells)
  | count + 1, i, cells => fun s =>
    match cells[i]? with
    | none => (.ub .outOfBounds, s)
    | some none => (.ub .uninitRead, s)
    | some (some a) =>
      match userDrop a s with
      | (.ok (), s') => dropCells count (i + 1) (cells.set i none) s'
      | (.unwind, s') => (.ok (false, cells.set i none), s')
      | (.abort, s') => (.abort, s')
      | (.ub u, s') => (.ub u, s')

/-- The loops of `decode` for `[T; N]`, `SizedSlice` and `Vec` (oct/src/decode/decode/mod.rs:135-140,
791-798, oct/src/sized_slice/code.rs:39-44): what was decoded is in `MaybeUninit` cells, or behind a
pointer into a `Vec` of length 0, when an item fails or panics. -/
def decodeCellwise : (n : Nat) → Act (Option (List Nat))
  | 0 => pure (some [])
  | n + 1 => do
    match ← userDecode with
    | none => pure none
    | some x => do
      match ← decodeCellwise n with
      | none => pure none
      | some xs => pure (some (x :: xs))

/-- The loop of `decode` for `LinkedList` (oct/src/decode/decode/mod.rs:450-455), and the fields of a
tuple, structure or variant (848-850, oct-macros/src/impls/decode_struct.rs:29-50), with what was
decoded so far: Rust destroys this when an item fails or panics. `order` is the order in which that
is done: as they are, for a list, and backwards, for fields. -/
def decodeHeld (order : List Nat → List Nat) : (n : Nat) → (sofar : List Nat) →
    Act (Option (List Nat))
  | 0, sofar => pure (some sofar)
  | n + 1, sofar => do
    match ← userDecode.guard (dropGlue (order sofar)) with
    | none => do
      dropGlue (order sofar)
      pure none
    | some x => decodeHeld order n (sofar ++ [x])

/-- What can be decoded. -/
inductive DecKind where
  | array (n : Nat)
  /-- With this capacity, and this length in the input. -/
  | sizedSlice (n len : Nat)
  | vec (len : Nat)
  | linkedList (len : Nat)
  | fields (n : Nat)
  deriving DecidableEq

/-- `decode`: the thing, or `none` for an error. -/
def DecKind.decode : DecKind → Act (Option Holder)
  | .array n => do
    let r ← decodeCellwise n
    pure (r.map .vec)
  | .sizedSlice n len =>
    if len > n then pure none
    else do
      let r ← decodeCellwise n
      pure (r.map fun l => .slice { buf := l.map some, len := len })
  | .vec len => do
    let r ← decodeCellwise len
    pure (r.map .vec)
  | .linkedList len => do
    let r ← decodeHeld id len []
    pure (r.map .vec)
  | .fields n => do
    let r ← decodeHeld List.reverse n []
    pure (r.map .vec)

/-- Code of which the panic is caught (`catch_unwind`), after which these things are still held. -/
def Act.catching (m : Act (List Holder)) (after : List Holder) : Act (Bool × List Holder) := fun s =>
  match m s with
  | (.ok hs, s') => (.ok (true, hs), s')
  | (.unwind, s') => (.ok (false, after), s')
  | (.abort, s') => (.abort, s')
  | (.ub u, s') => (.ub u, s')

/-- What does not call the user's code, in the terms of Model/Ownership. A panic there is one of the
crate's. -/
def liftRes {α : Type} (r : Res Empty α) : Act α := fun s =>
  match r with
  | .ok a => (.ok a, s)
  | .panic _ => (.unwind, s)
  | .ub u => (.ub u, s)

/-- The items are used. -/
def touchAll : List Nat → Act Unit
  | [] => pure ()
  | x :: xs => do
    touch x
    touchAll xs

/-- One operation on one thing: whether it returned, and what is held instead. The operations are
those of `OwnOp`, which has the lines. -/
def OwnOp.perform (o : OwnOp) (x : Holder) : Act (Bool × List Holder) :=
  match o, x with
  | .collect n, .vec l => Act.catching (after := []) do
    let (taken, rest) ← takeEach n l
    -- `iter` goes out of scope.
    dropGlue rest
    pure [.slice { buf := cellsOf n taken, len := taken.length }]
  | .new n, .vec l =>
    if l.length > n then pure (true, [.vec l])
    else Act.catching (after := [.vec l]) do
      let l' ← cloneEach l
      pure [.slice { buf := cellsOf n l', len := l.length }, .vec l]
  | .fromArray, .vec l => Act.catching (after := []) do
    -- `value` is copied, and dropped at the end of `from`.
    dropGlue l
    pure [.slice { buf := l.map some, len := l.length }]
  | .clone, .slice t => Act.catching (after := [.slice t]) do
    let l ← liftRes t.asSlice
    let l' ← cloneEach l
    pure [.slice { buf := cellsOf t.buf.length l', len := t.len }, .slice t]
  | .clone, .iter it => Act.catching (after := [.iter it]) do
    let l ← liftRes it.asSlice
    let l' ← cloneEach l
    pure [.iter { buf := SizedSlice.uninit it.pos ++ cellsOf (it.buf.length - it.pos) l',
                  pos := it.pos, len := it.len }, .iter it]
  | .intoIter, .slice t => pure (true, [.iter t.intoIter])
  | .next, .iter it => do
    match ← liftRes it.next with
    | (none, it) => pure (true, [.iter it])
    | (some a, it) => do
      touch a
      pure (true, [.item a, .iter it])
  | .nextBack, .iter it => do
    match ← liftRes it.nextBack with
    | (none, it) => pure (true, [.iter it])
    | (some a, it) => do
      touch a
      pure (true, [.item a, .iter it])
  | .nth k, .iter it =>
    -- With overflow checks.
    if k > it.len then pure (true, [.iter it])
    else if it.pos + k = 0 then pure (false, [.iter it])
    else if k = 0 ∨ it.pos + k - 1 > it.buf.length then liftRes (.ub .outOfBounds)
    else do
      match ← dropCells (k - 1) it.pos it.buf with
      | (false, cells) => pure (false, [.iter { it with buf := cells }])
      | (true, cells) => do
        let (a, cells) ← liftRes (SizedIter.take cells k)
        touch a
        pure (true, [.item a, .iter { buf := cells, pos := it.pos + k, len := it.len - k }])
  | .intoVec, .slice t => do
    let l ← liftRes (t.intoVec 1)
    touchAll l
    pure (true, [.vec l])
  | .look, .slice t => do
    let l ← liftRes t.asSlice
    touchAll l
    pure (true, [.slice t])
  | .look, .iter it => do
    let l ← liftRes it.asSlice
    touchAll l
    pure (true, [.iter it])
  | .look, .vec l => do
    touchAll l
    pure (true, [.vec l])
  | .look, .item a => do
    touch a
    pure (true, [.item a])
  | .drop, .item a => Act.catching (after := []) do
    userDrop a
    pure []
  | .drop, .vec l => Act.catching (after := []) do
    dropGlue l
    pure []
  | .drop, .slice _ => pure (true, [])
  | .drop, .iter _ => pure (true, [])
  | _, x => pure (true, [x])

/-- A step of the caller, who catches panics. -/
inductive UnwindStep where
  /-- Makes items, in a vector. -/
  | make (k : Nat)
  | decode (k : DecKind)
  /-- An operation on the thing at a position. -/
  | op (h : Nat) (o : OwnOp)
  deriving DecidableEq

/-- Makes items. -/
def makeItems : Nat → Act (List Nat)
  | 0 => pure []
  | k + 1 => do
    let x ← newItem
    let xs ← makeItems k
    pure (x :: xs)

/-- One step from the things held to those held then, and whether it returned. -/
def UnwindStep.perform (held : List Holder) : UnwindStep → Act (Bool × List Holder)
  | .make k => do
    let l ← makeItems k
    pure (true, .vec l :: held)
  | .decode k => fun s =>
    match k.decode s with
    | (.ok none, s') => (.ok (true, held), s')
    | (.ok (some x), s') => (.ok (true, x :: held), s')
    | (.unwind, s') => (.ok (false, held), s')
    | (.abort, s') => (.abort, s')
    | (.ub u, s') => (.ub u, s')
  | .op h o =>
    match held[h]? with
    | none => pure (true, held)
    | some x => do
      let (b, hs) ← o.perform x
      pure (b, hs ++ held.eraseIdx h)

/-- A history: which steps returned, and what is held at the end. -/
def performAll : List UnwindStep → (held : List Holder) → Act (List Bool × List Holder)
  | [], held => pure ([], held)
  | t :: ts, held => do
    let (b, held) ← t.perform held
    let (bs, held) ← performAll ts held
    pure (b :: bs, held)

end Oct
