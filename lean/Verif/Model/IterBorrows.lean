import Verif.Model.Borrows
/-
What the iterator of sized slices does to the pointers to its memory, under the aliasing rules of Model/Borrows.

An iterator is a `Place` here, of which the last location stands for its position and its length.

SIMPLIFICATIONS: those of Model/Borrows; what `clone` writes is in a variable of it, and left out; destructors write to
what they destroy and do nothing else, and `Clone::clone` of an item reads it and does nothing else.
-/
namespace Oct.Alias

/-- `SizedIter::as_slice`: oct/src/sized_iter/mod.rs:49-58. -/
def Place.iterSlice (s : Place) (pos len : Nat) (self : Nat) : Make Nat := do
  let self ← retag .shared self s.whole
  let buf ← retag .shared self s.buf
  let ptr ← retag .shared buf s.buf
  read self s.head
  retag .shared ptr ⟨s.at_ + pos, len⟩

/-- `SizedIter::as_mut_slice`: oct/src/sized_iter/mod.rs:62-71. -/
def Place.iterMutSlice (s : Place) (pos len : Nat) (self : Nat) : Make Nat := do
  let self ← retag .excl self s.whole
  let buf ← retag .excl self s.buf
  let ptr ← retag .raw buf s.buf
  read self s.head
  retag .excl ptr ⟨s.at_ + pos, len⟩

/-- `self.buf.get_unchecked(i).assume_init_read()`: oct/src/sized_iter/mod.rs:118, 139 and 169. -/
def Place.iterTake (s : Place) (i : Nat) (self : Nat) : Make Unit := do
  let buf ← retag .shared self s.buf
  let item ← retag .shared buf ⟨s.at_ + i, 1⟩
  read item ⟨s.at_ + i, 1⟩

/-- `SizedIter::next`, or `SizedIter::next_back`, of the `i`-th item of the buffer:
oct/src/sized_iter/mod.rs:113-123, 134-145. -/
def Place.iterNext (s : Place) (len i : Nat) (self : Nat) : Make Unit := do
  let self ← retag .excl self s.whole
  read self s.head
  if len = 0 then Make.pure () else do
    s.iterTake i self
    write self s.head

/-- The loop of `nth`, which destroys `k` items by an iterator over a `&mut` to them: oct/src/sized_iter/mod.rs:160-162. -/
def Place.iterDrops (s : Place) (iter : Nat) : Nat → Nat → Make Unit
  | _, 0 => Make.pure ()
  | pos, k + 1 => do
    let item ← retag .excl iter ⟨s.at_ + pos, 1⟩
    write item ⟨s.at_ + pos, 1⟩
    s.iterDrops iter (pos + 1) k

/-- `SizedIter::nth`: oct/src/sized_iter/mod.rs:148-175. -/
def Place.iterNth (s : Place) (pos len index : Nat) (self : Nat) : Make Unit := do
  let self ← retag .excl self s.whole
  read self s.head
  if index > len then Make.pure () else do
    let buf ← retag .excl self s.buf
    let skipped ← retag .excl buf ⟨s.at_ + pos, index - 1⟩
    let iter ← retag .raw skipped ⟨s.at_ + pos, index - 1⟩
    s.iterDrops iter pos (index - 1)
    s.iterTake index self
    write self s.head

/-- The loop of `clone`: oct/src/sized_iter/mod.rs:97-105. -/
def Place.iterClones (s : Place) (self : Nat) : Nat → Nat → Make Unit
  | _, 0 => Make.pure ()
  | pos, k + 1 => do
    let buf ← retag .shared self s.buf
    let item ← retag .shared buf ⟨s.at_ + pos, 1⟩
    let value ← retag .shared item ⟨s.at_ + pos, 1⟩
    read value ⟨s.at_ + pos, 1⟩
    s.iterClones self (pos + 1) k

/-- `SizedIter::clone`: oct/src/sized_iter/mod.rs:90-108. -/
def Place.iterClone (s : Place) (pos len : Nat) (self : Nat) : Make Unit := do
  let self ← retag .shared self s.whole
  read self s.head
  s.iterClones self pos len

/-- `SizedIter::size_hint`: oct/src/sized_iter/mod.rs:178-182. -/
def Place.iterHint (s : Place) (self : Nat) : Make Unit := do
  let self ← retag .shared self s.whole
  read self s.head

/-- The owner of an iterator: its position, its length, the next tag, and the references that it returned. -/
structure Cursor where
  pos : Nat
  len : Nat
  next : Nat
  held : List Held

def Cursor.new (len : Nat) : Cursor := ⟨0, len, 2, []⟩

/-- What a program does with an iterator. -/
inductive IterCall where
  | asSlice
  | asMutSlice
  | next
  | nextBack
  | nth (index : Nat)
  | clone
  | sizeHint
  /-- Looks at the `i`-th item behind the `h`-th reference that was returned so far. -/
  | get (h i : Nat)
  /-- Puts the `i`-th item behind the `h`-th reference that was returned so far. -/
  | set (h i : Nat)

/-- What a call does. -/
def IterCall.go (s : Place) (c : Cursor) : IterCall → Cursor × List Event
  | .asSlice => let m := s.iterSlice c.pos c.len ownerTag c.next
    ({ c with next := m.2.1, held := c.held ++ [⟨m.1, ⟨s.at_ + c.pos, c.len⟩⟩] }, m.2.2)
  | .asMutSlice => let m := s.iterMutSlice c.pos c.len ownerTag c.next
    ({ c with next := m.2.1, held := c.held ++ [⟨m.1, ⟨s.at_ + c.pos, c.len⟩⟩] }, m.2.2)
  | .next => let m := s.iterNext c.len c.pos ownerTag c.next
    ({ c with pos := if c.len = 0 then c.pos else c.pos + 1, len := c.len - 1, next := m.2.1 }, m.2.2)
  | .nextBack => let m := s.iterNext c.len (c.pos + c.len - 1) ownerTag c.next
    ({ c with len := c.len - 1, next := m.2.1 }, m.2.2)
  | .nth i => let m := s.iterNth c.pos c.len i ownerTag c.next
    if i > c.len then ({ c with next := m.2.1 }, m.2.2)
    else ({ c with pos := c.pos + i, len := c.len - i, next := m.2.1 }, m.2.2)
  | .clone => let m := s.iterClone c.pos c.len ownerTag c.next
    ({ c with next := m.2.1 }, m.2.2)
  | .sizeHint => let m := s.iterHint ownerTag c.next
    ({ c with next := m.2.1 }, m.2.2)
  | .get h i => match c.held[h]? with
    | some x => (c, [.read x.tag ⟨x.r.lo + i, 1⟩])
    | none => (c, [])
  | .set h i => match c.held[h]? with
    | some x => (c, [.write x.tag ⟨x.r.lo + i, 1⟩])
    | none => (c, [])

/-- What a program does. -/
def iterEvents (s : Place) : Cursor → List IterCall → List Event
  | _, [] => []
  | c, x :: xs => (x.go s c).2 ++ iterEvents s (x.go s c).1 xs

/-- The owner after a program. -/
def iterAfter (s : Place) : Cursor → List IterCall → Cursor
  | c, [] => c
  | c, x :: xs => iterAfter s (x.go s c).1 xs

end Oct.Alias
