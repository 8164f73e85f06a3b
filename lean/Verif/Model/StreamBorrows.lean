import Verif.Model.SlotBorrows
/-
What streams by themselves do to the pointers to their octets, under the aliasing rules of Model/Borrows.

A stream is a `Place` here, of which the buffer is what it was made with a reference to, and the last location stands for
the stream itself: this reference, and its position.

SIMPLIFICATIONS: those of Model/Borrows; the reference to the buffer is taken for its owner, that is, what else there is of
references to it is not used while the stream is; `remaining` passes its reference on to `capacity` and `position`, and
they are taken for one.
-/
namespace Oct.Alias

/-- `Input::capacity` and `Output::capacity`: oct/src/decode/input/mod.rs:103-108, oct/src/encode/output/mod.rs:93-97. -/
def Place.streamCapacity (s : Place) (self : Nat) : Make Unit := do
  let self ← retag .shared self s.head
  read self s.head
  let _ ← retag .shared ownerTag s.buf

/-- `Input::position` and `Output::position`: oct/src/decode/input/mod.rs:119-124, oct/src/encode/output/mod.rs:109-113. -/
def Place.streamPosition (s : Place) (self : Nat) : Make Unit := do
  let self ← retag .shared self s.head
  read self s.head

/-- `Input::remaining` and `Output::remaining`: oct/src/decode/input/mod.rs:110-117, oct/src/encode/output/mod.rs:100-106. -/
def Place.streamRemaining (s : Place) (self : Nat) : Make Unit := do
  s.streamCapacity self
  s.streamPosition self

/-- `Input::read` of `n` octets, when `pos` were read: oct/src/decode/input/mod.rs:49-69. -/
def Place.streamRead (s : Place) (pos n : Nat) (self : Nat) : Make Nat := do
  let self ← retag .excl self s.head
  read self s.head
  let _ ← retag .shared ownerTag s.buf
  if pos + n ≤ s.cap then
    let ptr ← retag .shared ownerTag s.buf
    let data ← retag .shared ptr ⟨s.at_ + pos, n⟩
    write self s.head
    Make.pure data
  else Make.pure ownerTag

/-- `Input::read_into` of `n` octets to `d`: oct/src/decode/input/mod.rs:79-101. -/
def Place.streamReadInto (s : Place) (d pos n : Nat) (self : Nat) : Make Unit := do
  let self ← retag .excl self s.head
  let buf ← retag .excl dataTag ⟨d, n⟩
  s.streamRemaining self
  if pos + n ≤ s.cap then
    let src ← retag .shared ownerTag s.buf
    let dst ← retag .raw buf ⟨d, n⟩
    read src ⟨s.at_ + pos, n⟩
    write dst ⟨d, n⟩
    write self s.head
  else Make.pure ()

/-- `Output::write` of `n` octets at `d`, when `pos` were written: oct/src/encode/output/mod.rs:49-71. -/
def Place.streamWrite (s : Place) (d pos n : Nat) (self : Nat) : Make Unit := do
  let self ← retag .excl self s.head
  let data ← retag .shared dataTag ⟨d, n⟩
  read self s.head
  let _ ← retag .shared ownerTag s.buf
  if pos + n ≤ s.cap then
    let dst ← retag .excl ownerTag s.buf
    let dst ← retag .raw dst s.buf
    read data ⟨d, n⟩
    write dst ⟨s.at_ + pos, n⟩
    write self s.head
  else Make.pure ()

/-- `Output::as_ptr`: oct/src/encode/output/mod.rs:74-78. -/
def Place.streamPtr (s : Place) (self : Nat) : Make Nat := do
  let self ← retag .shared self s.head
  read self s.head
  let buf ← retag .shared ownerTag s.buf
  retag .shared buf s.buf

/-- `Output::as_slice`, when `pos` were written: oct/src/encode/output/mod.rs:81-90. -/
def Place.streamSlice (s : Place) (pos : Nat) (self : Nat) : Make Nat := do
  let self ← retag .shared self s.head
  let ptr ← s.streamPtr self
  s.streamPosition self
  retag .shared ptr (s.items pos)

/-- What a program does with a stream: the first two are for those that are read from, the next three for those that are
written to. -/
inductive StreamCall where
  | read (n : Nat)
  /-- to elsewhere -/
  | readInto (n : Nat)
  /-- of so many octets that are elsewhere -/
  | write (n : Nat)
  | asPtr
  | asSlice
  | capacity
  | position
  | remaining
  /-- Looks at the `i`-th octet behind the `h`-th reference or pointer that was returned so far. -/
  | get (h i : Nat)

/-- What a call does. The length of the owner is the position of the stream. -/
def StreamCall.go (s : Place) (d : Nat) (o : Owner) : StreamCall → Owner × List Event
  | .read n => let m := s.streamRead o.len n ownerTag o.next
    if o.len + n ≤ s.cap then (⟨o.len + n, m.2.1, o.held ++ [⟨m.1, ⟨s.at_ + o.len, n⟩⟩]⟩, m.2.2)
    else ({ o with next := m.2.1 }, m.2.2)
  | .readInto n => let m := s.streamReadInto d o.len n ownerTag o.next
    (⟨if o.len + n ≤ s.cap then o.len + n else o.len, m.2.1, o.held⟩, m.2.2)
  | .write n => let m := s.streamWrite d o.len n ownerTag o.next
    (⟨if o.len + n ≤ s.cap then o.len + n else o.len, m.2.1, o.held⟩, m.2.2)
  | .asPtr => let m := s.streamPtr ownerTag o.next
    ({ o with next := m.2.1, held := o.held ++ [⟨m.1, s.buf⟩] }, m.2.2)
  | .asSlice => let m := s.streamSlice o.len ownerTag o.next
    ({ o with next := m.2.1, held := o.held ++ [⟨m.1, s.items o.len⟩] }, m.2.2)
  | .capacity => let m := s.streamCapacity ownerTag o.next
    ({ o with next := m.2.1 }, m.2.2)
  | .position => let m := s.streamPosition ownerTag o.next
    ({ o with next := m.2.1 }, m.2.2)
  | .remaining => let m := s.streamRemaining ownerTag o.next
    ({ o with next := m.2.1 }, m.2.2)
  | .get h i => match o.held[h]? with
    | some x => (o, [.read x.tag ⟨x.r.lo + i, 1⟩])
    | none => (o, [])

/-- What a program does. -/
def streamEvents (s : Place) (d : Nat) : Owner → List StreamCall → List Event
  | _, [] => []
  | o, c :: cs => (c.go s d o).2 ++ streamEvents s d (c.go s d o).1 cs

/-- The owner after a program. -/
def streamAfter (s : Place) (d : Nat) : Owner → List StreamCall → Owner
  | o, [] => o
  | o, c :: cs => streamAfter s d (c.go s d o).1 cs

end Oct.Alias
