import Verif.Model.Borrows
/-
What slots and streams do to the pointers to their memory, under the aliasing rules of Model/Borrows.

A slot is a `Place` here, of which the buffer is on the heap and the last location stands for the slot itself: its box,
which is a pointer to the buffer, and its length.

SIMPLIFICATIONS: those of Model/Borrows; the box is the owner of the buffer, that is, it is not given a new tag when the
slot is moved; `MaybeUninit` and streams themselves are in variables of the methods and left out.
-/
namespace Oct.Alias

/-- `Slot::as_ptr`: oct/src/slot/mod.rs:124-126. -/
def Place.slotPtr (s : Place) (self : Nat) : Make Nat := do
  let self ← retag .shared self s.head
  read self s.head
  let buf ← retag .shared ownerTag s.buf
  retag .shared buf s.buf

/-- `Slot::as_mut_ptr`: oct/src/slot/mod.rs:133-135. -/
def Place.slotMutPtr (s : Place) (self : Nat) : Make Nat := do
  let self ← retag .excl self s.head
  read self s.head
  let buf ← retag .excl ownerTag s.buf
  retag .raw buf s.buf

/-- `Slot::capacity`, which is that of the slice behind the box: oct/src/slot/mod.rs:226-228. -/
def Place.slotCapacity (s : Place) (self : Nat) : Make Unit := do
  let self ← retag .shared self s.head
  read self s.head
  let _ ← retag .shared ownerTag s.buf

/-- `Slot::len`: oct/src/slot/mod.rs:237-239. -/
def Place.slotLen (s : Place) (self : Nat) : Make Unit := do
  let self ← retag .shared self s.head
  read self s.head

/-- `Slot::as_slice`, when the length is `n`: oct/src/slot/mod.rs:143-146. -/
def Place.slotSlice (s : Place) (n : Nat) (self : Nat) : Make Nat := do
  let self ← retag .shared self s.head
  let ptr ← s.slotPtr self
  s.slotLen self
  retag .shared ptr (s.items n)

/-- `Slot::as_mut_slice`: oct/src/slot/mod.rs:155-158. -/
def Place.slotMutSlice (s : Place) (self : Nat) : Make Nat := do
  let self ← retag .excl self s.head
  let ptr ← s.slotMutPtr self
  s.slotCapacity self
  retag .excl ptr s.buf

/-- `Slot::set_len_unchecked`: oct/src/slot/mod.rs:212-218. -/
def Place.setLenUnchecked (s : Place) (self : Nat) : Make Unit := do
  let self ← retag .excl self s.head
  s.slotCapacity self
  write self s.head

/-- `Slot::set_len`: oct/src/slot/mod.rs:195-200. -/
def Place.setLen (s : Place) (self : Nat) : Make Unit := do
  let self ← retag .excl self s.head
  s.slotCapacity self
  s.setLenUnchecked self

/-- `Slot::copy_from_slice` of `n` octets at `d`: oct/src/slot/mod.rs:166-183. -/
def Place.slotCopy (s : Place) (d n : Nat) (self : Nat) : Make Unit := do
  let self ← retag .excl self s.head
  let data ← retag .shared dataTag ⟨d, n⟩
  s.slotCapacity self
  let dst ← s.slotMutPtr self
  read data ⟨d, n⟩
  write dst (s.items n)
  s.setLenUnchecked self

/-- `Output::write` of `n` octets at `d`, when `pos` were written, to a stream that has the reference `buf`:
oct/src/encode/output/mod.rs:49-71. -/
def Place.outputWrite (s : Place) (d : Nat) (buf pos n : Nat) : Make Unit := do
  let data ← retag .shared dataTag ⟨d, n⟩
  let _ ← retag .shared buf s.buf
  if pos + n ≤ s.cap then
    let dst ← retag .excl buf s.buf
    let dst ← retag .raw dst s.buf
    read data ⟨d, n⟩
    write dst ⟨s.at_ + pos, n⟩
  else Make.pure ()

/-- How far a stream is after pieces of these lengths: those that do not fit are refused. -/
def position (cap : Nat) : Nat → List Nat → Nat
  | pos, [] => pos
  | pos, n :: ns => position cap (if pos + n ≤ cap then pos + n else pos) ns

/-- The pieces that an encoding consists of, one after the other. -/
def Place.outputWrites (s : Place) (d : Nat) (buf : Nat) : Nat → List Nat → Make Unit
  | _, [] => Make.pure ()
  | pos, n :: ns => do
    s.outputWrite d buf pos n
    s.outputWrites d buf (if pos + n ≤ s.cap then pos + n else pos) ns

/-- `Slot::write`: oct/src/slot/mod.rs:270-279. The impl writes pieces, and returns without an error if `ok`. -/
def Place.slotWrite (s : Place) (d : Nat) (ns : List Nat) (ok : Bool) (self : Nat) : Make Unit := do
  let self ← retag .excl self s.head
  read self s.head
  let buf ← retag .excl ownerTag s.buf
  s.outputWrites d buf 0 ns
  if ok then s.setLen self else Make.pure ()

/-- `Input::read` of `n` octets, when `pos` were read, from a stream that has the reference `buf`:
oct/src/decode/input/mod.rs:49-69. What is read is looked at. -/
def Place.inputRead (s : Place) (buf pos n : Nat) : Make Unit := do
  let _ ← retag .shared buf s.buf
  if pos + n ≤ s.cap then
    let ptr ← retag .shared buf s.buf
    let data ← retag .shared ptr ⟨s.at_ + pos, n⟩
    read data ⟨s.at_ + pos, n⟩
  else Make.pure ()

/-- What a decoding reads, one piece after the other. -/
def Place.inputReads (s : Place) (buf : Nat) : Nat → List Nat → Make Unit
  | _, [] => Make.pure ()
  | pos, n :: ns => do
    s.inputRead buf pos n
    s.inputReads buf (if pos + n ≤ s.cap then pos + n else pos) ns

/-- `Slot::read`: oct/src/slot/mod.rs:295-303. -/
def Place.slotRead (s : Place) (ns : List Nat) (self : Nat) : Make Unit := do
  let self ← retag .shared self s.head
  read self s.head
  let buf ← retag .shared ownerTag s.buf
  s.inputReads buf 0 ns

/-! Programs that own a slot, and have a reference to octets elsewhere. -/

inductive SlotCall where
  | len
  | capacity
  | asSlice
  | asMutSlice
  | asPtr
  | asMutPtr
  | setLen (n : Nat)
  /-- of so many octets that are elsewhere -/
  | copyFromSlice (n : Nat)
  /-- with an impl that writes pieces of these lengths, and returns an error or not -/
  | write (ns : List Nat) (ok : Bool)
  /-- with an impl that reads pieces of these lengths -/
  | read (ns : List Nat)
  /-- Looks at the `i`-th octet behind the `h`-th reference or pointer that was returned so far. -/
  | get (h i : Nat)
  /-- Puts the `i`-th octet behind the `h`-th reference or pointer that was returned so far. -/
  | set (h i : Nat)

/-- What a call does. Octets elsewhere are at `d`. -/
def SlotCall.go (s : Place) (d : Nat) (o : Owner) : SlotCall → Owner × List Event
  | .len => let m := s.slotLen ownerTag o.next
    ({ o with next := m.2.1 }, m.2.2)
  | .capacity => let m := s.slotCapacity ownerTag o.next
    ({ o with next := m.2.1 }, m.2.2)
  | .asSlice => let m := s.slotSlice o.len ownerTag o.next
    ({ o with next := m.2.1, held := o.held ++ [⟨m.1, s.items o.len⟩] }, m.2.2)
  | .asMutSlice => let m := s.slotMutSlice ownerTag o.next
    ({ o with next := m.2.1, held := o.held ++ [⟨m.1, s.buf⟩] }, m.2.2)
  | .asPtr => let m := s.slotPtr ownerTag o.next
    ({ o with next := m.2.1, held := o.held ++ [⟨m.1, s.buf⟩] }, m.2.2)
  | .asMutPtr => let m := s.slotMutPtr ownerTag o.next
    ({ o with next := m.2.1, held := o.held ++ [⟨m.1, s.buf⟩] }, m.2.2)
  | .setLen n => let m := s.setLen ownerTag o.next
    ({ o with next := m.2.1, len := n }, m.2.2)
  | .copyFromSlice n => let m := s.slotCopy d n ownerTag o.next
    ({ o with next := m.2.1, len := n }, m.2.2)
  | .write ns ok => let m := s.slotWrite d ns ok ownerTag o.next
    ({ o with next := m.2.1, len := if ok then position s.cap 0 ns else o.len }, m.2.2)
  | .read ns => let m := s.slotRead ns ownerTag o.next
    ({ o with next := m.2.1 }, m.2.2)
  | .get h i => match o.held[h]? with
    | some x => (o, [.read x.tag ⟨x.r.lo + i, 1⟩])
    | none => (o, [])
  | .set h i => match o.held[h]? with
    | some x => (o, [.write x.tag ⟨x.r.lo + i, 1⟩])
    | none => (o, [])

/-- What a program does. -/
def slotEvents (s : Place) (d : Nat) : Owner → List SlotCall → List Event
  | _, [] => []
  | o, c :: cs => (c.go s d o).2 ++ slotEvents s d (c.go s d o).1 cs

/-- The owner after a program. -/
def slotAfter (s : Place) (d : Nat) : Owner → List SlotCall → Owner
  | o, [] => o
  | o, c :: cs => slotAfter s d (c.go s d o).1 cs

end Oct.Alias
