import Verif.Model.SizedEncode
/-
`Slot<T>`: oct/src/slot/mod.rs. The encoded type is a parameter of the operations that use it.
-/
namespace Oct

/-- `pub struct Slot<T> { buf: Box<[u8]>, len: usize, .. }`: oct/src/slot/mod.rs:69-74. -/
structure Slot where
  buf : List Byte
  len : Nat
  deriving DecidableEq

namespace Slot

/-- `Slot::with_capacity`: oct/src/slot/mod.rs:85-94. -/
def withCapacity (cap : Nat) : Slot := { buf := List.replicate cap 0, len := 0 }

/-- `Slot::new`: oct/src/slot/mod.rs:314-316; `Default` (361-367) forwards to it. -/
def new (sizeOf : Ty → Nat) (t : Ty) : Slot := withCapacity (t.maxSize sizeOf)

/-- `Slot::capacity`: oct/src/slot/mod.rs:226-228. -/
def capacity (s : Slot) : Nat := s.buf.length

/-- `Slot::as_slice`: oct/src/slot/mod.rs:143-146; `AsRef`, `Borrow`, `Deref` and `PartialEq` use
it. -/
def asSlice (s : Slot) : Res Empty (List Byte) :=
  if s.len > s.buf.length then .ub .outOfBounds else .ok (s.buf.take s.len)

/-- `Slot::is_empty`: oct/src/slot/mod.rs:246-248. -/
def isEmpty (s : Slot) : Bool := s.len == 0

/-- `Slot::is_full`: oct/src/slot/mod.rs:255-257. -/
def isFull (s : Slot) : Bool := s.len == s.capacity

/-- `Slot::copy_from_slice`: oct/src/slot/mod.rs:166-183. The slot is handed back in any case. -/
def copyFromSlice (s : Slot) (data : List Byte) : Res Empty Unit × Slot :=
  let len := data.length
  if len ≤ s.capacity then (.ok (), { buf := data ++ s.buf.drop len, len := len })
  else (.panic .assertion, s)

/-- `Slot::set_len`: oct/src/slot/mod.rs:195-200. -/
def setLen (s : Slot) (len : Nat) : Res Empty Unit × Slot :=
  if len ≤ s.capacity then (.ok (), { s with len := len }) else (.panic .assertion, s)

/-- Assignment of one octet through `as_mut_slice` (oct/src/slot/mod.rs:155-158), `AsMut`,
`BorrowMut`, `DerefMut` or `IndexMut` (398-402): the whole buffer can be written. -/
def setByte (s : Slot) (i : Nat) (b : Byte) : Res Empty Unit × Slot :=
  if i < s.capacity then (.ok (), { s with buf := s.buf.set i b }) else (.panic .indexOutOfBounds, s)

/-- `Index` with an integer: oct/src/slot/mod.rs:388-395 (`self.get(index)` is that of the
dereferenced `as_slice`). -/
def index (s : Slot) (i : Nat) : Res Empty Byte :=
  match s.asSlice with
  | .ok l =>
    match l[i]? with
    | some b => .ok b
    | none => .panic .indexOutOfBounds
  | .err e => .err e
  | .panic p => .panic p
  | .ub u => .ub u

/-- `Slot::write`: oct/src/slot/mod.rs:270-279. The stream writes into the slot's buffer, also when
the encoding does not succeed; the assertion of `set_len` at 276 is kept. -/
def write (s : Slot) (t : Ty) (v : t.Val) : Res EncErr Unit × Slot :=
  match t.encode v (Output.new s.buf) with
  | (.ok (), o) =>
    let s' := { s with buf := o.buf }
    match s'.setLen o.position with
    | (.ok (), s'') => (.ok (), s'')
    | (_, s'') => (.panic .assertion, s'')
  | (.err e, o) => (.err e, { s with buf := o.buf })
  | (.panic p, o) => (.panic p, { s with buf := o.buf })
  | (.ub u, o) => (.ub u, { s with buf := o.buf })

/-- `Slot::read`: oct/src/slot/mod.rs:295-303. The stream is over the whole buffer. -/
def read (s : Slot) (t : Ty) : Res DecErr t.Val := (t.decode (Input.new s.buf)).1

end Slot
end Oct
