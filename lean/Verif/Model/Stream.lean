import Verif.Model.Basic
/-
Byte streams: `Output` (oct/src/encode/output/mod.rs) and `Input` (oct/src/decode/input/mod.rs),
and the state-passing shape of `encode` and `decode`.
-/
namespace Oct

/-- `OutputError { capacity, position, count }`: oct/src/error/output_error.rs:30-39. -/
structure OutputError where
  capacity : Nat
  position : Nat
  count : Nat
  deriving DecidableEq, Repr

/-- `InputError { capacity, position, count }`: oct/src/error/input_error.rs:30-39. -/
structure InputError where
  capacity : Nat
  position : Nat
  count : Nat
  deriving DecidableEq, Repr

/-- `pub struct Output<'a> { buf: &'a mut [u8], pos: usize }`: oct/src/encode/output/mod.rs:30-33.
SIMPLIFICATION: the borrowed buffer is a value that is handed back with the stream; `usize` is
`Nat` (a slice length never exceeds `isize::MAX`, so no modelled sum overflows). -/
structure Output where
  buf : List Byte
  pos : Nat
  deriving DecidableEq, Repr

namespace Output

/-- `Output::new`: oct/src/encode/output/mod.rs:39-41. -/
def new (buf : List Byte) : Output := ⟨buf, 0⟩

/-- `Output::capacity`: oct/src/encode/output/mod.rs:95-97. -/
def capacity (o : Output) : Nat := o.buf.length

/-- `Output::position`: oct/src/encode/output/mod.rs:111-113. -/
def position (o : Output) : Nat := o.pos

/-- `Output::remaining`: oct/src/encode/output/mod.rs:102-106. `unchecked_sub` is `Nat`
subtraction; `Proofs/Stream.lean` shows that it never underflows in a reachable state. -/
def remaining (o : Output) : Nat := o.capacity - o.position

/-- `Output::as_slice`: oct/src/encode/output/mod.rs:83-90. -/
def asSlice (o : Output) : List Byte := o.buf.take o.pos

/-- `copy_nonoverlapping(data, buf + pos, data.len()); pos += data.len()`:
oct/src/encode/output/mod.rs:61-68, for data that fits. -/
def put (o : Output) (data : List Byte) : Output :=
  { buf := o.buf.take o.pos ++ data ++ o.buf.drop (o.pos + data.length)
    pos := o.pos + data.length }

/-- `Output::write`: oct/src/encode/output/mod.rs:49-71. -/
def write (o : Output) (data : List Byte) : Except OutputError Unit × Output :=
  let remaining := o.buf.length - o.pos
  let count := data.length
  if remaining < count then
    (.error { capacity := o.buf.length, position := o.pos, count := count }, o)
  else
    (.ok (), o.put data)

/-- The cursor never exceeds the buffer: "The cursor position can never exceed the stream's
capacity", oct/src/encode/output/mod.rs:103-104. -/
def WF (o : Output) : Prop := o.pos ≤ o.buf.length

end Output

/-- `pub struct Input<'a> { buf: &'a [u8], pos: usize }`: oct/src/decode/input/mod.rs:28-31. -/
structure Input where
  buf : List Byte
  pos : Nat
  deriving DecidableEq, Repr

namespace Input

/-- `Input::new`: oct/src/decode/input/mod.rs:37-39. -/
def new (buf : List Byte) : Input := ⟨buf, 0⟩

/-- `Input::capacity`: oct/src/decode/input/mod.rs:106-108. -/
def capacity (i : Input) : Nat := i.buf.length

/-- `Input::position`: oct/src/decode/input/mod.rs:122-124. -/
def position (i : Input) : Nat := i.pos

/-- `Input::remaining`: oct/src/decode/input/mod.rs:113-117. -/
def remaining (i : Input) : Nat := i.capacity - i.position

/-- `Input::read`: oct/src/decode/input/mod.rs:49-69. -/
def read (i : Input) (count : Nat) : Except InputError (List Byte) × Input :=
  let remaining := i.buf.length - i.pos
  if remaining < count then
    (.error { capacity := i.buf.length, position := i.pos, count := count }, i)
  else
    (.ok ((i.buf.drop i.pos).take count), { i with pos := i.pos + count })

/-- `Input::read_into`: oct/src/decode/input/mod.rs:79-101. The destination buffer `dst` is
returned with its new contents. -/
def readInto (i : Input) (dst : List Byte) : Except InputError Unit × List Byte × Input :=
  let count := dst.length
  let remaining := i.remaining
  if remaining < count then
    (.error { capacity := i.buf.length, position := i.pos, count := count }, dst, i)
  else
    (.ok (), (i.buf.drop i.pos).take count, { i with pos := i.pos + count })

/-- See `Output.WF`; oct/src/decode/input/mod.rs:114-115. -/
def WF (i : Input) : Prop := i.pos ≤ i.buf.length

end Input

/-- The shape of `fn encode(&self, output: &mut Output) -> Result<(), Self::Error>` once `&self`
is given (oct/src/encode/encode/mod.rs:146): the new state of the output is handed back whatever
the outcome, since the caller can still look at it. -/
def Enc (α : Type) := Output → Res EncErr α × Output

namespace Enc
variable {α β : Type}

/-- Returns without touching the stream. -/
def pure (a : α) : Enc α := fun o => (.ok a, o)

/-- Returns an error without touching the stream. -/
def fail (e : EncErr) : Enc α := fun o => (.err e, o)

/-- Panics without touching the stream. -/
def panic (p : Panic) : Enc α := fun o => (.panic p, o)

/-- Sequencing with the `?` operator: anything but `Ok` stops. -/
def bind (m : Enc α) (f : α → Enc β) : Enc β := fun o =>
  match m o with
  | (.ok a, o') => f a o'
  | (.err e, o') => (.err e, o')
  | (.panic p, o') => (.panic p, o')
  | (.ub u, o') => (.ub u, o')

instance : Monad Enc where
  pure := Enc.pure
  bind := Enc.bind

/-- `.map_err(g)`. -/
def mapErr (g : EncErr → EncErr) (m : Enc α) : Enc α := fun o =>
  ((m o).1.mapErr g, (m o).2)

/-- `output.write(data).unwrap()`: oct/src/encode/encode/mod.rs:861. -/
def write (data : List Byte) : Enc Unit := fun o =>
  match o.write data with
  | (.ok (), o') => (.ok (), o')
  | (.error _, o') => (.panic .shortOutput, o')

end Enc

/-- The shape of `fn decode(input: &mut Input) -> Result<Self, Self::Error>`
(oct/src/decode/decode/mod.rs:111). -/
def Dec (α : Type) := Input → Res DecErr α × Input

namespace Dec
variable {α β : Type}

/-- Returns without touching the stream. -/
def pure (a : α) : Dec α := fun i => (.ok a, i)

/-- Returns an error without touching the stream. -/
def fail (e : DecErr) : Dec α := fun i => (.err e, i)

/-- Panics without touching the stream. -/
def panic (p : Panic) : Dec α := fun i => (.panic p, i)

/-- Undefined behaviour. -/
def ub (u : Ub) : Dec α := fun i => (.ub u, i)

/-- Sequencing with the `?` operator. -/
def bind (m : Dec α) (f : α → Dec β) : Dec β := fun i =>
  match m i with
  | (.ok a, i') => f a i'
  | (.err e, i') => (.err e, i')
  | (.panic p, i') => (.panic p, i')
  | (.ub u, i') => (.ub u, i')

instance : Monad Dec where
  pure := Dec.pure
  bind := Dec.bind

/-- `.map_err(g)`. -/
def mapErr (g : DecErr → DecErr) (m : Dec α) : Dec α := fun i =>
  ((m i).1.mapErr g, (m i).2)

/-- `input.read(count).unwrap()`: oct/src/decode/decode/mod.rs:285, :708. -/
def read (count : Nat) : Dec (List Byte) := fun i =>
  match i.read count with
  | (.ok data, i') => (.ok data, i')
  | (.error _, i') => (.panic .shortInput, i')

/-- `let mut data = [0; count]; input.read_into(&mut data).unwrap()`:
oct/src/decode/decode/mod.rs:826-827. -/
def readInto (count : Nat) : Dec (List Byte) := fun i =>
  match i.readInto (List.replicate count 0) with
  | (.ok (), data, i') => (.ok data, i')
  | (.error _, _, i') => (.panic .shortInput, i')

end Dec

end Oct
