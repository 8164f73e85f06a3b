import Verif.Model.Slot
import Verif.Model.SizedSlice
/-
The streams and slots as they are in memory: references are pointers with lengths, and the unsafe
operations are undefined unless their documented conditions hold.
Files: oct/src/encode/output/mod.rs, oct/src/decode/input/mod.rs, oct/src/slot/mod.rs, and the writes
and reads of oct/src/encode/encode/mod.rs:854-867 and oct/src/decode/decode/mod.rs:819-833.

SIMPLIFICATIONS: a pointer is an allocation and an offset in it (its provenance is the allocation),
memory is sequentially consistent, and the aliasing rules (which pointers a reference invalidates) are
reduced to what the operations themselves demand: `copy_nonoverlapping` is undefined for regions that
overlap. `usize` is unbounded.
-/
namespace Oct

/-- A pointer: an allocation, and how many octets into it. -/
structure Ptr where
  alloc : Nat
  off : Nat
  deriving DecidableEq

/-- Memory: the cells of each allocation that is alive. `none` in a cell is an uninitialised one. -/
abbrev Mem (α : Type) := Nat → Option (List (Option α))

namespace Mem
variable {α : Type}

/-- The cells from a pointer on. Nothing can be said to be wrong with no cells at all: zero-sized
accesses are fine for every pointer (core::ptr documentation, "Safety"). -/
def load (m : Mem α) (p : Ptr) (n : Nat) : Option (List (Option α)) :=
  if n = 0 then some []
  else
    match m p.alloc with
    | none => none
    | some c => if p.off + n ≤ c.length then some ((c.drop p.off).take n) else none

/-- Puts cells at a pointer. -/
def store (m : Mem α) (p : Ptr) (l : List (Option α)) : Option (Mem α) :=
  if l = [] then some m
  else
    match m p.alloc with
    | none => none
    | some c =>
      if p.off + l.length ≤ c.length then
        some fun a => if a = p.alloc then some (c.take p.off ++ l ++ c.drop (p.off + l.length)) else m a
      else none

/-- `ptr.add(n)`: the result must be within the allocation, or just behind it; adding nothing is
always fine. -/
def add (m : Mem α) (p : Ptr) (n : Nat) : Except Ub Ptr :=
  if n = 0 then .ok p
  else
    match m p.alloc with
    | none => .error .outOfBounds
    | some c => if p.off + n ≤ c.length then .ok { p with off := p.off + n } else .error .outOfBounds

/-- The regions have no octet in common. -/
def Apart (p : Ptr) (n : Nat) (q : Ptr) (k : Nat) : Prop :=
  n = 0 ∨ k = 0 ∨ p.alloc ≠ q.alloc ∨ p.off + n ≤ q.off ∨ q.off + k ≤ p.off

instance (p : Ptr) (n : Nat) (q : Ptr) (k : Nat) : Decidable (Apart p n q k) := by
  unfold Apart; infer_instance

/-- `copy_nonoverlapping(src, dst, n)`. Uninitialised cells may be copied. -/
def copyNonoverlapping (m : Mem α) (src dst : Ptr) (n : Nat) : Except Ub (Mem α) :=
  match m.load src n with
  | none => .error .outOfBounds
  | some l =>
    if Apart src n dst n then
      match m.store dst l with
      | none => .error .outOfBounds
      | some m' => .ok m'
    else .error .overlap

/-- `slice::from_raw_parts(p, n)` and looking at the elements: they must be there, and initialised. -/
def values (m : Mem α) (p : Ptr) (n : Nat) : Except Ub (List α) :=
  match m.load p n with
  | none => .error .outOfBounds
  | some l =>
    match initAll l with
    | some vs => .ok vs
    | none => .error .uninitRead

/-- A new allocation with the given contents. -/
def alloc (m : Mem α) (a : Nat) (l : List (Option α)) : Mem α :=
  fun b => if b = a then some l else m b

/-- The allocation is gone. -/
def free (m : Mem α) (a : Nat) : Mem α := fun b => if b = a then none else m b

end Mem

/-- `&[u8]` or `&mut [u8]`: a pointer and a length. -/
structure RawSlice where
  ptr : Ptr
  len : Nat
  deriving DecidableEq

/-- `Output`: oct/src/encode/output/mod.rs:30-33. -/
structure RawOutput where
  buf : RawSlice
  pos : Nat
  deriving DecidableEq

/-- `Output::write`: oct/src/encode/output/mod.rs:49-71. The subtraction at 50 is checked (builds
without overflow checks are not modelled here; it never overflows). -/
def RawOutput.write (o : RawOutput) (data : RawSlice) (m : Mem Byte) :
    Res OutputError Unit × RawOutput × Mem Byte :=
  if o.buf.len < o.pos then (.panic .arithmeticOverflow, o, m)
  else
    let remaining := o.buf.len - o.pos
    let count := data.len
    if remaining < count then
      (.err { capacity := o.buf.len, position := o.pos, count := count }, o, m)
    else
      match m.add o.buf.ptr o.pos with
      | .error u => (.ub u, o, m)
      | .ok dst =>
        match m.copyNonoverlapping data.ptr dst count with
        | .error u => (.ub u, o, m)
        | .ok m' => (.ok (), { o with pos := o.pos + count }, m')

/-- `Output::as_slice`: oct/src/encode/output/mod.rs:83-90. -/
def RawOutput.asSlice (o : RawOutput) (m : Mem Byte) : Except Ub (List Byte) :=
  m.values o.buf.ptr o.pos

/-- `Output::remaining`: oct/src/encode/output/mod.rs:102-106 (`unchecked_sub`). -/
def RawOutput.remaining (o : RawOutput) : Except Ub Nat :=
  if o.buf.len < o.pos then .error .uncheckedSub else .ok (o.buf.len - o.pos)

/-- `Input`: oct/src/decode/input/mod.rs:28-31. -/
structure RawInput where
  buf : RawSlice
  pos : Nat
  deriving DecidableEq

/-- `Input::remaining`: oct/src/decode/input/mod.rs:113-117 (`unchecked_sub`). -/
def RawInput.remaining (i : RawInput) : Except Ub Nat :=
  if i.buf.len < i.pos then .error .uncheckedSub else .ok (i.buf.len - i.pos)

/-- `Input::read`: oct/src/decode/input/mod.rs:49-69. The slice returned points into the buffer. -/
def RawInput.read (i : RawInput) (count : Nat) (m : Mem Byte) : Res InputError RawSlice × RawInput :=
  if i.buf.len < i.pos then (.panic .arithmeticOverflow, i)
  else
    let remaining := i.buf.len - i.pos
    if remaining < count then
      (.err { capacity := i.buf.len, position := i.pos, count := count }, i)
    else
      match m.add i.buf.ptr i.pos with
      | .error u => (.ub u, i)
      | .ok ptr =>
        match m.values ptr count with
        | .error u => (.ub u, i)
        | .ok _ => (.ok ⟨ptr, count⟩, { i with pos := i.pos + count })

/-- `Input::read_into`: oct/src/decode/input/mod.rs:79-101. -/
def RawInput.readInto (i : RawInput) (buf : RawSlice) (m : Mem Byte) :
    Res InputError Unit × RawInput × Mem Byte :=
  let count := buf.len
  match i.remaining with
  | .error u => (.ub u, i, m)
  | .ok remaining =>
    if remaining < count then
      (.err { capacity := i.buf.len, position := i.pos, count := count }, i, m)
    else
      match m.add i.buf.ptr i.pos with
      | .error u => (.ub u, i, m)
      | .ok src =>
        match m.copyNonoverlapping src buf.ptr count with
        | .error u => (.ub u, i, m)
        | .ok m' => (.ok (), { i with pos := i.pos + count }, m')

/-- What an encoder does with its stream: it writes, and ends. All writes are that of
oct/src/encode/encode/mod.rs:854-867: a local array of octets is written and the result unwrapped. -/
inductive EncProg where
  | stop (r : Res EncErr Unit)
  | write (data : List Byte) (next : EncProg)

/-- What the program does in the model of streams as lists. -/
def EncProg.run : EncProg → Output → Res EncErr Unit × Output
  | .stop r, o => (r, o)
  | .write d p, o =>
    match o.write d with
    | (.ok (), o') => p.run o'
    | (.error _, o') => (.panic .shortOutput, o')

/-- What the program does in memory. The local array is in an allocation `a` of its own (a stack
frame), which is gone afterwards. -/
inductive EncProg.Raw : EncProg → RawOutput → Mem Byte → Res EncErr Unit → RawOutput → Mem Byte → Prop
  | stop (r : Res EncErr Unit) (o : RawOutput) (m : Mem Byte) : Raw (.stop r) o m r o m
  | write {d : List Byte} {p : EncProg} {o o1 o2 : RawOutput} {m m1 m2 : Mem Byte}
    {r : Res EncErr Unit} (a : Nat) : m a = none →
    o.write ⟨⟨a, 0⟩, d.length⟩ (m.alloc a (d.map some)) = (.ok (), o1, m1) →
    Raw p o1 (m1.free a) r o2 m2 → Raw (.write d p) o m r o2 m2
  | short {d : List Byte} {p : EncProg} {o o1 : RawOutput} {m m1 : Mem Byte} {e : OutputError}
    (a : Nat) : m a = none →
    o.write ⟨⟨a, 0⟩, d.length⟩ (m.alloc a (d.map some)) = (.err e, o1, m1) →
    Raw (.write d p) o m (.panic .shortOutput) o1 (m1.free a)
  | panic {d : List Byte} {p : EncProg} {o o1 : RawOutput} {m m1 : Mem Byte} {x : Panic}
    (a : Nat) : m a = none →
    o.write ⟨⟨a, 0⟩, d.length⟩ (m.alloc a (d.map some)) = (.panic x, o1, m1) →
    Raw (.write d p) o m (.panic x) o1 (m1.free a)
  | ub {d : List Byte} {p : EncProg} {o o1 : RawOutput} {m m1 : Mem Byte} {u : Ub}
    (a : Nat) : m a = none →
    o.write ⟨⟨a, 0⟩, d.length⟩ (m.alloc a (d.map some)) = (.ub u, o1, m1) →
    Raw (.write d p) o m (.ub u) o1 m1

/-- What a decoder does with its stream: it reads, either by `read` (strings:
oct/src/decode/decode/mod.rs:285, :708, oct/src/sized_str/code.rs:34) or by `read_into` a local array
(numbers: oct/src/decode/decode/mod.rs:826-827), goes on as the octets tell, and ends. -/
inductive DecProg (α : Type) where
  | stop (r : Res DecErr α)
  | read (n : Nat) (next : List Byte → DecProg α)
  | readInto (n : Nat) (next : List Byte → DecProg α)

/-- What the program does in the model of streams as lists. -/
def DecProg.run {α : Type} : DecProg α → Input → Res DecErr α × Input
  | .stop r, i => (r, i)
  | .read n p, i =>
    match i.read n with
    | (.ok d, i') => (p d).run i'
    | (.error _, i') => (.panic .shortInput, i')
  | .readInto n p, i =>
    match i.readInto (List.replicate n 0) with
    | (.ok (), d, i') => (p d).run i'
    | (.error _, _, i') => (.panic .shortInput, i')

/-- What the program does in memory. -/
inductive DecProg.Raw {α : Type} :
    DecProg α → RawInput → Mem Byte → Res DecErr α → RawInput → Mem Byte → Prop
  | stop (r : Res DecErr α) (i : RawInput) (m : Mem Byte) : Raw (.stop r) i m r i m
  | read {n : Nat} {p : List Byte → DecProg α} {i i1 i2 : RawInput} {m m2 : Mem Byte} {s : RawSlice}
    {d : List Byte} {r : Res DecErr α} : i.read n m = (.ok s, i1) → m.values s.ptr s.len = .ok d →
    Raw (p d) i1 m r i2 m2 → Raw (.read n p) i m r i2 m2
  | readShort {n : Nat} {p : List Byte → DecProg α} {i i1 : RawInput} {m : Mem Byte} {e : InputError} :
    i.read n m = (.err e, i1) → Raw (.read n p) i m (.panic .shortInput) i1 m
  | readPanic {n : Nat} {p : List Byte → DecProg α} {i i1 : RawInput} {m : Mem Byte} {x : Panic} :
    i.read n m = (.panic x, i1) → Raw (.read n p) i m (.panic x) i1 m
  | readUb {n : Nat} {p : List Byte → DecProg α} {i i1 : RawInput} {m : Mem Byte} {u : Ub} :
    i.read n m = (.ub u, i1) → Raw (.read n p) i m (.ub u) i1 m
  | readLost {n : Nat} {p : List Byte → DecProg α} {i i1 : RawInput} {m : Mem Byte} {s : RawSlice}
    {u : Ub} : i.read n m = (.ok s, i1) → m.values s.ptr s.len = .error u →
    Raw (.read n p) i m (.ub u) i1 m
  | readInto {n : Nat} {p : List Byte → DecProg α} {i i1 i2 : RawInput} {m m1 m2 : Mem Byte}
    {d : List Byte} {r : Res DecErr α} (a : Nat) : m a = none →
    i.readInto ⟨⟨a, 0⟩, n⟩ (m.alloc a (List.replicate n (some 0))) = (.ok (), i1, m1) →
    m1.values ⟨a, 0⟩ n = .ok d →
    Raw (p d) i1 (m1.free a) r i2 m2 → Raw (.readInto n p) i m r i2 m2
  | intoShort {n : Nat} {p : List Byte → DecProg α} {i i1 : RawInput} {m m1 : Mem Byte} {e : InputError}
    (a : Nat) : m a = none →
    i.readInto ⟨⟨a, 0⟩, n⟩ (m.alloc a (List.replicate n (some 0))) = (.err e, i1, m1) →
    Raw (.readInto n p) i m (.panic .shortInput) i1 (m1.free a)
  | intoPanic {n : Nat} {p : List Byte → DecProg α} {i i1 : RawInput} {m m1 : Mem Byte} {x : Panic}
    (a : Nat) : m a = none →
    i.readInto ⟨⟨a, 0⟩, n⟩ (m.alloc a (List.replicate n (some 0))) = (.panic x, i1, m1) →
    Raw (.readInto n p) i m (.panic x) i1 (m1.free a)
  | intoUb {n : Nat} {p : List Byte → DecProg α} {i i1 : RawInput} {m m1 : Mem Byte} {u : Ub}
    (a : Nat) : m a = none →
    i.readInto ⟨⟨a, 0⟩, n⟩ (m.alloc a (List.replicate n (some 0))) = (.ub u, i1, m1) →
    Raw (.readInto n p) i m (.ub u) i1 m1
  | intoLost {n : Nat} {p : List Byte → DecProg α} {i i1 : RawInput} {m m1 : Mem Byte} {u : Ub}
    (a : Nat) : m a = none →
    i.readInto ⟨⟨a, 0⟩, n⟩ (m.alloc a (List.replicate n (some 0))) = (.ok (), i1, m1) →
    m1.values ⟨a, 0⟩ n = .error u → Raw (.readInto n p) i m (.ub u) i1 m1

end Oct
