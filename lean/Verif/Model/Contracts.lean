import Verif.Model.SizedStr
import Verif.Model.Slot
import Verif.Model.SlotMemory
/-
The unsafe functions of the crate, and programs that call them. Builds with and without debug
assertions are told apart (`debug`).
Files: oct/src/sized_slice/conv.rs, mod.rs, oct/src/sized_str/conv.rs, oct/src/slot/mod.rs,
oct/src/sized_iter/mod.rs.

SIMPLIFICATIONS: `blank` is what an uninitialised cell is as an item: nothing for most types, for which
looking at such a cell is undefined, and the uninitialised value for types that have one, as
`MaybeUninit` does. `usize` is unbounded.
-/
namespace Oct

namespace SizedSlice
variable {α : Type}

/-- `SizedSlice::from_raw_parts`: oct/src/sized_slice/conv.rs:53-57. -/
def fromRawParts (debug : Bool) (buf : List (MaybeUninit α)) (len : Nat) : Res Empty (SizedSlice α) :=
  if debug = true ∧ len > buf.length then .panic .debugAssertion else .ok { buf := buf, len := len }

/-- `SizedSlice::into_raw_parts`: oct/src/sized_slice/conv.rs:108-116. -/
def intoRawParts (s : SizedSlice α) : List (MaybeUninit α) × Nat := (s.buf, s.len)

/-- The cells as items of a type with this uninitialised value, if it has one. -/
def settle (blank : Option α) (s : SizedSlice α) : SizedSlice α :=
  { s with buf := s.buf.map fun c => c.or blank }

end SizedSlice

/-- `SizedIter::new`: oct/src/sized_iter/mod.rs:41-45. -/
def SizedIter.new {α : Type} (debug : Bool) (buf : List (MaybeUninit α)) (len : Nat) :
    Res Empty (SizedIter α) :=
  if debug = true ∧ len > buf.length then .panic .debugAssertion
  else .ok { buf := buf, pos := 0, len := len }

namespace SizedStr

/-- `SizedStr::from_raw_parts`: oct/src/sized_str/conv.rs:109-115. The array is read as one of cells,
and handed to `SizedSlice::from_raw_parts`. -/
def fromParts (debug : Bool) (buf : List Byte) (len : Nat) : Res Empty SizedStr :=
  if debug = true ∧ len > buf.length then .panic .debugAssertion
  else (SizedSlice.fromRawParts debug (buf.map some) len).map SizedStr.mk

/-- `SizedStr::from_utf8_unchecked`: oct/src/sized_str/conv.rs:85-95. The copy is undefined if it goes
past the array of `n` octets. -/
def fromOctets (debug : Bool) (n : Nat) (s : List Byte) : Res Empty SizedStr :=
  if debug = true ∧ s.length > n then .panic .debugAssertion
  else if s.length > n then .ub .outOfBounds
  else fromParts debug (s ++ (List.replicate n 0).drop s.length) s.length

/-- `SizedStr::as_str`: oct/src/sized_str/conv.rs:155-159. `none` is a `str` that is no text, with which
std's functions may do anything. -/
def asStr (s : SizedStr) : Res Empty (Option Str) :=
  (s.asBytes (ε := Empty)).map fun l => if h : Utf8.valid l = true then some ⟨l, h⟩ else none

end SizedStr

/-- `Slot::set_len_unchecked`: oct/src/slot/mod.rs:212-218. -/
def Slot.setLenUnchecked (debug : Bool) (s : Slot) (len : Nat) : Res Empty Slot :=
  if debug = true ∧ len > s.capacity then .panic .debugAssertion else .ok { s with len := len }

/-- What a program with unsafe code does with a sized slice: the unsafe functions, writing a cell
through `as_mut_ptr` (oct/src/sized_slice/conv.rs:75-77), and functions that are safe. -/
inductive UnsafeOp (α : Type) where
  | fromRawParts (buf : List (MaybeUninit α)) (len : Nat)
  | setLen (len : Nat)
  | writePtr (i : Nat) (a : α)
  | asSlice
  | set (i : Nat) (a : α)
  | copyFrom (data : List α)
  | clone
  | iter

namespace UnsafeOp
variable {α : Type}

/-- The sized slice is replaced, if the call returns. -/
def replace (s : SizedSlice α) : Res Empty (SizedSlice α) → Res Empty (List α) × SizedSlice α
  | .ok s' => (.ok [], s')
  | .err e => nomatch e
  | .panic p => (.panic p, s)
  | .ub u => (.ub u, s)

/-- One operation: what is seen of the items, and the sized slice afterwards. -/
def step (debug : Bool) (blank : Option α) (s : SizedSlice α) :
    UnsafeOp α → Res Empty (List α) × SizedSlice α
  | .fromRawParts buf len => replace s (SizedSlice.fromRawParts debug buf len)
  | .setLen len => replace s (s.setLen debug len)
  | .writePtr i a =>
    if i < s.buf.length then (.ok [], { s with buf := s.buf.set i (some a) })
    else (.ub .outOfBounds, s)
  | .asSlice => ((s.settle blank).asSlice, s)
  | .set i a => replace s ((s.settle blank).setIndex i a)
  | .copyFrom data => replace s (s.copyFromSlice data)
  | .clone => replace s (s.settle blank).clone
  | .iter =>
    match SizedIter.new debug (s.settle blank).buf s.len with
    | .ok it => (it.asSlice, s)
    | .err e => nomatch e
    | .panic p => (.panic p, s)
    | .ub u => (.ub u, s)

/-- A history. -/
def run (debug : Bool) (blank : Option α) : SizedSlice α → List (UnsafeOp α) → List (Res Empty (List α))
  | _, [] => []
  | s, op :: ops => (op.step debug blank s).1 :: run debug blank (op.step debug blank s).2 ops

end UnsafeOp
end Oct
