import Verif.Model.Memory
/-
How decoders build vectors, arrays and strings in memory: oct/src/decode/decode/mod.rs:126-152 (arrays),
278-305 (`CString`), 701-735 (`String`) and 781-805 (`Vec`). Line numbers without a file are those of
oct/src/decode/decode/mod.rs.

SIMPLIFICATIONS: as in Model/Memory. A cell is an item, whatever its size; nothing is allocated for a
capacity of zero. The terminating NUL that `CString::from_vec_unchecked` appends is not modelled.
-/
namespace Oct

/-- `Vec<T>`: pointer, length and capacity. -/
structure RawVec where
  ptr : Ptr
  len : Nat
  cap : Nat
  deriving DecidableEq

namespace RawVec
variable {α : Type}

/-- `Vec::with_capacity`; `a` is where the allocator puts the buffer. -/
def withCapacity (a cap : Nat) (m : Mem α) : RawVec × Mem α :=
  (⟨⟨a, 0⟩, 0, cap⟩, if cap = 0 then m else m.alloc a (List.replicate cap none))

/-- `Vec::set_len`: "`new_len` must be less than or equal to `capacity()`. The elements at
`old_len..new_len` must be initialized." -/
def setLen (v : RawVec) (len : Nat) (m : Mem α) : Except Ub RawVec :=
  if len ≤ v.cap then
    match m.values v.ptr len with
    | .ok _ => .ok { v with len := len }
    | .error u => .error u
  else .error .outOfBounds

/-- `Drop` of a vector of length zero: the buffer is given back. -/
def dropBuf (v : RawVec) (m : Mem α) : Mem α := if v.cap = 0 then m else m.free v.ptr.alloc

end RawVec

/-- `ptr.add(i).write(value)`: 797. The old contents of the cell are not dropped. -/
def Mem.writeAt {α : Type} (m : Mem α) (p : Ptr) (i : Nat) (v : α) : Except Ub (Mem α) :=
  match m.add p i with
  | .error u => .error u
  | .ok q =>
    match m.store q [some v] with
    | some m' => .ok m'
    | none => .error .outOfBounds

/-- The loop `for i in 0..len { let value = decode(input)?; buf.add(i).write(value) }` of 788-798, with
`n` items to go, and of 135-140 and oct/src/sized_slice/code.rs:39-44, where `iter_mut` gives the
cells. -/
def fillItems {α : Type} (dec : Dec α) (p : Ptr) :
    (n i : Nat) → Input → Mem α → Res DecErr Unit × Input × Mem α
  | 0, _, I, m => (.ok (), I, m)
  | n + 1, i, I, m =>
    match dec.mapErr (fun e => .badItem (.item i e)) I with
    | (.ok v, I1) =>
      match m.writeAt p i v with
      | .ok m1 => fillItems dec p n (i + 1) I1 m1
      | .error u => (.ub u, I1, m)
    | (.err e, I1) => (.err e, I1, m)
    | (.panic x, I1) => (.panic x, I1, m)
    | (.ub u, I1) => (.ub u, I1, m)

/-- `Vec::decode`: 781-805. A failing decoding drops the vector, whose length is still zero. -/
def rawVecDecode {α : Type} (dec : Dec α) (a : Nat) (I : Input) (m : Mem α) :
    Res DecErr RawVec × Input × Mem α :=
  match decUsize I with
  | (.ok len, I1) =>
    let (v, m1) := RawVec.withCapacity a len m
    match fillItems dec v.ptr len 0 I1 m1 with
    | (.ok (), I2, m2) =>
      match v.setLen len m2 with
      | .ok v' => (.ok v', I2, m2)
      | .error u => (.ub u, I2, m2)
    | (.err e, I2, m2) => (.err e, I2, v.dropBuf m2)
    | (.panic x, I2, m2) => (.panic x, I2, v.dropBuf m2)
    | (.ub u, I2, m2) => (.ub u, I2, m2)
  | (.err e, I1) => (.err e, I1, m)
  | (.panic x, I1) => (.panic x, I1, m)
  | (.ub u, I1) => (.ub u, I1, m)

/-- `[T; N]::decode`: 126-152. The buffer is a local array, gone afterwards. -/
def rawArrayDecode {α : Type} (dec : Dec α) (n a : Nat) (I : Input) (m : Mem α) :
    Res DecErr (List α) × Input × Mem α :=
  match fillItems dec ⟨a, 0⟩ n 0 I (m.alloc a (List.replicate n none)) with
  | (.ok (), I1, m1) =>
    match m1.values ⟨a, 0⟩ n with
    | .ok l => (.ok l, I1, m1.free a)
    | .error u => (.ub u, I1, m1)
  | (.err e, I1, m1) => (.err e, I1, m1.free a)
  | (.panic x, I1, m1) => (.panic x, I1, m1.free a)
  | (.ub u, I1, m1) => (.ub u, I1, m1)

/-- `SizedSlice::decode`: oct/src/sized_slice/code.rs:33-48. The cells are moved into the value as they
are (`MaybeUninit` cells need not be initialised for that). -/
def rawSizedDecode {α : Type} (dec : Dec α) (n a : Nat) (I : Input) (m : Mem α) :
    Res DecErr (SizedSlice α) × Input × Mem α :=
  match decUsize I with
  | (.ok len, I1) =>
    if len > n then (.err (.badLength (.length n len)), I1, m)
    else
      match fillItems dec ⟨a, 0⟩ n 0 I1 (m.alloc a (List.replicate n none)) with
      | (.ok (), I2, m2) =>
        match m2.load ⟨a, 0⟩ n with
        | some cells => (.ok ⟨cells, len⟩, I2, m2.free a)
        | none => (.ub .outOfBounds, I2, m2)
      | (.err e, I2, m2) => (.err e, I2, m2.free a)
      | (.panic x, I2, m2) => (.panic x, I2, m2.free a)
      | (.ub u, I2, m2) => (.ub u, I2, m2)
  | (.err e, I1) => (.err e, I1, m)
  | (.panic x, I1) => (.panic x, I1, m)
  | (.ub u, I1) => (.ub u, I1, m)

/-- `usize::decode`: 769-777 and 819-834, with a local array at `a`. -/
def rawUsize (a : Nat) (i : RawInput) (m : Mem Byte) : Res DecErr Nat × RawInput × Mem Byte :=
  match i.readInto ⟨⟨a, 0⟩, 2⟩ (m.alloc a (List.replicate 2 (some 0))) with
  | (.ok (), i1, m1) =>
    match m1.values ⟨a, 0⟩ 2 with
    | .ok d => (.ok (fromLe d), i1, m1.free a)
    | .error u => (.ub u, i1, m1)
  | (.err _, i1, m1) => (.panic .shortInput, i1, m1.free a)
  | (.panic x, i1, m1) => (.panic x, i1, m1.free a)
  | (.ub u, i1, m1) => (.ub u, i1, m1)

/-- `let mut v = Vec::with_capacity(len); copy_nonoverlapping(src, dst, len); v.set_len(len)`:
291-299 and 722-730. -/
def rawCopyVec (a : Nat) (s : RawSlice) (len : Nat) (m : Mem Byte) : Res DecErr RawVec × Mem Byte :=
  let (v, m1) := RawVec.withCapacity a len m
  match m1.copyNonoverlapping s.ptr v.ptr len with
  | .error u => (.ub u, m1)
  | .ok m2 =>
    match v.setLen len m2 with
    | .error u => (.ub u, m2)
    | .ok v' => (.ok v', m2)

/-- The part of `String::decode` (706-733) and `CString::decode` (284-302) after the length: `read`, a
test of the octets that may fail, and the copy. -/
def rawText (test : List Byte → Res DecErr Unit) (a len : Nat) (i : RawInput) (m : Mem Byte) :
    Res DecErr RawVec × RawInput × Mem Byte :=
  match i.read len m with
  | (.ok s, i1) =>
    match m.values s.ptr s.len with
    | .ok data =>
      match test data with
      | .ok () =>
        match rawCopyVec a s len m with
        | (r, m1) => (r, i1, m1)
      | .err e => (.err e, i1, m)
      | .panic x => (.panic x, i1, m)
      | .ub u => (.ub u, i1, m)
    | .error u => (.ub u, i1, m)
  | (.err _, i1) => (.panic .shortInput, i1, m)
  | (.panic x, i1) => (.panic x, i1, m)
  | (.ub u, i1) => (.ub u, i1, m)

/-- `if let Err(e) = str::from_utf8(data) { ..; let c = data[i]; return Err(..) }`: 710-720. -/
def testUtf8 (data : List Byte) : Res DecErr Unit :=
  match Utf8.check data with
  | none => .ok ()
  | some i =>
    match data[i]? with
    | some c => .err (.badItem (.utf8 c i))
    | none => .panic .indexOutOfBounds

/-- `for (i, c) in data.iter().enumerate() { if *c == b'\x00' { return Err(..) } }`: 287-289. -/
def testNul (data : List Byte) : Res DecErr Unit :=
  if 0 ∉ data then .ok () else .err (.cString (data.findIdx (· == 0)))

/-- `String::decode` (`test` is `testUtf8`) and `CString::decode` (`testNul`). -/
def rawTextDecode (test : List Byte → Res DecErr Unit) (a : Nat) (i : RawInput) (m : Mem Byte) :
    Res DecErr RawVec × RawInput × Mem Byte :=
  match rawUsize a i m with
  | (.ok len, i1, m1) => rawText test a len i1 m1
  | (.err e, i1, m1) => (.err e, i1, m1)
  | (.panic x, i1, m1) => (.panic x, i1, m1)
  | (.ub u, i1, m1) => (.ub u, i1, m1)

end Oct
