import Verif.Model.Slot
import Verif.Model.SizedStr
/-
Slots, sized slices and sized strings as slices: indexing by positions and ranges, assignment through
mutable borrows, and comparisons.
-/
namespace Oct

/-- What implements `SliceIndex`: `usize` and the ranges. SIMPLIFICATION: pairs of bounds are left out;
an item is treated as the slice of it; a `RangeInclusive` is not exhausted. -/
inductive Ix where
  | at (i : Nat)
  | range (a b : Nat)
  | inclusive (a b : Nat)
  | from (a : Nat)
  | to (b : Nat)
  | toInclusive (b : Nat)
  | full

/-- `SliceIndex::get` of std, for a slice of `len` items: where the part begins and ends. -/
def Ix.window (len : Nat) : Ix → Option (Nat × Nat)
  | .at i => if i < len then some (i, i + 1) else none
  | .range a b => if a ≤ b ∧ b ≤ len then some (a, b) else none
  | .inclusive a b => if a ≤ b + 1 ∧ b + 1 ≤ len then some (a, b + 1) else none
  | .from a => if a ≤ len then some (a, len) else none
  | .to b => if b ≤ len then some (0, b) else none
  | .toInclusive b => if b + 1 ≤ len then some (0, b + 1) else none
  | .full => some (0, len)

/-- `get(ix).unwrap()` of a slice. -/
def getPart {ε α : Type} (l : List α) (ix : Ix) : Res ε (List α) :=
  match ix.window l.length with
  | some (a, b) => .ok ((l.drop a).take (b - a))
  | none => .panic .indexOutOfBounds

/-- `get_mut(ix).unwrap().copy_from_slice(data)` of a slice; every change through a mutable borrow is
such a copy. -/
def setPart {ε α : Type} (l : List α) (ix : Ix) (data : List α) : Res ε (List α) :=
  match ix.window l.length with
  | some (a, b) => if data.length = b - a then .ok (l.take a ++ data ++ l.drop b) else .panic .assertion
  | none => .panic .indexOutOfBounds

/-- `Index::index` of a slot: oct/src/slot/mod.rs:388-395. `get` is that of `Deref` (369-377), so of
`as_slice`. -/
def Slot.indexBy (s : Slot) (ix : Ix) : Res Empty (List Byte) :=
  match s.asSlice with
  | .ok l => getPart l ix
  | .err e => .err e
  | .panic p => .panic p
  | .ub u => .ub u

/-- `slot[ix].copy_from_slice(data)`, by `IndexMut::index_mut`: oct/src/slot/mod.rs:397-403. `get_mut` is
that of `DerefMut` (379-385), so of `as_mut_slice` (155-158): the whole buffer. -/
def Slot.assignBy (s : Slot) (ix : Ix) (data : List Byte) : Res Empty Unit × Slot :=
  match (setPart s.buf ix data : Res Empty _) with
  | .ok buf => (.ok (), { s with buf := buf })
  | .err e => (.err e, s)
  | .panic p => (.panic p, s)
  | .ub u => (.ub u, s)

/-- `PartialEq` of a slot with a slice: oct/src/slot/mod.rs:405-427. -/
def Slot.eqSlice (s : Slot) (other : List Byte) : Res Empty Bool :=
  s.asSlice.map fun l => SizedSlice.eqSlice (· == ·) l other

/-- `Index::index` of a sized slice: oct/src/sized_slice/mod.rs:263-270. -/
def SizedSlice.indexBy {ε α : Type} (s : SizedSlice α) (ix : Ix) : Res ε (List α) :=
  match s.asSlice (ε := ε) with
  | .ok l => getPart l ix
  | .err e => .err e
  | .panic p => .panic p
  | .ub u => .ub u

/-- `slice[ix].copy_from_slice(data)`, by `IndexMut::index_mut` (oct/src/sized_slice/mod.rs:272-277) of
`as_mut_slice` (conv.rs:96-101): the first `len` cells. -/
def SizedSlice.assignBy {ε α : Type} (s : SizedSlice α) (ix : Ix) (data : List α) :
    Res ε (SizedSlice α) :=
  match s.asSlice (ε := ε) with
  | .ok l => (setPart l ix data).map fun l' => { s with buf := l'.map some ++ s.buf.drop s.len }
  | .err e => .err e
  | .panic p => .panic p
  | .ub u => .ub u

/-- `str::is_char_boundary` of std. -/
def charBoundary (l : List Byte) (i : Nat) : Bool :=
  if i = 0 ∨ i = l.length then true
  else
    match l[i]? with
    | some b => b.toNat < 0x80 || 0xC0 ≤ b.toNat
    | none => false

/-- `SliceIndex<str>::get` of std: as for slices, but between chars; and there is none for `usize`. -/
def Ix.strWindow (l : List Byte) : Ix → Option (Nat × Nat)
  | .at _ => none
  | ix =>
    match ix.window l.length with
    | some (a, b) => if charBoundary l a && charBoundary l b then some (a, b) else none
    | none => none

/-- `Index::index` of a sized string: oct/src/sized_str/mod.rs:187-194. -/
def SizedStr.indexBy {ε : Type} (s : SizedStr) (ix : Ix) : Res ε (List Byte) :=
  match s.asBytes (ε := ε) with
  | .ok l =>
    match ix.strWindow l with
    | some (a, b) => .ok ((l.drop a).take (b - a))
    | none => .panic .indexOutOfBounds
  | .err e => .err e
  | .panic p => .panic p
  | .ub u => .ub u

/-- Mutation of a part of a sized string by `IndexMut::index_mut` (oct/src/sized_str/mod.rs:196-201):
safe code can change the part to a text of as many octets; `None` if it is not that. -/
def SizedStr.assignBy (s : SizedStr) (ix : Ix) (text : Str) : Option (Res Empty SizedStr) :=
  match s.asBytes (ε := Empty) with
  | .ok l =>
    match ix.strWindow l with
    | some (a, b) =>
      if text.val.length = b - a then
        some (.ok ⟨⟨(l.take a ++ text.val ++ l.drop b).map some
          ++ s.inner.buf.drop s.inner.len, s.inner.len⟩⟩)
      else none
    | none => some (.panic .indexOutOfBounds)
  | .err e => some (.err e)
  | .panic p => some (.panic p)
  | .ub u => some (.ub u)

/-- `PartialEq` between outputs: oct/src/encode/output/mod.rs:130-135. -/
def Output.eq (a b : Output) : Bool := SizedSlice.eqSlice (· == ·) a.asSlice b.asSlice

/-- `PartialEq` of an output with a slice: oct/src/encode/output/mod.rs:137-156; `AsRef` and `Borrow`
(116-128) are `as_slice`. -/
def Output.eqSlice (a : Output) (b : List Byte) : Bool := SizedSlice.eqSlice (· == ·) a.asSlice b

end Oct
