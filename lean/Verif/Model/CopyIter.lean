import Verif.Model.SizedSlice
/-
The iterator of sized slices for items that are plain data (`T: Copy`).

In `Verif.Model.SizedSlice` an item that was read out of the iterator's buffer counts as moved: its
cell is empty afterwards, and reading it again is undefined. So it is for items that own something.
For items that are `Copy`, `assume_init_read` (and `assume_init_drop`) leaves the item where it is,
and it may be read again. This file is the same iterator for such items; the operations that read
nothing out of the buffer (`as_slice`, `as_mut_slice`, `clone`, `size_hint`) are shared.
-/
namespace Oct

namespace SizedIter
variable {α : Type}

/-- `self.buf.get_unchecked(index).assume_init_read()` of a `Copy` item: the cell keeps it. -/
def peek {ε : Type} (cells : List (MaybeUninit α)) (index : Nat) : Res ε α :=
  match cells[index]? with
  | none => .ub .outOfBounds
  | some none => .ub .uninitRead
  | some (some a) => .ok a

/-- `SizedIter::next`: oct/src/sized_iter/mod.rs:134-145. -/
def nextCopy (it : SizedIter α) : Res Empty (Option α × SizedIter α) :=
  if it.len = 0 then .ok (none, it)
  else (peek it.buf it.pos).map fun a =>
    (some a, { buf := it.buf, pos := it.pos + 1, len := it.len - 1 })

/-- `SizedIter::next_back`: oct/src/sized_iter/mod.rs:113-124. -/
def nextBackCopy (it : SizedIter α) : Res Empty (Option α × SizedIter α) :=
  if it.len = 0 then .ok (none, it)
  else (peek it.buf (it.pos + it.len - 1)).map fun a =>
    (some a, { buf := it.buf, pos := it.pos, len := it.len - 1 })

/-- `SizedIter::nth`: oct/src/sized_iter/mod.rs:148-175. Dropping the skipped items (160-162) does
nothing, but asks that they are there. See `SizedIter.nth` for `checks` and for the range. -/
def nthCopy (checks : Bool) (it : SizedIter α) (index : Nat) :
    Res Empty (Option α × SizedIter α) :=
  if index > it.len then .ok (none, it)
  else
    let start := it.pos
    if start + index = 0 then (if checks then .panic .arithmeticOverflow else .ub .outOfBounds)
    else
      let stop := start + index - 1
      if start > stop ∨ stop > it.buf.length then .ub .outOfBounds
      else
        match initAll ((it.buf.drop start).take (stop - start)) with
        | some _ =>
          (peek it.buf index).map fun a =>
            (some a, { buf := it.buf, pos := it.pos + index, len := it.len - index })
        | none => .ub .uninitRead

end SizedIter
end Oct
