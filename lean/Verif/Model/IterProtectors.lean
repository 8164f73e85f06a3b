import Verif.Model.IterBorrows
import Verif.Model.Protectors
/-
What the iterator of sized slices does to the pointers to its memory, with the functions that it calls and their
arguments, which are protected as in Model/Protectors.

SIMPLIFICATIONS: those of Model/IterBorrows and Model/Protectors; a reference that a function returns only to be passed to
another one is made once, when it is passed.
-/
namespace Oct.Alias

namespace Place
variable (s : Place)

/-- `SizedIter::as_slice`: oct/src/sized_iter/mod.rs:49-58, with the call of the array's `as_ptr`. -/
def iterSliceP (pos len : Nat) (self : Nat) : Acts Nat :=
  calling .shared self s.whole fun self => do
    let ptr ← calling .shared self s.buf fun buf => lift (retag .shared buf s.buf)
    lift (read self s.head)
    lift (retag .shared ptr ⟨s.at_ + pos, len⟩)

/-- `SizedIter::as_mut_slice`: oct/src/sized_iter/mod.rs:62-71, with the call of the array's `as_mut_ptr`. -/
def iterMutSliceP (pos len : Nat) (self : Nat) : Acts Nat :=
  calling .excl self s.whole fun self => do
    let ptr ← calling .excl self s.buf fun buf => lift (retag .raw buf s.buf)
    lift (read self s.head)
    lift (retag .excl ptr ⟨s.at_ + pos, len⟩)

/-- `self.buf.get_unchecked(i).assume_init_read()`, which are two calls: oct/src/sized_iter/mod.rs:118, 139 and 169. -/
def iterTakeP (i : Nat) (self : Nat) : Acts Unit := do
  let buf ← calling .shared self s.buf fun buf => Acts.pure buf
  calling .shared buf ⟨s.at_ + i, 1⟩ fun item => lift (read item ⟨s.at_ + i, 1⟩)

/-- `SizedIter::next`, or `SizedIter::next_back`, of the `i`-th item of the buffer:
oct/src/sized_iter/mod.rs:113-123, 134-145. -/
def iterNextP (len i : Nat) (self : Nat) : Acts Unit :=
  calling .excl self s.whole fun self => do
    lift (read self s.head)
    if len = 0 then Acts.pure () else do
      s.iterTakeP i self
      lift (write self s.head)

/-- The loop of `nth`: oct/src/sized_iter/mod.rs:160-162. Each item is an argument of `assume_init_drop`. -/
def iterDropsP (iter : Nat) : Nat → Nat → Acts Unit
  | _, 0 => Acts.pure ()
  | pos, k + 1 => do
    calling .excl iter ⟨s.at_ + pos, 1⟩ fun item => lift (write item ⟨s.at_ + pos, 1⟩)
    iterDropsP iter (pos + 1) k

/-- `SizedIter::nth`: oct/src/sized_iter/mod.rs:148-175, with the calls of `get_unchecked_mut`, and of `into_iter` by the
loop. -/
def iterNthP (pos len index : Nat) (self : Nat) : Acts Unit :=
  calling .excl self s.whole fun self => do
    lift (read self s.head)
    if index > len then Acts.pure () else do
      let buf ← calling .excl self s.buf fun buf => Acts.pure buf
      let iter ← calling .excl buf ⟨s.at_ + pos, index - 1⟩ fun skipped =>
        lift (retag .raw skipped ⟨s.at_ + pos, index - 1⟩)
      s.iterDropsP iter pos (index - 1)
      s.iterTakeP index self
      lift (write self s.head)

/-- The loop of `clone`: oct/src/sized_iter/mod.rs:97-105, with the calls of `get_unchecked` and of the item's `clone`. -/
def iterClonesP (self : Nat) : Nat → Nat → Acts Unit
  | _, 0 => Acts.pure ()
  | pos, k + 1 => do
    let item ← calling .shared self s.buf fun buf => lift (retag .shared buf ⟨s.at_ + pos, 1⟩)
    calling .shared item ⟨s.at_ + pos, 1⟩ fun value => lift (read value ⟨s.at_ + pos, 1⟩)
    iterClonesP self (pos + 1) k

/-- `SizedIter::clone`: oct/src/sized_iter/mod.rs:90-108. -/
def iterCloneP (pos len : Nat) (self : Nat) : Acts Unit :=
  calling .shared self s.whole fun self => do
    lift (read self s.head)
    s.iterClonesP self pos len

/-- `SizedIter::size_hint`: oct/src/sized_iter/mod.rs:178-182. -/
def iterHintP (self : Nat) : Acts Unit :=
  calling .shared self s.whole fun self => lift (read self s.head)

end Place

/-- What a call does. -/
def IterCall.marks (s : Place) (c : Cursor) : IterCall → List Mark
  | .asSlice => (s.iterSliceP c.pos c.len ownerTag c.next).2.2
  | .asMutSlice => (s.iterMutSliceP c.pos c.len ownerTag c.next).2.2
  | .next => (s.iterNextP c.len c.pos ownerTag c.next).2.2
  | .nextBack => (s.iterNextP c.len (c.pos + c.len - 1) ownerTag c.next).2.2
  | .nth i => (s.iterNthP c.pos c.len i ownerTag c.next).2.2
  | .clone => (s.iterCloneP c.pos c.len ownerTag c.next).2.2
  | .sizeHint => (s.iterHintP ownerTag c.next).2.2
  | .get h i => match c.held[h]? with
    | some x => [.event (.read x.tag ⟨x.r.lo + i, 1⟩)]
    | none => []
  | .set h i => match c.held[h]? with
    | some x => [.event (.write x.tag ⟨x.r.lo + i, 1⟩)]
    | none => []

/-- What a program does. -/
def iterMarks (s : Place) : Cursor → List IterCall → List Mark
  | _, [] => []
  | c, x :: xs => x.marks s c ++ iterMarks s (x.go s c).1 xs

end Oct.Alias
