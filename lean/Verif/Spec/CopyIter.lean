import Verif.Spec.Deque
/-
Iterators over plain data: what they should do, and what the iterator of sized slices does.
-/
namespace Oct.Spec
variable {α : Type}

/-- Operations on one iterator. -/
inductive CopyOp (α : Type) where
  /-- `next()` -/
  | front
  /-- `next_back()` -/
  | back
  /-- `as_mut_slice()[i] = a` -/
  | set (i : Nat) (a : α)
  /-- `nth(k)` -/
  | nth (k : Nat)

/-- What the documentation of `Iterator` says: `nth(k)` consumes `k` items and the one after them,
which it returns. -/
def copyStep (l : List α) : CopyOp α → DequeOut α × List α
  | .front => (.item l.head?, l.tail)
  | .back => (.item l.getLast?, l.dropLast)
  | .set i a => if i < l.length then (.unit, l.set i a) else (.panicked, l)
  | .nth k => (.item l[k]?, l.drop (k + 1))

/-- A history of operations. -/
def copyRun (l : List α) : List (CopyOp α) → List (DequeOut α) × List α
  | [] => ([], l)
  | op :: ops =>
    let (out, l') := copyStep l op
    let (outs, l'') := copyRun l' ops
    (out :: outs, l'')

/-- What is really done: the iterator is a tape, a place on it, and a number of items from there on.
Nothing is ever taken off the tape. -/
structure Tape (α : Type) where
  items : List α
  place : Nat
  count : Nat

/-- The items that remain. -/
def Tape.left (t : Tape α) : List α := (t.items.drop t.place).take t.count

/-- One operation. `nth` counts its item from the start of the tape and not from the place, and stops
that many places further on, not behind the item. It is not defined for zero, nor if the tape has no
such item. -/
def tapeStep (t : Tape α) : CopyOp α → Option (DequeOut α × Tape α)
  | .front =>
    if t.count = 0 then some (.item none, t)
    else some (.item t.items[t.place]?, { t with place := t.place + 1, count := t.count - 1 })
  | .back =>
    if t.count = 0 then some (.item none, t)
    else some (.item t.items[t.place + t.count - 1]?, { t with count := t.count - 1 })
  | .set i a =>
    if i < t.count then some (.unit, { t with items := t.items.set (t.place + i) a })
    else some (.panicked, t)
  | .nth k =>
    if k > t.count then some (.item none, t)
    else if k = 0 ∨ t.items.length ≤ k then none
    else some (.item t.items[k]?, { t with place := t.place + k, count := t.count - k })

/-- A history of operations, if all of them are defined. -/
def tapeRun (t : Tape α) : List (CopyOp α) → Option (List (DequeOut α) × Tape α)
  | [] => some ([], t)
  | op :: ops =>
    match tapeStep t op with
    | some (out, t') => (tapeRun t' ops).map fun (outs, t'') => (out :: outs, t'')
    | none => none

end Oct.Spec
