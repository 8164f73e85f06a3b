/-
What a by-value, double-ended iterator should do: a list from which items are removed at both ends,
whose items can be replaced in place, and which can be copied.
-/
namespace Oct.Spec
variable {α : Type}

/-- Operations on the iterator. -/
inductive DequeOp (α : Type) where
  /-- `next()` -/
  | front
  /-- `next_back()` -/
  | back
  /-- `as_mut_slice()[i] = a` -/
  | set (i : Nat) (a : α)
  /-- Go on with `clone()`. -/
  | clone

/-- What an operation returns. -/
inductive DequeOut (α : Type) where
  | item (a : Option α)
  | unit
  /-- A panic, which is caught. -/
  | panicked
  deriving DecidableEq

/-- One operation. -/
def dequeStep (l : List α) : DequeOp α → DequeOut α × List α
  | .front => (.item l.head?, l.tail)
  | .back => (.item l.getLast?, l.dropLast)
  | .set i a => if i < l.length then (.unit, l.set i a) else (.panicked, l)
  | .clone => (.unit, l)

/-- A history of operations: what they return, and what is left. -/
def dequeRun (l : List α) : List (DequeOp α) → List (DequeOut α) × List α
  | [] => ([], l)
  | op :: ops =>
    let (out, l') := dequeStep l op
    let (outs, l'') := dequeRun l' ops
    (out :: outs, l'')

/-- The items returned by the `next()`s of a history, in order. -/
def fronts : List (DequeOp α) → List (DequeOut α) → List α
  | .front :: ops, .item (some a) :: outs => a :: fronts ops outs
  | _ :: ops, _ :: outs => fronts ops outs
  | _, _ => []

/-- The items returned by the `next_back()`s of a history, in order. -/
def backs : List (DequeOp α) → List (DequeOut α) → List α
  | .back :: ops, .item (some a) :: outs => a :: backs ops outs
  | _ :: ops, _ :: outs => backs ops outs
  | _, _ => []

end Oct.Spec
