import Verif.Model.CopyIter
/-
What programs do with the iterator of a sized slice (oct/src/sized_iter/mod.rs), and what the consumers and
adapters of std do with it, whose own calls of the iterator are written down here as they are in std (alloc
and core of Rust 1.85). There `nth` and `size_hint` are called where nobody has written them: `collect` into
a `Vec` asks `size_hint`, `skip` and `step_by` call `nth`.

SIMPLIFICATIONS: closures neither panic nor keep a state of their own; specialisations of std for its own
iterators do not apply to this one (it is neither `TrustedLen` nor `InPlaceIterable`), so they are left out.
-/
namespace Oct

/-- A program that uses an iterator over `α`, what it does next depending on what it is given, until it
ends with a value. -/
inductive Uses (α β : Type) where
  | done (b : β)
  /-- `next` -/
  | front (k : Option α → Uses α β)
  /-- `next_back` -/
  | back (k : Option α → Uses α β)
  /-- `nth(n)` -/
  | nth (n : Nat) (k : Option α → Uses α β)
  /-- `size_hint`, or `len` of `ExactSizeIterator`: the lower bound, which is also the upper one. -/
  | hint (k : Nat → Uses α β)

namespace Uses
variable {α β : Type}

/-- The program goes on with what a call gave, unless it gave nothing. -/
def andThen {γ δ : Type} (r : Res Empty γ) (f : γ → Res Empty δ) : Res Empty δ :=
  match r with
  | .ok x => f x
  | .err e => .err e
  | .panic p => .panic p
  | .ub u => .ub u

/-- Using the iterator of a sized slice, of items that are plain data or of others
(oct/src/sized_iter/mod.rs:111-183; `checks` as in `SizedIter.nth`). -/
def run (plain checks : Bool) : Uses α β → SizedIter α → Res Empty β
  | .done b, _ => .ok b
  | .front k, it => andThen (if plain then it.nextCopy else it.next) fun r => run plain checks (k r.1) r.2
  | .back k, it =>
    andThen (if plain then it.nextBackCopy else it.nextBack) fun r => run plain checks (k r.1) r.2
  | .nth n k, it =>
    andThen (if plain then it.nthCopy checks n else it.nth checks n) fun r => run plain checks (k r.1) r.2
  | .hint k, it => andThen it.sizeHint fun n => run plain checks (k n) it

/-- `for item in iter`, and `fold`, `for_each`, `count`, `last`: `next` until it gives nothing. `fuel` is a
number of calls after which the program would stop; the iterator is over before. The items are kept in
order. -/
def each (fuel : Nat) (acc : List α) : Uses α (List α) :=
  match fuel with
  | 0 => .done acc
  | fuel + 1 => .front fun
    | none => .done acc
    | some a => each fuel (acc ++ [a])

/-- `Vec::extend_desugared` of std, for a vector with the items `acc` and space for `cap`:
`while let Some(element) = iterator.next()`, and if there is no space left,
`self.reserve(iterator.size_hint().0.saturating_add(1))`. `grant n` is the space there is after asking for
that of `n` items. -/
def pushAll (grant : Nat → Nat) (fuel : Nat) (cap : Nat) (acc : List α) : Uses α (List α) :=
  match fuel with
  | 0 => .done acc
  | fuel + 1 => .front fun
    | none => .done acc
    | some a =>
      if acc.length = cap then
        .hint fun lower => pushAll grant fuel (grant (max (2 * cap) (acc.length + (lower + 1)))) (acc ++ [a])
      else pushAll grant fuel cap (acc ++ [a])

/-- `Vec::from_iter` of std (`SpecFromIterNested::from_iter`), and so `collect::<Vec<_>>()`: the first item,
then `size_hint` for the capacity, which is at least `least` (`RawVec::MIN_NON_ZERO_CAP`: eight for items of
one octet, one for items of more than 1024, else four), then `extend_desugared`. -/
def collect (least : Nat) (grant : Nat → Nat) (fuel : Nat) : Uses α (List α) :=
  .front fun
    | none => .done []
    | some a => .hint fun lower => pushAll grant fuel (grant (max least (lower + 1))) [a]

/-- `String::extend`, `HashMap::extend` and others of std: `size_hint` first, then `for_each`. -/
def extend (fuel : Nat) : Uses α (List α) := .hint fun _ => each fuel []

/-- `nth_back(n)` as std defines it: `n` items are taken from the back and dropped. -/
def nthBack (n : Nat) (k : Option α → Uses α β) : Uses α β :=
  match n with
  | 0 => .back k
  | n + 1 => .back fun
    | none => k none
    | some _ => nthBack n k

/-- `iter.rev()`, used by a program. -/
def rev : Uses α β → Uses α β
  | .done b => .done b
  | .front k => .back fun x => (k x).rev
  | .back k => .front fun x => (k x).rev
  | .nth n k => nthBack n fun x => (k x).rev
  | .hint k => .hint fun n => (k n).rev

/-- `iter.skip(n)`, used by a program: `Skip::next` calls `nth(n)` the first time. -/
def skip : Nat → Uses α β → Uses α β
  | _, .done b => .done b
  | 0, .front k => .front fun x => (k x).skip 0
  | n + 1, .front k => .nth (n + 1) fun x => (k x).skip 0
  | n, .back k => .hint fun len => if len - n > 0 then .back fun x => (k x).skip n else (k none).skip n
  | 0, .nth m k => .nth m fun x => (k x).skip 0
  | n + 1, .nth m k => .nth (n + 1 + m) fun x => (k x).skip 0
  | n, .hint k => .hint fun len => (k (len - n)).skip n

/-- `for item in iter.step_by(step + 1)`: `StepBy::next` calls `nth(0)` the first time, then `nth(step)`. -/
def stepBy (step : Nat) (first : Bool) (fuel : Nat) (acc : List α) : Uses α (List α) :=
  match fuel with
  | 0 => .done acc
  | fuel + 1 => .nth (if first then 0 else step) fun
    | none => .done acc
    | some a => stepBy step false fuel (acc ++ [a])

end Uses
end Oct
