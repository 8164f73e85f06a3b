import Verif.Model.SizedSlice
/-
Ownership of the items of sized slices: which destructors run, and when. Each item that ever exists
has an identity (a number); a world records what the caller holds and the destructors that have run.

Neither `SizedSlice` nor `SizedIter` has a `Drop` impl, and `MaybeUninit` never drops its contents:
dropping either container runs no destructors (oct/src/sized_slice/mod.rs:73-76,
oct/src/sized_iter/mod.rs:31-36).

SIMPLIFICATIONS: one thread; `clone` of an item does not panic and makes one new item; arrays, boxed
slices and vectors are one kind of holder (each drops its items in order).
-/
namespace Oct

/-- What the caller can hold. -/
inductive Holder where
  /-- A single item. -/
  | item (x : Nat)
  /-- An array, a `Vec` or a boxed slice of items. -/
  | vec (l : List Nat)
  | slice (s : SizedSlice Nat)
  | iter (it : SizedIter Nat)
  deriving DecidableEq

/-- What the caller can do with one of the things held. -/
inductive OwnOp where
  /-- `SizedSlice::from_iter` on the items of a vector: oct/src/sized_slice/iter.rs:29-43. -/
  | collect (n : Nat)
  /-- `SizedSlice::new` (`TryFrom<&[T]>`) on a borrowed vector: oct/src/sized_slice/mod.rs:204-215. -/
  | new (n : Nat)
  /-- `From<[T; N]>`: oct/src/sized_slice/conv.rs:194-203. -/
  | fromArray
  /-- `Clone::clone` of either container: oct/src/sized_slice/mod.rs:218-232,
  oct/src/sized_iter/mod.rs:88-109. -/
  | clone
  /-- `into_iter`: oct/src/sized_slice/iter.rs:45-57. -/
  | intoIter
  /-- `next`: oct/src/sized_iter/mod.rs:134-145. -/
  | next
  /-- `next_back`: oct/src/sized_iter/mod.rs:113-124. -/
  | nextBack
  /-- `nth`: oct/src/sized_iter/mod.rs:148-175, with overflow checks. -/
  | nth (k : Nat)
  /-- `into_vec` or `into_boxed_slice` for items that are not zero-sized:
  oct/src/sized_slice/conv.rs:119-147. -/
  | intoVec
  /-- Looking at the items through a borrow (`as_slice`). -/
  | look
  /-- Dropping the thing. -/
  | drop
  deriving DecidableEq

/-- A step of the caller: making `k` items in a vector, decoding a sized slice of capacity `n`
(oct/src/sized_slice/code.rs:33-47), an operation on the thing at position `h`. -/
inductive OwnStep where
  | make (k : Nat)
  /-- A successful decoding with length `len`: all `n` cells are written. -/
  | decode (n len : Nat)
  /-- A decoding that fails after `k` items were decoded: `buf` goes out of scope. The same happens
  in `[T; N]::decode` (oct/src/decode/decode/mod.rs:133-138). -/
  | decodeFail (k : Nat)
  | op (h : Nat) (o : OwnOp)
  deriving DecidableEq

/-- The outcome of one operation on one thing. -/
structure Effect where
  /-- What the caller holds instead. -/
  held : List Holder
  /-- Items read, moved or dropped by the operation. -/
  used : List Nat := []
  /-- Destructors that run. -/
  dropped : List Nat := []
  /-- The next identity. -/
  fresh : Nat

/-- `k` items with new identities. -/
def newItems (fresh k : Nat) : List Nat := List.range' fresh k

/-- The values of an outcome that is not `ok`. -/
def Res.cast {ε α β : Type} (r : Res Empty α) (f : α → Res ε β) : Res ε β :=
  match r with
  | .ok a => f a
  | .panic p => .panic p
  | .ub u => .ub u

/-- Cells of which the first `l.length` hold the given items. -/
def cellsOf (n : Nat) (l : List Nat) : List (MaybeUninit Nat) :=
  SizedSlice.zipWrite (SizedSlice.uninit n) l

/-- One operation on one thing; an operation that the type of the thing does not have changes
nothing. -/
def OwnOp.apply (o : OwnOp) (x : Holder) (fresh : Nat) : Res Empty Effect :=
  match o, x with
  | .collect n, .vec l =>
    -- The items that `from_iter` does not ask for are dropped with the iterator.
    .ok { held := [.slice (SizedSlice.fromIter n l)], used := l, dropped := l.drop n, fresh := fresh }
  | .new n, .vec l =>
    match SizedSlice.new n (newItems fresh l.length) with
    | .ok s => .ok { held := [.slice s, .vec l], used := l, fresh := fresh + l.length }
    | .error _ => .ok { held := [.vec l], fresh := fresh }
  | .fromArray, .vec l =>
    -- `value` is copied, and dropped at the end of `from`.
    .ok { held := [.slice { buf := l.map some, len := l.length }], used := l, dropped := l,
          fresh := fresh }
  | .clone, .slice s =>
    (s.asSlice (ε := Empty)).cast fun l =>
      .ok { held :=
              [.slice { buf := cellsOf s.buf.length (newItems fresh l.length), len := s.len },
                .slice s],
            used := l, fresh := fresh + l.length }
  | .clone, .iter it =>
    it.asSlice.cast fun l =>
      .ok { held :=
              [.iter { buf := SizedSlice.uninit it.pos ++
                         cellsOf (it.buf.length - it.pos) (newItems fresh l.length),
                       pos := it.pos, len := it.len },
                .iter it],
            used := l, fresh := fresh + l.length }
  | .intoIter, .slice s => .ok { held := [.iter s.intoIter], fresh := fresh }
  | .next, .iter it =>
    it.next.cast fun r =>
      match r with
      | (none, it) => .ok { held := [.iter it], fresh := fresh }
      | (some a, it) => .ok { held := [.item a, .iter it], used := [a], fresh := fresh }
  | .nextBack, .iter it =>
    it.nextBack.cast fun r =>
      match r with
      | (none, it) => .ok { held := [.iter it], fresh := fresh }
      | (some a, it) => .ok { held := [.item a, .iter it], used := [a], fresh := fresh }
  | .nth k, .iter it =>
    (it.nth true k).cast fun r =>
      match r with
      | (none, it) => .ok { held := [.iter it], fresh := fresh }
      | (some a, it') =>
        .ok { held := [.item a, .iter it'], used := [a],
              dropped := ((it.buf.drop it.pos).take (k - 1)).filterMap id, fresh := fresh }
  | .intoVec, .slice s =>
    (s.intoVec (ε := Empty) 1).cast fun l => .ok { held := [.vec l], used := l, fresh := fresh }
  | .look, .slice s =>
    (s.asSlice (ε := Empty)).cast fun l => .ok { held := [.slice s], used := l, fresh := fresh }
  | .look, .iter it => it.asSlice.cast fun l => .ok { held := [.iter it], used := l, fresh := fresh }
  | .look, .vec l => .ok { held := [.vec l], used := l, fresh := fresh }
  | .look, .item a => .ok { held := [.item a], used := [a], fresh := fresh }
  | .drop, .item a => .ok { held := [], used := [a], dropped := [a], fresh := fresh }
  | .drop, .vec l => .ok { held := [], used := l, dropped := l, fresh := fresh }
  | .drop, .slice _ => .ok { held := [], fresh := fresh }
  | .drop, .iter _ => .ok { held := [], fresh := fresh }
  | _, x => .ok { held := [x], fresh := fresh }

/-- The state of the caller. -/
structure World where
  held : List Holder
  /-- The items whose destructors have run, in order. -/
  dropped : List Nat
  fresh : Nat
  deriving DecidableEq

/-- Nothing is held. -/
def World.empty : World := { held := [], dropped := [], fresh := 0 }

/-- One step. Using or dropping an item whose destructor has run is undefined; a position at which
nothing is held changes nothing. -/
def World.step (w : World) : OwnStep → Res Empty World
  | .make k =>
    .ok { w with held := .vec (newItems w.fresh k) :: w.held, fresh := w.fresh + k }
  | .decode n len =>
    if len > n then .ok w
    else .ok { w with
      held := .slice { buf := (newItems w.fresh n).map some, len := len } :: w.held
      fresh := w.fresh + n }
  | .decodeFail k => .ok { w with fresh := w.fresh + k }
  | .op h o =>
    match w.held[h]? with
    | none => .ok w
    | some x =>
      (o.apply x w.fresh).cast fun e =>
        if (e.used ++ e.dropped).any (· ∈ w.dropped) then .ub .uninitRead
        else .ok { held := e.held ++ w.held.eraseIdx h, dropped := w.dropped ++ e.dropped,
                   fresh := e.fresh }

/-- A history. -/
def World.run (w : World) : List OwnStep → Res Empty World
  | [] => .ok w
  | s :: ss => (w.step s).cast fun w => w.run ss

end Oct
