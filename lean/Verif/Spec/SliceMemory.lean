import Verif.Model.SliceMemory
/-
How sized slices, their iterators and boxed slices own memory.
-/
namespace Oct.Spec
open Oct

/-- The object in memory is the object as a value: its cells are all of an allocation. The items of a
sized slice are initialised, and what an iterator has left lies within its cells. -/
def ShowsObj {α : Type} (m : Mem α) : RawObj → SliceObj α → Prop
  | .slice s, .slice S => s.ptr.off = 0 ∧ m s.ptr.alloc = some S.buf ∧ s.cap = S.buf.length ∧
      s.len = S.len ∧ ∃ l, (S.asSlice : Res Empty (List α)) = .ok l
  | .iter it, .iter I => it.ptr.off = 0 ∧ m it.ptr.alloc = some I.buf ∧ it.cap = I.buf.length ∧
      it.pos = I.pos ∧ it.len = I.len ∧ I.pos + I.len ≤ I.buf.length
  | .boxed b, .boxed l => b.ptr.off = 0 ∧ m b.ptr.alloc = some (l.map some) ∧ b.len = l.length
  | _, _ => False

/-- The objects in memory are the objects `L`. No two have the same allocation, and apart from their
allocations memory is as it is in `base`, which has none of theirs. -/
structure ShowsSlices {α : Type} (base : Mem α) (h : SliceHeap α) (L : List (SliceObj α)) : Prop where
  length : h.objs.length = L.length
  shows_ : ∀ (i : Nat) (o : RawObj) (O : SliceObj α), h.objs[i]? = some o → L[i]? = some O →
    ShowsObj h.mem o O
  apart : ∀ (i j : Nat) (o o' : RawObj), i ≠ j → h.objs[i]? = some o → h.objs[j]? = some o' →
    o.alloc ≠ o'.alloc
  fresh : ∀ (i : Nat) (o : RawObj), h.objs[i]? = some o → base o.alloc = none
  rest : ∀ a, (∀ (i : Nat) (o : RawObj), h.objs[i]? = some o → o.alloc ≠ a) → h.mem a = base a

/-- What sized slices, iterators and boxed slices are for those who use them: lists, and a capacity. -/
inductive ListObj (α : Type) where
  | slice (n : Nat) (l : List α)
  | iter (l : List α)
  | boxed (l : List α)

/-- What the operations should do. `none` stands for what is not to be done: there is no such object, the
data to be copied do not fit, there is nothing to be boxed; and `nth`, which is wrong (C25). -/
def listStep {α : Type} : SliceOp α → List (ListObj α) → Option (SliceOut α × List (ListObj α))
  | .new n data, M =>
    if data.length ≤ n then some (.unit (.ok ()), M ++ [.slice n data])
    else some (.unit (.err { capacity := n, len := data.length }), M)
  | .fromIter n items, M => some (.unit (.ok ()), M ++ [.slice n (items.take n)])
  | .fromArray items, M => some (.unit (.ok ()), M ++ [.slice items.length items])
  | .default n, M => some (.unit (.ok ()), M ++ [.slice n []])
  | .asSlice i, M =>
    match M[i]? with
    | some (.slice _ l) => some (.items (.ok l), M)
    | some (.iter l) => some (.items (.ok l), M)
    | some (.boxed l) => some (.items (.ok l), M)
    | none => none
  | .copyData i data, M =>
    match M[i]? with
    | some (.slice n _) =>
      if data.length ≤ n then some (.unit (.ok ()), M.set i (.slice n data)) else none
    | _ => none
  | .copyFrom i j, M =>
    match M[i]?, M[j]? with
    | some (.slice n _), some (.slice _ data) =>
      if i ≠ j ∧ data.length ≤ n then some (.unit (.ok ()), M.set i (.slice n data)) else none
    | _, _ => none
  | .set i k v, M =>
    match M[i]? with
    | some (.slice n l) =>
      if k < l.length then some (.unit (.ok ()), M.set i (.slice n (l.set k v)))
      else some (.unit (.panic .indexOutOfBounds), M)
    | some (.iter l) =>
      if k < l.length then some (.unit (.ok ()), M.set i (.iter (l.set k v)))
      else some (.unit (.panic .indexOutOfBounds), M)
    | _ => none
  | .clone i, M =>
    match M[i]? with
    | some (.slice n l) => some (.unit (.ok ()), M ++ [.slice n l])
    | some (.iter l) => some (.unit (.ok ()), M ++ [.iter l])
    | _ => none
  | .refs i, M =>
    match M[i]? with
    | some (.slice _ l) => some (.items (.ok l), M)
    | _ => none
  | .setByRef i k v, M =>
    match M[i]? with
    | some (.slice n l) =>
      if k < l.length then some (.unit (.ok ()), M.set i (.slice n (l.set k v)))
      else some (.unit (.panic .indexOutOfBounds), M)
    | _ => none
  | .intoBoxed i, M =>
    match M[i]? with
    | some (.slice _ (v :: l)) => some (.unit (.ok ()), M.set i (.boxed (v :: l)))
    | _ => none
  | .intoIter i, M =>
    match M[i]? with
    | some (.slice _ l) => some (.unit (.ok ()), M.set i (.iter l))
    | _ => none
  | .next i, M =>
    match M[i]? with
    | some (.iter l) => some (.item (.ok l.head?), M.set i (.iter l.tail))
    | _ => none
  | .nextBack i, M =>
    match M[i]? with
    | some (.iter l) => some (.item (.ok l.getLast?), M.set i (.iter l.dropLast))
    | _ => none
  | .nth _ _, _ => none
  | .drop i, M => if i < M.length then some (.unit (.ok ()), M.eraseIdx i) else none

/-- Histories. -/
def listRun {α : Type} :
    List (SliceOp α) → List (ListObj α) → Option (List (SliceOut α) × List (ListObj α))
  | [], M => some ([], M)
  | op :: ops, M =>
    match listStep op M with
    | none => none
    | some (x, M1) =>
      match listRun ops M1 with
      | none => none
      | some (xs, M2) => some (x :: xs, M2)

/-- The cells of the object, and the list in them. -/
def HoldsList {α : Type} (m : Mem α) : RawObj → ListObj α → Prop
  | .slice s, .slice n l => ∃ c, m s.ptr.alloc = some c ∧ s.ptr.off = 0 ∧ c.length = n ∧ s.cap = n ∧
      s.len = l.length ∧ l.length ≤ n ∧ c.take l.length = l.map some
  | .iter it, .iter l => ∃ c, m it.ptr.alloc = some c ∧ it.ptr.off = 0 ∧ it.cap = c.length ∧
      it.len = l.length ∧ it.pos + l.length ≤ c.length ∧ (c.drop it.pos).take l.length = l.map some
  | .boxed b, .boxed l => m b.ptr.alloc = some (l.map some) ∧ b.ptr.off = 0 ∧ b.len = l.length
  | _, _ => False

/-- The objects in memory are these lists. Each has cells that nothing else has, and apart from these
memory is as it is in `base`. -/
structure HoldsLists {α : Type} (base : Mem α) (h : SliceHeap α) (M : List (ListObj α)) : Prop where
  length : h.objs.length = M.length
  holds : ∀ (i : Nat) (o : RawObj) (N : ListObj α), h.objs[i]? = some o → M[i]? = some N →
    HoldsList h.mem o N
  apart : ∀ (i j : Nat) (o o' : RawObj), i ≠ j → h.objs[i]? = some o → h.objs[j]? = some o' →
    o.alloc ≠ o'.alloc
  fresh : ∀ (i : Nat) (o : RawObj), h.objs[i]? = some o → base o.alloc = none
  rest : ∀ a, (∀ (i : Nat) (o : RawObj), h.objs[i]? = some o → o.alloc ≠ a) → h.mem a = base a

/-- What the program gets is undefined. -/
def UndefinedOut {α : Type} : SliceOut α → Prop
  | .unit r => ∃ u, r = .ub u
  | .items r => ∃ u, r = .ub u
  | .item r => ∃ u, r = .ub u

end Oct.Spec
