import Verif.Model.Memory
/-
Slots in memory: oct/src/slot/mod.rs. A program has any number of slots; each owns an allocation
(`Box<[u8]>`), or none if its capacity is zero.

SIMPLIFICATION: the type parameter of a slot is an argument of the operations that use it; which slice
is borrowed when is what the borrow checker of Rust says: the source of `copy_from_slice` is not the
slot itself.
-/
namespace Oct

/-- `Slot`: oct/src/slot/mod.rs:69-74. -/
structure RawSlot where
  buf : RawSlice
  len : Nat
  deriving DecidableEq

namespace RawSlot

/-- `Slot::with_capacity`: oct/src/slot/mod.rs:85-94. `a` is where the allocator puts the buffer;
nothing is allocated for a capacity of zero. -/
def withCapacity (a cap : Nat) (m : Mem Byte) : RawSlot × Mem Byte :=
  (⟨⟨⟨a, 0⟩, cap⟩, 0⟩, if cap = 0 then m else m.alloc a (List.replicate cap (some 0)))

/-- `Slot::from_raw_parts`: oct/src/slot/mod.rs:103-119. -/
def fromRawParts (ptr : Ptr) (cap len : Nat) : RawSlot := ⟨⟨ptr, cap⟩, len⟩

/-- `Slot::as_slice`: oct/src/slot/mod.rs:143-146. -/
def asSlice (s : RawSlot) (m : Mem Byte) : Res Empty (List Byte) :=
  match m.values s.buf.ptr s.len with
  | .ok l => .ok l
  | .error u => .ub u

/-- `Slot::copy_from_slice`: oct/src/slot/mod.rs:166-183. -/
def copyFromSlice (s : RawSlot) (data : RawSlice) (m : Mem Byte) : Res Empty Unit × RawSlot × Mem Byte :=
  if data.len ≤ s.buf.len then
    match m.copyNonoverlapping data.ptr s.buf.ptr data.len with
    | .ok m' => (.ok (), { s with len := data.len }, m')
    | .error u => (.ub u, s, m)
  else (.panic .assertion, s, m)

/-- `Slot::set_len`: oct/src/slot/mod.rs:195-200. -/
def setLen (s : RawSlot) (len : Nat) : Res Empty Unit × RawSlot :=
  if len ≤ s.buf.len then (.ok (), { s with len := len }) else (.panic .assertion, s)

/-- Assignment of one octet through `as_mut_slice` (oct/src/slot/mod.rs:155-158): the index is checked
against the capacity, and the octet is stored. -/
def setByte (s : RawSlot) (i : Nat) (b : Byte) (m : Mem Byte) : Res Empty Unit × Mem Byte :=
  if i < s.buf.len then
    match m.add s.buf.ptr i with
    | .error u => (.ub u, m)
    | .ok p =>
      match m.store p [some b] with
      | some m' => (.ok (), m')
      | none => (.ub .outOfBounds, m)
  else (.panic .indexOutOfBounds, m)

/-- `Drop` of the `Box`: the allocation is given back, if there is one. It must be alive, and have the
size and start that it was made with (`dealloc`). -/
def drop (s : RawSlot) (m : Mem Byte) : Except Ub (Mem Byte) :=
  if s.buf.len = 0 then .ok m
  else
    match m s.buf.ptr.alloc with
    | none => .error .outOfBounds
    | some c =>
      if s.buf.ptr.off = 0 ∧ c.length = s.buf.len then .ok (m.free s.buf.ptr.alloc)
      else .error .outOfBounds

end RawSlot

/-- What a program does with its slots, numbered in the order of their making (those that are dropped
excepted). -/
inductive HeapOp where
  | new (cap : Nat)
  | copyData (i : Nat) (data : List Byte)
  | copyFrom (i j : Nat)
  | setLen (i len : Nat)
  | setByte (i k : Nat) (b : Byte)
  | write (i : Nat) (t : Ty) (v : t.Val)
  | read (i : Nat) (t : Ty)
  | asSlice (i : Nat)
  | drop (i : Nat)

/-- What the program gets. -/
inductive HeapOut where
  | unit (r : Res Empty Unit)
  | enc (r : Res EncErr Unit)
  | dec (t : Ty) (r : Res DecErr t.Val)
  | bytes (r : Res Empty (List Byte))

/-- The program's slots, and memory. -/
structure SlotHeap where
  slots : List RawSlot
  mem : Mem Byte

/-- Memory, as the operations change it. Where memory is taken for a while, any allocation that is not
alive may be it. -/
inductive HeapOp.Raw : HeapOp → SlotHeap → HeapOut → SlotHeap → Prop
  | new {cap : Nat} {l : List RawSlot} {m : Mem Byte} (a : Nat) : m a = none →
    Raw (.new cap) ⟨l, m⟩ (.unit (.ok ()))
      ⟨l ++ [(RawSlot.withCapacity a cap m).1], (RawSlot.withCapacity a cap m).2⟩
  | copyData {i : Nat} {d : List Byte} {l : List RawSlot} {m m' : Mem Byte} {s s' : RawSlot}
    {r : Res Empty Unit} (a : Nat) : l[i]? = some s → m a = none →
    s.copyFromSlice ⟨⟨a, 0⟩, d.length⟩ (m.alloc a (d.map some)) = (r, s', m') →
    Raw (.copyData i d) ⟨l, m⟩ (.unit r) ⟨l.set i s', m'.free a⟩
  | copyFrom {i j : Nat} {l : List RawSlot} {m m' : Mem Byte} {s s' q : RawSlot}
    {r : Res Empty Unit} : i ≠ j → l[i]? = some s → l[j]? = some q →
    s.copyFromSlice ⟨q.buf.ptr, q.len⟩ m = (r, s', m') →
    Raw (.copyFrom i j) ⟨l, m⟩ (.unit r) ⟨l.set i s', m'⟩
  | setLen {i len : Nat} {l : List RawSlot} {m : Mem Byte} {s : RawSlot} : l[i]? = some s →
    Raw (.setLen i len) ⟨l, m⟩ (.unit (s.setLen len).1) ⟨l.set i (s.setLen len).2, m⟩
  | setByte {i k : Nat} {b : Byte} {l : List RawSlot} {m : Mem Byte} {s : RawSlot} : l[i]? = some s →
    Raw (.setByte i k b) ⟨l, m⟩ (.unit (s.setByte k b m).1) ⟨l, (s.setByte k b m).2⟩
  | write {i : Nat} {t : Ty} {v : t.Val} {l : List RawSlot} {m m' : Mem Byte} {s : RawSlot}
    {p : EncProg} {o : RawOutput} : l[i]? = some s → (∀ O, p.run O = t.encode v O) →
    EncProg.Raw p ⟨s.buf, 0⟩ m (.ok ()) o m' →
    Raw (.write i t v) ⟨l, m⟩
      (.enc (match (s.setLen o.pos).1 with | .ok () => .ok () | _ => .panic .assertion))
      ⟨l.set i (s.setLen o.pos).2, m'⟩
  | writeFails {i : Nat} {t : Ty} {v : t.Val} {l : List RawSlot} {m m' : Mem Byte} {s : RawSlot}
    {p : EncProg} {o : RawOutput} {r : Res EncErr Unit} : l[i]? = some s →
    (∀ O, p.run O = t.encode v O) → EncProg.Raw p ⟨s.buf, 0⟩ m r o m' → r ≠ .ok () →
    Raw (.write i t v) ⟨l, m⟩ (.enc r) ⟨l, m'⟩
  | read {i : Nat} {t : Ty} {l : List RawSlot} {m m' : Mem Byte} {s : RawSlot}
    {p : DecProg t.Val} {I : RawInput} {r : Res DecErr t.Val} : l[i]? = some s →
    (∀ I, p.run I = t.decode I) → DecProg.Raw p ⟨s.buf, 0⟩ m r I m' →
    Raw (.read i t) ⟨l, m⟩ (.dec t r) ⟨l, m'⟩
  | asSlice {i : Nat} {l : List RawSlot} {m : Mem Byte} {s : RawSlot} : l[i]? = some s →
    Raw (.asSlice i) ⟨l, m⟩ (.bytes (s.asSlice m)) ⟨l, m⟩
  | drop {i : Nat} {l : List RawSlot} {m m' : Mem Byte} {s : RawSlot} : l[i]? = some s →
    s.drop m = .ok m' → Raw (.drop i) ⟨l, m⟩ (.unit (.ok ())) ⟨l.eraseIdx i, m'⟩
  | dropUb {i : Nat} {l : List RawSlot} {m : Mem Byte} {s : RawSlot} {u : Ub} : l[i]? = some s →
    s.drop m = .error u → Raw (.drop i) ⟨l, m⟩ (.unit (.ub u)) ⟨l, m⟩

/-- Histories in memory. -/
inductive HeapOp.RawRun : List HeapOp → SlotHeap → List HeapOut → SlotHeap → Prop
  | nil (h : SlotHeap) : RawRun [] h [] h
  | cons {op : HeapOp} {ops : List HeapOp} {h h1 h2 : SlotHeap} {x : HeapOut} {xs : List HeapOut} :
    HeapOp.Raw op h x h1 → RawRun ops h1 xs h2 → RawRun (op :: ops) h (x :: xs) h2

/-- What the operation is with slots as values: `Model/Slot.lean`. -/
def HeapOp.step : HeapOp → List Slot → Option (HeapOut × List Slot)
  | .new cap, l => some (.unit (.ok ()), l ++ [Slot.withCapacity cap])
  | .copyData i d, l => l[i]?.map fun s => (.unit (s.copyFromSlice d).1, l.set i (s.copyFromSlice d).2)
  | .copyFrom i j, l =>
    if i = j then none
    else
      match l[i]?, l[j]? with
      | some s, some q =>
        match q.asSlice with
        | .ok d => some (.unit (s.copyFromSlice d).1, l.set i (s.copyFromSlice d).2)
        | _ => none
      | _, _ => none
  | .setLen i n, l => l[i]?.map fun s => (.unit (s.setLen n).1, l.set i (s.setLen n).2)
  | .setByte i k b, l => l[i]?.map fun s => (.unit (s.setByte k b).1, l.set i (s.setByte k b).2)
  | .write i t v, l => l[i]?.map fun s => (.enc (s.write t v).1, l.set i (s.write t v).2)
  | .read i t, l => l[i]?.map fun s => (.dec t (s.read t), l)
  | .asSlice i, l => l[i]?.map fun s => (.bytes s.asSlice, l)
  | .drop i, l => l[i]?.map fun _ => (.unit (.ok ()), l.eraseIdx i)

/-- Histories with slots as values. -/
def HeapOp.steps : List HeapOp → List Slot → Option (List HeapOut × List Slot)
  | [], l => some ([], l)
  | op :: ops, l =>
    match op.step l with
    | none => none
    | some (x, l') =>
      match steps ops l' with
      | none => none
      | some (xs, l'') => some (x :: xs, l'')

end Oct
