import Verif.Model.Basic
/-
Which pointers may still be used: the two models that there are of Rust's aliasing rules, and what the crate's
methods that turn references into pointers and back do to them.

Rust has not settled its aliasing rules. `Stacked` is "Stacked Borrows" (Jung, Dang, Kang, Dreyer: Stacked Borrows: An
Aliasing Model for Rust, POPL 2020), which Miri goes by unless told otherwise; `Tree` is "Tree Borrows" (Villani,
Hostert, Dreyer, Jung: Tree Borrows, PLDI 2025). Both give each pointer a tag, follow for each location what tags may
still be used there, and call the use of others undefined. Tags are numbers here, and locations, too.

SIMPLIFICATIONS: one thread; reborrows that directly follow one another and are of the same memory (as when a
reference that was just made is passed to a function) are taken for one; protectors (which forbid that arguments are
invalidated while the call lasts) are left out (they are added in Model/Protectors); what is behind a shared reference has no `UnsafeCell` in it; under Tree
Borrows, a pointer may be used only in the memory that it was made for (really, it may be used around it, too). An item
is one location, and a sized slice is `N` items followed by its length (rustc may choose another order).
-/
namespace Oct.Alias

/-- What a pointer is made as. -/
inductive Kind where
  /-- `&mut T` -/
  | excl
  /-- `&T`, and `*const T` made of one -/
  | shared
  /-- `*mut T` made of a `&mut T` -/
  | raw

/-- `size` locations. -/
structure Region where
  lo : Nat
  size : Nat

/-- The location is in the region. -/
def Region.has (r : Region) (l : Nat) : Bool := decide (r.lo ≤ l) && decide (l < r.lo + r.size)

/-- What happens to memory, as far as aliasing is concerned. -/
inductive Event where
  /-- A pointer is made of another one. -/
  | retag (k : Kind) (parent new : Nat) (r : Region)
  | read (t : Nat) (r : Region)
  | write (t : Nat) (r : Region)

/-- Aliasing rules, for one location: nothing is the result if the behaviour is undefined. -/
structure Rules (σ : Type) where
  /-- Only the owner may be used. -/
  start : Nat → σ
  read : Nat → σ → Option σ
  write : Nat → σ → Option σ
  retag : Kind → Nat → Nat → σ → Option σ

/-- What an event does at one location. -/
def Event.act {σ : Type} (R : Rules σ) (l : Nat) : Event → σ → Option σ
  | .retag k p q r, s => if r.has l then R.retag k p q s else some s
  | .read t r, s => if r.has l then R.read t s else some s
  | .write t r, s => if r.has l then R.write t s else some s

/-- What events do at one location. -/
def runAt {σ : Type} (R : Rules σ) (l : Nat) : List Event → σ → Option σ
  | [], s => some s
  | e :: es, s => (e.act R l s).bind (runAt R l es)

/-! Stacked Borrows. -/

inductive Perm where
  | unique
  | sharedRW
  | sharedRO
  | disabled
  deriving DecidableEq

structure Item where
  tag : Nat
  perm : Perm

/-- The first item that satisfies `p`, with what is above and below it. -/
def cut (p : Item → Bool) : List Item → Option (List Item × Item × List Item)
  | [] => none
  | i :: s => if p i then some ([], i, s) else (cut p s).map fun q => (i :: q.1, q.2)

/-- The item allows its tag to read. -/
def Item.reads (t : Nat) (i : Item) : Bool := decide (i.tag = t) && decide (i.perm ≠ .disabled)

/-- The item allows its tag to write. -/
def Item.writes (t : Nat) (i : Item) : Bool :=
  decide (i.tag = t) && (decide (i.perm = .unique) || decide (i.perm = .sharedRW))

/-- Reading below an item ends exclusive access. -/
def Item.disable (i : Item) : Item := if i.perm = .unique then ⟨i.tag, .disabled⟩ else i

/-- Those of the items above `x` that are on equal terms with it: if it is `sharedRW`, those of that kind directly
above it. -/
def peers (x : Item) (above : List Item) : List Item :=
  if x.perm = .sharedRW then (above.reverse.takeWhile fun i => decide (i.perm = .sharedRW)).reverse else []

/-- Reading disables all exclusive access above. -/
def stackRead (t : Nat) (s : List Item) : Option (List Item) :=
  (cut (Item.reads t) s).map fun q => q.1.map Item.disable ++ q.2.1 :: q.2.2

/-- Writing pops what is above. -/
def stackWrite (t : Nat) (s : List Item) : Option (List Item) :=
  (cut (Item.writes t) s).map fun q => peers q.2.1 q.1 ++ q.2.1 :: q.2.2

/-- Making a `&mut` counts as writing, making a `&` counts as reading, and a `*mut` is put above what it is made of. -/
def stackRetag : Kind → Nat → Nat → List Item → Option (List Item)
  | .excl, p, q, s => (stackWrite p s).map (⟨q, .unique⟩ :: ·)
  | .shared, p, q, s => (stackRead p s).map (⟨q, .sharedRO⟩ :: ·)
  | .raw, p, q, s =>
    (cut (Item.writes p) s).map fun c =>
      c.1.take (c.1.length - (peers c.2.1 c.1).length) ++ ⟨q, .sharedRW⟩ :: (peers c.2.1 c.1 ++ c.2.1 :: c.2.2)

/-- Stacked Borrows: each location has a stack of items, topmost first. -/
def Stacked : Rules (List Item) := ⟨fun t => [⟨t, .unique⟩], stackRead, stackWrite, stackRetag⟩

/-! Tree Borrows. -/

inductive State where
  /-- A `&mut` that was not yet written to -/
  | reserved
  | active
  /-- May only be read -/
  | frozen
  | disabled
  deriving DecidableEq

/-- A reference: its tag, those of the raw pointers made of it, those of itself and what it was made of, and its
state. -/
structure Node where
  id : Nat
  names : List Nat
  line : List Nat
  state : State

/-- What a reference may do. -/
def State.mayRead : State → Bool
  | .disabled => false
  | _ => true

def State.mayWrite : State → Bool
  | .reserved | .active => true
  | _ => false

/-- Reading through another reference that was not made of this one. -/
def State.foreignRead : State → State
  | .active => .frozen
  | s => s

/-- The node of a pointer. -/
def find (t : Nat) (s : List Node) : Option Node := s.find? fun n => decide (t ∈ n.names)

/-- All that the pointer was made of must be allowed to read. -/
def treeRead (t : Nat) (s : List Node) : Option (List Node) :=
  match find t s with
  | none => none
  | some n =>
    if s.all fun m => !decide (m.id ∈ n.line) || m.state.mayRead then
      some (s.map fun m => if m.id ∈ n.line then m else { m with state := m.state.foreignRead })
    else none

/-- All that the pointer was made of must be allowed to write, and is active then; all else is disabled. -/
def treeWrite (t : Nat) (s : List Node) : Option (List Node) :=
  match find t s with
  | none => none
  | some n =>
    if s.all fun m => !decide (m.id ∈ n.line) || m.state.mayWrite then
      some (s.map fun m => { m with state := if m.id ∈ n.line then .active else .disabled })
    else none

/-- Making a reference counts as reading. A raw pointer is the same as what it is made of. -/
def treeRetag : Kind → Nat → Nat → List Node → Option (List Node)
  | .excl, p, q, s =>
    match find p s with
    | none => none
    | some n => (treeRead p s).map (⟨q, [q], q :: n.line, .reserved⟩ :: ·)
  | .shared, p, q, s =>
    match find p s with
    | none => none
    | some n => (treeRead p s).map (⟨q, [q], q :: n.line, .frozen⟩ :: ·)
  | .raw, p, q, s =>
    match find p s with
    | none => none
    | some _ => some (s.map fun m => if p ∈ m.names then { m with names := q :: m.names } else m)

/-- Tree Borrows: each location has a tree of references, given by a list that has each before what it is made of. -/
def Tree : Rules (List Node) := ⟨fun t => [⟨t, [t], [t], .active⟩], treeRead, treeWrite, treeRetag⟩

/-! What the crate does. -/

/-- A piece of a program that makes pointers: given the next tag that is not in use, its result, the next tag after
it, and what happens. -/
abbrev Make (α : Type) := Nat → α × Nat × List Event

def Make.pure {α : Type} (a : α) : Make α := fun t => (a, t, [])

def Make.bind {α β : Type} (m : Make α) (f : α → Make β) : Make β := fun t =>
  ((f (m t).1 (m t).2.1).1, (f (m t).1 (m t).2.1).2.1, (m t).2.2 ++ (f (m t).1 (m t).2.1).2.2)

instance : Monad Make where
  pure := Make.pure
  bind := Make.bind

def retag (k : Kind) (p : Nat) (r : Region) : Make Nat := fun t => (t, t + 1, [.retag k p t r])
def read (p : Nat) (r : Region) : Make Unit := fun t => ((), t, [.read p r])
def write (p : Nat) (r : Region) : Make Unit := fun t => ((), t, [.write p r])

/-- `SizedSlice<T, N>` in memory: oct/src/sized_slice/mod.rs:73-76. -/
structure Place where
  at_ : Nat
  cap : Nat

/-- The whole of it. -/
def Place.whole (s : Place) : Region := ⟨s.at_, s.cap + 1⟩
/-- Its field `buf`. -/
def Place.buf (s : Place) : Region := ⟨s.at_, s.cap⟩
/-- Its field `len`. -/
def Place.head (s : Place) : Region := ⟨s.at_ + s.cap, 1⟩
/-- The first `n` items. -/
def Place.items (s : Place) (n : Nat) : Region := ⟨s.at_, n⟩

/-- `SizedSlice::as_ptr`: oct/src/sized_slice/conv.rs:65-67. -/
def Place.asPtr (s : Place) (self : Nat) : Make Nat := do
  let self ← retag .shared self s.whole
  let buf ← retag .shared self s.buf
  retag .shared buf s.buf

/-- `SizedSlice::as_mut_ptr`: oct/src/sized_slice/conv.rs:75-77. -/
def Place.asMutPtr (s : Place) (self : Nat) : Make Nat := do
  let self ← retag .excl self s.whole
  let buf ← retag .excl self s.buf
  retag .raw buf s.buf

/-- `SizedSlice::len`: oct/src/sized_slice/mod.rs:179-181. -/
def Place.len (s : Place) (self : Nat) : Make Unit := do
  let self ← retag .shared self s.whole
  read self s.head

/-- `SizedSlice::as_slice`, when the length is `n`: oct/src/sized_slice/conv.rs:84-89. -/
def Place.asSlice (s : Place) (n : Nat) (self : Nat) : Make Nat := do
  let self ← retag .shared self s.whole
  let ptr ← s.asPtr self
  s.len self
  retag .shared ptr (s.items n)

/-- `SizedSlice::as_mut_slice`, when the length is `n`: oct/src/sized_slice/conv.rs:96-101. -/
def Place.asMutSlice (s : Place) (n : Nat) (self : Nat) : Make Nat := do
  let self ← retag .excl self s.whole
  let ptr ← s.asMutPtr self
  s.len self
  retag .excl ptr (s.items n)

/-- `SizedSlice::copy_from_slice` of `n` items at `d` behind the reference `data`: oct/src/sized_slice/mod.rs:81-95. -/
def Place.copyFromSlice (s : Place) (data : Nat) (d n : Nat) (self : Nat) : Make Unit := do
  let self ← retag .excl self s.whole
  let src ← retag .shared data ⟨d, n⟩
  let buf ← retag .excl self s.buf
  let dst ← retag .raw buf s.buf
  read src ⟨d, n⟩
  write dst (s.items n)
  let self ← retag .excl self s.whole
  write self s.head

/-- The loop of `each_ref`, `k` more times: oct/src/sized_slice/mod.rs:103-112. The array of pointers is a variable of
the method and left out. -/
def Place.refs (s : Place) (self : Nat) : Nat → Make (List Nat)
  | 0 => Make.pure []
  | k + 1 => do
    let value ← s.asPtr self
    let rest ← s.refs self k
    Make.pure (value :: rest)

/-- `SizedSlice::each_ref`, when the length is `n`: oct/src/sized_slice/mod.rs:99-121. -/
def Place.eachRef (s : Place) (n : Nat) (self : Nat) : Make (List Nat) := do
  let self ← retag .shared self s.whole
  read self s.head
  s.refs self n

/-- The loop of `each_mut`, `k` more times: oct/src/sized_slice/mod.rs:129-138. -/
def Place.muts (s : Place) (self : Nat) : Nat → Make (List Nat)
  | 0 => Make.pure []
  | k + 1 => do
    let value ← s.asMutPtr self
    let rest ← s.muts self k
    Make.pure (value :: rest)

/-- `SizedSlice::each_mut`, when the length is `n`: oct/src/sized_slice/mod.rs:125-147. -/
def Place.eachMut (s : Place) (n : Nat) (self : Nat) : Make (List Nat) := do
  let self ← retag .excl self s.whole
  read self s.head
  s.muts self n

/-- What `each_mut` would be with `self.as_mut_ptr()` called once, before its loop (this is not in the crate): all that
it returns are offsets of one pointer. -/
def Place.eachMutOnce (s : Place) (self : Nat) : Make Nat := do
  let self ← retag .excl self s.whole
  read self s.head
  s.asMutPtr self

/-! Programs that own a sized slice. -/

inductive Call where
  | len
  | asSlice
  | asMutSlice
  /-- of so many items that are elsewhere -/
  | copyFromSlice (n : Nat)
  | eachRef
  | eachMut
  /-- Looks at the `i`-th item behind the `h`-th reference that was returned so far. -/
  | get (h i : Nat)
  /-- Puts the `i`-th item behind the `h`-th reference that was returned so far. -/
  | set (h i : Nat)

/-- A reference that was returned. -/
structure Held where
  tag : Nat
  r : Region

/-- The owner of a sized slice: its length, the next tag, and what was returned. -/
structure Owner where
  len : Nat
  next : Nat
  held : List Held

/-- The tag of the variable that holds the sized slice. -/
abbrev ownerTag : Nat := 0
/-- The tag of a reference to items elsewhere. -/
abbrev dataTag : Nat := 1

/-- One reference for each item, from the `i`-th. -/
def single (s : Place) : Nat → List Nat → List Held
  | _, [] => []
  | i, t :: ts => ⟨t, ⟨s.at_ + i, 1⟩⟩ :: single s (i + 1) ts

/-- What a call does. Items elsewhere are at `d`. -/
def Call.go (s : Place) (d : Nat) (o : Owner) : Call → Owner × List Event
  | .len => let m := s.len ownerTag o.next
    ({ o with next := m.2.1 }, m.2.2)
  | .asSlice => let m := s.asSlice o.len ownerTag o.next
    ({ o with next := m.2.1, held := o.held ++ [⟨m.1, s.items o.len⟩] }, m.2.2)
  | .asMutSlice => let m := s.asMutSlice o.len ownerTag o.next
    ({ o with next := m.2.1, held := o.held ++ [⟨m.1, s.items o.len⟩] }, m.2.2)
  | .copyFromSlice n => let m := s.copyFromSlice dataTag d n ownerTag o.next
    ({ o with next := m.2.1, len := n }, m.2.2)
  | .eachRef => let m := s.eachRef o.len ownerTag o.next
    ({ o with next := m.2.1, held := o.held ++ single s 0 m.1 }, m.2.2)
  | .eachMut => let m := s.eachMut o.len ownerTag o.next
    ({ o with next := m.2.1, held := o.held ++ single s 0 m.1 }, m.2.2)
  | .get h i => match o.held[h]? with
    | some x => (o, [.read x.tag ⟨x.r.lo + i, 1⟩])
    | none => (o, [])
  | .set h i => match o.held[h]? with
    | some x => (o, [.write x.tag ⟨x.r.lo + i, 1⟩])
    | none => (o, [])

/-- What a program does. -/
def events (s : Place) (d : Nat) : Owner → List Call → List Event
  | _, [] => []
  | o, c :: cs => (c.go s d o).2 ++ events s d (c.go s d o).1 cs

/-- The owner after a program. -/
def ownerAfter (s : Place) (d : Nat) : Owner → List Call → Owner
  | o, [] => o
  | o, c :: cs => ownerAfter s d (c.go s d o).1 cs

/-- The owner of a sized slice with `n` items that was just made. -/
def Owner.new (n : Nat) : Owner := ⟨n, 2, []⟩

end Oct.Alias
