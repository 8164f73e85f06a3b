import Verif.Model.SlotBorrows
/-
Protectors: a reference that is passed to a function must be usable until the function returns. Both of the aliasing
rules of Model/Borrows have this; here they are given with it, together with when the methods of sized slices, slots and
streams are entered and left.

SIMPLIFICATIONS: those of Model/Borrows and Model/SlotBorrows other than that protectors are left out.
-/
namespace Oct.Alias

/-- What happens, with calls. -/
inductive Mark where
  | event (e : Event)
  /-- A function is entered, with an argument made of another pointer. -/
  | enter (k : Kind) (parent new : Nat) (r : Region)
  /-- It is left. -/
  | leave (t : Nat) (r : Region)

/-- Aliasing rules with protectors, for one location. They are given the tags of the arguments of all functions that
were entered and not left. -/
structure Protecting (τ : Type) where
  start : Nat → τ
  read : List Nat → Nat → τ → Option τ
  write : List Nat → Nat → τ → Option τ
  retag : List Nat → Kind → Nat → Nat → τ → Option τ
  leave : List Nat → Nat → τ → Option τ

/-- What happens at one location. -/
def Mark.act {τ : Type} (R : Protecting τ) (l : Nat) : Mark → τ × List Nat → Option (τ × List Nat)
  | .event (.retag k p q r), s => if r.has l then (R.retag s.2 k p q s.1).map (·, s.2) else some s
  | .event (.read t r), s => if r.has l then (R.read s.2 t s.1).map (·, s.2) else some s
  | .event (.write t r), s => if r.has l then (R.write s.2 t s.1).map (·, s.2) else some s
  | .enter k p q r, s => if r.has l then (R.retag s.2 k p q s.1).map (·, q :: s.2) else some s
  | .leave t r, s => if r.has l then (R.leave (s.2.erase t) t s.1).map (·, s.2.erase t) else some s

def runMarks {τ : Type} (R : Protecting τ) (l : Nat) : List Mark → τ × List Nat → Option (τ × List Nat)
  | [], s => some s
  | m :: ms, s => (m.act R l s).bind (runMarks R l ms)

/-! Stacked Borrows. -/

/-- The items above the one that is used. -/
def itemsAbove (p : Item → Bool) (s : List Item) : List Item :=
  match cut p s with
  | some q => q.1
  | none => []

/-- The items that writing pops. -/
def itemsPopped (t : Nat) (s : List Item) : List Item :=
  match cut (Item.writes t) s with
  | some q => q.1.take (q.1.length - (peers q.2.1 q.1).length)
  | none => []

/-- An argument may not be disabled. -/
def stackReadP (P : List Nat) (t : Nat) (s : List Item) : Option (List Item) :=
  if (itemsAbove (Item.reads t) s).any fun i => decide (i.perm = .unique) && decide (i.tag ∈ P) then none
  else stackRead t s

/-- An argument may not be popped. -/
def stackWriteP (P : List Nat) (t : Nat) (s : List Item) : Option (List Item) :=
  if (itemsPopped t s).any fun i => decide (i.tag ∈ P) then none else stackWrite t s

def stackRetagP (P : List Nat) : Kind → Nat → Nat → List Item → Option (List Item)
  | .excl, p, q, s => (stackWriteP P p s).map (⟨q, .unique⟩ :: ·)
  | .shared, p, q, s => (stackReadP P p s).map (⟨q, .sharedRO⟩ :: ·)
  | .raw, p, q, s => stackRetag .raw p q s

/-- Stacked Borrows. Nothing happens when a function is left. -/
def StackedP : Protecting (List Item) :=
  ⟨fun t => [⟨t, .unique⟩], stackReadP, stackWriteP, stackRetagP, fun _ _ s => some s⟩

/-! Tree Borrows. -/

/-- A tree, and the arguments that were not yet written to when something else was read: they may not be written to
before their functions are left. -/
structure Grove where
  nodes : List Node
  conflicts : List Nat

/-- The arguments among those that `foreign` holds of that were not yet written to. -/
def conflictsOf (P : List Nat) (foreign : Node → Bool) (s : List Node) : List Nat :=
  (s.filter fun m => foreign m && decide (m.id ∈ P) && decide (m.state = .reserved)).map Node.id

/-- An argument that was written to must not be made read-only. -/
def treeReadP (P : List Nat) (t : Nat) (s : Grove) : Option Grove :=
  match find t s.nodes with
  | none => none
  | some n =>
    if s.nodes.any fun m => !decide (m.id ∈ n.line) && decide (m.id ∈ P) && decide (m.state = .active) then none
    else (treeRead t s.nodes).map (⟨·, conflictsOf P (fun m => !decide (m.id ∈ n.line)) s.nodes ++ s.conflicts⟩)

/-- An argument may not be disabled. -/
def treeWriteP (P : List Nat) (t : Nat) (s : Grove) : Option Grove :=
  match find t s.nodes with
  | none => none
  | some n =>
    if s.nodes.any fun m => decide (m.id ∈ P) &&
        (if m.id ∈ n.line then decide (m.state = .reserved) && decide (m.id ∈ s.conflicts)
          else decide (m.state ≠ .disabled)) then none
    else (treeWrite t s.nodes).map (⟨·, s.conflicts⟩)

def treeRetagP (P : List Nat) : Kind → Nat → Nat → Grove → Option Grove
  | .excl, p, q, s =>
    match find p s.nodes with
    | none => none
    | some n => (treeReadP P p s).map fun s' => ⟨⟨q, [q], q :: n.line, .reserved⟩ :: s'.nodes, s'.conflicts⟩
  | .shared, p, q, s =>
    match find p s.nodes with
    | none => none
    | some n => (treeReadP P p s).map fun s' => ⟨⟨q, [q], q :: n.line, .frozen⟩ :: s'.nodes, s'.conflicts⟩
  | .raw, p, q, s => (treeRetag .raw p q s.nodes).map (⟨·, s.conflicts⟩)

/-- When a function is left, that counts as writing by the argument if it was written to, and else as reading, other
than for what was made of it. -/
def treeLeave (P : List Nat) (t : Nat) (s : Grove) : Option Grove :=
  match find t s.nodes with
  | none => none
  | some n =>
    if n.state = .active then
      if s.nodes.all fun m => if m.id ∈ n.line then m.state.mayWrite
          else decide (t ∈ m.line) || !decide (m.id ∈ P) || decide (m.state = .disabled) then
        some ⟨s.nodes.map fun m => if m.id ∈ n.line then { m with state := .active }
          else if t ∈ m.line then m else { m with state := .disabled }, s.conflicts⟩
      else none
    else
      if s.nodes.all fun m => if m.id ∈ n.line then m.state.mayRead
          else decide (t ∈ m.line) || !decide (m.id ∈ P) || !decide (m.state = .active) then
        some ⟨s.nodes.map fun m => if m.id ∈ n.line then m
          else if t ∈ m.line then m else { m with state := m.state.foreignRead },
          conflictsOf P (fun m => !decide (m.id ∈ n.line) && !decide (t ∈ m.line)) s.nodes ++ s.conflicts⟩
      else none

/-- Tree Borrows. -/
def TreeP : Protecting Grove :=
  ⟨fun t => ⟨[⟨t, [t], [t], .active⟩], []⟩, treeReadP, treeWriteP, treeRetagP, treeLeave⟩

/-! What the crate does. -/

/-- A piece of a program that makes pointers and calls functions. -/
abbrev Acts (α : Type) := Nat → α × Nat × List Mark

def Acts.pure {α : Type} (a : α) : Acts α := fun t => (a, t, [])

def Acts.bind {α β : Type} (m : Acts α) (f : α → Acts β) : Acts β := fun t =>
  ((f (m t).1 (m t).2.1).1, (f (m t).1 (m t).2.1).2.1, (m t).2.2 ++ (f (m t).1 (m t).2.1).2.2)

instance : Monad Acts where
  pure := Acts.pure
  bind := Acts.bind

/-- Outside of calls, nothing is different. -/
def lift {α : Type} (m : Make α) : Acts α := fun t => ((m t).1, (m t).2.1, (m t).2.2.map .event)

/-- A call of a function with a reference that is made of `p`. -/
def calling {α : Type} (k : Kind) (p : Nat) (r : Region) (f : Nat → Acts α) : Acts α := fun t =>
  ((f t (t + 1)).1, (f t (t + 1)).2.1, .enter k p t r :: ((f t (t + 1)).2.2 ++ [.leave t r]))

namespace Place
variable (s : Place)

/-- `SizedSlice::as_ptr`: oct/src/sized_slice/conv.rs:65-67, with the call of the array's `as_ptr`. -/
def asPtrP (self : Nat) : Acts Nat :=
  calling .shared self s.whole fun self =>
    calling .shared self s.buf fun buf => lift (retag .shared buf s.buf)

/-- `SizedSlice::as_mut_ptr`: oct/src/sized_slice/conv.rs:75-77. -/
def asMutPtrP (self : Nat) : Acts Nat :=
  calling .excl self s.whole fun self =>
    calling .excl self s.buf fun buf => lift (retag .raw buf s.buf)

/-- `SizedSlice::len`: oct/src/sized_slice/mod.rs:179-181. -/
def lenP (self : Nat) : Acts Unit :=
  calling .shared self s.whole fun self => lift (read self s.head)

/-- `SizedSlice::as_slice`: oct/src/sized_slice/conv.rs:84-89. -/
def asSliceP (n : Nat) (self : Nat) : Acts Nat :=
  calling .shared self s.whole fun self => do
    let ptr ← s.asPtrP self
    s.lenP self
    lift (retag .shared ptr (s.items n))

/-- `SizedSlice::as_mut_slice`: oct/src/sized_slice/conv.rs:96-101. -/
def asMutSliceP (n : Nat) (self : Nat) : Acts Nat :=
  calling .excl self s.whole fun self => do
    let ptr ← s.asMutPtrP self
    s.lenP self
    lift (retag .excl ptr (s.items n))

/-- `SizedSlice::copy_from_slice`: oct/src/sized_slice/mod.rs:81-95. Both arguments are references; `as_mut_ptr` of the
array and `set_len_unchecked` are called. -/
def copyFromSliceP (data : Nat) (d n : Nat) (self : Nat) : Acts Unit :=
  calling .excl self s.whole fun self => calling .shared data ⟨d, n⟩ fun src => do
    let dst ← calling .excl self s.buf fun buf => lift (retag .raw buf s.buf)
    lift (read src ⟨d, n⟩)
    lift (write dst (s.items n))
    calling .excl self s.whole fun self => lift (write self s.head)

/-- The loop of `each_ref`: oct/src/sized_slice/mod.rs:103-112. -/
def refsP (self : Nat) : Nat → Acts (List Nat)
  | 0 => Acts.pure []
  | k + 1 => do
    let value ← s.asPtrP self
    let rest ← refsP self k
    Acts.pure (value :: rest)

/-- `SizedSlice::each_ref`: oct/src/sized_slice/mod.rs:99-121. -/
def eachRefP (n : Nat) (self : Nat) : Acts (List Nat) :=
  calling .shared self s.whole fun self => do
    lift (read self s.head)
    s.refsP self n

/-- The loop of `each_mut`: oct/src/sized_slice/mod.rs:129-138. -/
def mutsP (self : Nat) : Nat → Acts (List Nat)
  | 0 => Acts.pure []
  | k + 1 => do
    let value ← s.asMutPtrP self
    let rest ← mutsP self k
    Acts.pure (value :: rest)

/-- `SizedSlice::each_mut`: oct/src/sized_slice/mod.rs:125-147. -/
def eachMutP (n : Nat) (self : Nat) : Acts (List Nat) :=
  calling .excl self s.whole fun self => do
    lift (read self s.head)
    s.mutsP self n

/-- `Slot::as_ptr`: oct/src/slot/mod.rs:124-126. What is behind a box is not protected with the slot, but when it is
passed to the slice's `as_ptr`. -/
def slotPtrP (self : Nat) : Acts Nat :=
  calling .shared self s.head fun self => do
    lift (read self s.head)
    calling .shared ownerTag s.buf fun buf => lift (retag .shared buf s.buf)

/-- `Slot::as_mut_ptr`: oct/src/slot/mod.rs:133-135. -/
def slotMutPtrP (self : Nat) : Acts Nat :=
  calling .excl self s.head fun self => do
    lift (read self s.head)
    calling .excl ownerTag s.buf fun buf => lift (retag .raw buf s.buf)

/-- `Slot::capacity`: oct/src/slot/mod.rs:226-228. -/
def slotCapacityP (self : Nat) : Acts Unit :=
  calling .shared self s.head fun self => do
    lift (read self s.head)
    calling .shared ownerTag s.buf fun _ => Acts.pure ()

/-- `Slot::len`: oct/src/slot/mod.rs:237-239. -/
def slotLenP (self : Nat) : Acts Unit :=
  calling .shared self s.head fun self => lift (read self s.head)

/-- `Slot::as_slice`: oct/src/slot/mod.rs:143-146. -/
def slotSliceP (n : Nat) (self : Nat) : Acts Nat :=
  calling .shared self s.head fun self => do
    let ptr ← s.slotPtrP self
    s.slotLenP self
    lift (retag .shared ptr (s.items n))

/-- `Slot::as_mut_slice`: oct/src/slot/mod.rs:155-158. -/
def slotMutSliceP (self : Nat) : Acts Nat :=
  calling .excl self s.head fun self => do
    let ptr ← s.slotMutPtrP self
    s.slotCapacityP self
    lift (retag .excl ptr s.buf)

/-- `Slot::set_len_unchecked`: oct/src/slot/mod.rs:212-218. -/
def setLenUncheckedP (self : Nat) : Acts Unit :=
  calling .excl self s.head fun self => do
    s.slotCapacityP self
    lift (write self s.head)

/-- `Slot::set_len`: oct/src/slot/mod.rs:195-200. -/
def setLenP (self : Nat) : Acts Unit :=
  calling .excl self s.head fun self => do
    s.slotCapacityP self
    s.setLenUncheckedP self

/-- `Slot::copy_from_slice`: oct/src/slot/mod.rs:166-183. -/
def slotCopyP (d n : Nat) (self : Nat) : Acts Unit :=
  calling .excl self s.head fun self => calling .shared dataTag ⟨d, n⟩ fun data => do
    s.slotCapacityP self
    let dst ← s.slotMutPtrP self
    lift (read data ⟨d, n⟩)
    lift (write dst (s.items n))
    s.setLenUncheckedP self

/-- `Output::write`: oct/src/encode/output/mod.rs:49-71. The stream's own reference is behind `self` and so not
protected. -/
def outputWriteP (d : Nat) (buf pos n : Nat) : Acts Unit :=
  calling .shared dataTag ⟨d, n⟩ fun data => do
    calling .shared buf s.buf fun _ => Acts.pure ()
    if pos + n ≤ s.cap then
      let dst ← calling .excl buf s.buf fun dst => lift (retag .raw dst s.buf)
      lift (read data ⟨d, n⟩)
      lift (write dst ⟨s.at_ + pos, n⟩)
    else Acts.pure ()

/-- The pieces that an encoding consists of. -/
def outputWritesP (d : Nat) (buf : Nat) : Nat → List Nat → Acts Unit
  | _, [] => Acts.pure ()
  | pos, n :: ns => do
    s.outputWriteP d buf pos n
    outputWritesP d buf (if pos + n ≤ s.cap then pos + n else pos) ns

/-- `Slot::write`: oct/src/slot/mod.rs:270-279. `Output::new` returns its argument, which is protected only in it. -/
def slotWriteP (d : Nat) (ns : List Nat) (ok : Bool) (self : Nat) : Acts Unit :=
  calling .excl self s.head fun self => do
    lift (read self s.head)
    let buf ← calling .excl ownerTag s.buf fun buf => Acts.pure buf
    s.outputWritesP d buf 0 ns
    if ok then s.setLenP self else Acts.pure ()

/-- `Input::read`: oct/src/decode/input/mod.rs:49-69. -/
def inputReadP (buf pos n : Nat) : Acts Unit := do
  calling .shared buf s.buf fun _ => Acts.pure ()
  if pos + n ≤ s.cap then
    let data ← calling .shared buf s.buf fun ptr => lift (retag .shared ptr ⟨s.at_ + pos, n⟩)
    lift (read data ⟨s.at_ + pos, n⟩)
  else Acts.pure ()

/-- What a decoding reads. -/
def inputReadsP (buf : Nat) : Nat → List Nat → Acts Unit
  | _, [] => Acts.pure ()
  | pos, n :: ns => do
    s.inputReadP buf pos n
    inputReadsP buf (if pos + n ≤ s.cap then pos + n else pos) ns

/-- `Slot::read`: oct/src/slot/mod.rs:295-303. -/
def slotReadP (ns : List Nat) (self : Nat) : Acts Unit :=
  calling .shared self s.head fun self => do
    lift (read self s.head)
    let buf ← calling .shared ownerTag s.buf fun buf => Acts.pure buf
    s.inputReadsP buf 0 ns

end Place

/-- What a call does. -/
def Call.marks (s : Place) (d : Nat) (o : Owner) : Call → List Mark
  | .len => (s.lenP ownerTag o.next).2.2
  | .asSlice => (s.asSliceP o.len ownerTag o.next).2.2
  | .asMutSlice => (s.asMutSliceP o.len ownerTag o.next).2.2
  | .copyFromSlice n => (s.copyFromSliceP dataTag d n ownerTag o.next).2.2
  | .eachRef => (s.eachRefP o.len ownerTag o.next).2.2
  | .eachMut => (s.eachMutP o.len ownerTag o.next).2.2
  | .get h i => match o.held[h]? with
    | some x => [.event (.read x.tag ⟨x.r.lo + i, 1⟩)]
    | none => []
  | .set h i => match o.held[h]? with
    | some x => [.event (.write x.tag ⟨x.r.lo + i, 1⟩)]
    | none => []

/-- What a program does. -/
def marks (s : Place) (d : Nat) : Owner → List Call → List Mark
  | _, [] => []
  | o, c :: cs => c.marks s d o ++ marks s d (c.go s d o).1 cs

/-- What a call does. -/
def SlotCall.marks (s : Place) (d : Nat) (o : Owner) : SlotCall → List Mark
  | .len => (s.slotLenP ownerTag o.next).2.2
  | .capacity => (s.slotCapacityP ownerTag o.next).2.2
  | .asSlice => (s.slotSliceP o.len ownerTag o.next).2.2
  | .asMutSlice => (s.slotMutSliceP ownerTag o.next).2.2
  | .asPtr => (s.slotPtrP ownerTag o.next).2.2
  | .asMutPtr => (s.slotMutPtrP ownerTag o.next).2.2
  | .setLen _ => (s.setLenP ownerTag o.next).2.2
  | .copyFromSlice n => (s.slotCopyP d n ownerTag o.next).2.2
  | .write ns ok => (s.slotWriteP d ns ok ownerTag o.next).2.2
  | .read ns => (s.slotReadP ns ownerTag o.next).2.2
  | .get h i => match o.held[h]? with
    | some x => [.event (.read x.tag ⟨x.r.lo + i, 1⟩)]
    | none => []
  | .set h i => match o.held[h]? with
    | some x => [.event (.write x.tag ⟨x.r.lo + i, 1⟩)]
    | none => []

/-- What a program does. -/
def slotMarks (s : Place) (d : Nat) : Owner → List SlotCall → List Mark
  | _, [] => []
  | o, c :: cs => c.marks s d o ++ slotMarks s d (c.go s d o).1 cs

end Oct.Alias
