import Verif.Model.Encode
/-
Encoding of locks and atomics that other threads use at the same time.

`Mutex::encode` (oct/src/encode/encode/mod.rs:497-507) and `RwLock::encode` (678-688) take the guard,
call `encode` on what it points to, and drop the guard when the call is over (the guard is a temporary
of the function's last expression). In between the encoder runs in steps, and other threads run
between the steps.

SIMPLIFICATIONS: steps of different threads interleave (the guards order all accesses to the contents);
an encoder is split into steps in any way (`Steps`), and what a writer does to the contents under its
guard is any sequence of updates.
-/
namespace Oct

/-- An encoder as a sequence of steps: what it does as its `i`-th step if the contents are `v` at that
moment, and `none` when it is over. -/
abbrev Steps (α : Type) := Nat → α → Option (Enc Unit)

/-- How far the encoder of a thread has come. -/
inductive Phase where
  | waiting
  /-- Holding the guard, before its `i`-th step. -/
  | running (i : Nat)
  | finished (r : Res EncErr Unit)

/-- A `Mutex` or `RwLock`, its guards, and the threads that encode it. -/
structure Shared (α : Type) where
  kind : LockKind
  val : α
  poisoned : Bool
  /-- The thread that holds a guard it writes through. -/
  writer : Option Nat
  /-- The encoders that hold a guard. -/
  readers : List Nat
  phase : Nat → Phase
  output : Nat → Output

/-- A lock with the contents `v`, which nobody holds. -/
def Shared.start {α : Type} (kind : LockKind) (v : α) (outputs : Nat → Output) : Shared α where
  kind := kind
  val := v
  poisoned := false
  writer := none
  readers := []
  phase := fun _ => .waiting
  output := outputs

/-- What a thread does next. A step that has to wait does nothing. -/
inductive Event (α : Type) where
  /-- The encoder `k` asks for its guard: 503 and 684. -/
  | lock (k : Nat)
  /-- The encoder `k` makes its next step: 505 and 686. -/
  | encode (k : Nat)
  /-- The thread `w` asks for a guard to write through. -/
  | acquire (w : Nat)
  /-- The thread `w` updates the contents. -/
  | store (w : Nat) (g : α → α)
  /-- The thread `w` drops its guard. -/
  | release (w : Nat)
  /-- The thread `w` panics: its guard is dropped and the lock is poisoned. -/
  | panic (w : Nat)

/-- Whether the encoder of a lock gets its guard: `Mutex::lock` excludes everybody else,
`RwLock::read` (684) only writers. Neither minds poisoning (504, 685). -/
def Shared.lets {α : Type} (s : Shared α) : Bool :=
  match s.kind with
  | .mutex => s.writer.isNone && s.readers.isEmpty
  | .rwLock => s.writer.isNone

/-- The encoder `k` is over and drops its guard. A panic under the guard of a `Mutex` poisons it. -/
def Shared.finish {α : Type} (s : Shared α) (k : Nat) (r : Res EncErr Unit) (o : Output) : Shared α :=
  { s with
    readers := s.readers.erase k
    phase := fun k' => if k' = k then .finished r else s.phase k'
    output := fun k' => if k' = k then o else s.output k'
    poisoned := s.poisoned || (match s.kind, r with | .mutex, .panic _ => true | _, _ => false) }

/-- One step of one thread. -/
def Shared.step {α : Type} (part : Steps α) (s : Shared α) : Event α → Shared α
  | .lock k =>
    match s.phase k with
    | .waiting =>
      if s.lets then
        { s with
          readers := k :: s.readers
          phase := fun k' => if k' = k then .running 0 else s.phase k' }
      else s
    | _ => s
  | .encode k =>
    match s.phase k with
    | .running i =>
      match part i s.val with
      | none => s.finish k (.ok ()) (s.output k)
      | some m =>
        match m (s.output k) with
        | (.ok (), o) =>
          { s with
            phase := fun k' => if k' = k then .running (i + 1) else s.phase k'
            output := fun k' => if k' = k then o else s.output k' }
        | (r, o) => s.finish k r o
    | _ => s
  | .acquire w =>
    if s.writer.isNone && s.readers.isEmpty then { s with writer := some w } else s
  | .store w g => if s.writer = some w then { s with val := g s.val } else s
  | .release w => if s.writer = some w then { s with writer := none } else s
  | .panic w => if s.writer = some w then { s with writer := none, poisoned := true } else s

/-- A schedule. -/
def Shared.run {α : Type} (part : Steps α) (s : Shared α) (es : List (Event α)) : Shared α :=
  es.foldl (Shared.step part) s

/-- The steps of `[T; N]::encode` (178-194): one item after the other. -/
def arraySteps (t : Ty) (n : Nat) : Steps (Ty.array t n).Val := fun i v =>
  v.1[i]?.map fun x => (t.encode x).mapErr fun e => .badItem (.item i e)

/-- The steps of `encode` of a tuple (oct/src/encode/encode/mod.rs:869-891, `g = id`) or a derived
structure (oct-macros/src/impls/encode_struct.rs:57-60): one field after the other. -/
def fieldSteps : (fs : Fields) → (g : EncErr → EncErr) → Steps fs.Val
  | .nil, _ => fun _ _ => none
  | .cons t fs, g => fun i v =>
    match i with
    | 0 => some ((t.encode v.1).mapErr g)
    | i + 1 => fieldSteps fs g i v.2

/-! ## Atomics -/

/-- A row of `n` atomics, encoded by `impl_atomic!` (906-928) item by item, under Rust's rules for
`Relaxed`: for each atomic there is one order of all values it ever had, and a load gives any of them
that is not older than the newest one that the thread has seen of it (coherence). Nothing is said
about the order of accesses to different atomics. -/
structure Atomics (α : Type) where
  /-- The values of each atomic, oldest first. -/
  history : Nat → List α
  /-- The newest value of an atomic that a thread has seen, by its place in the history. -/
  view : Nat → Nat → Nat
  /-- Of each thread: where it started to encode, what it has seen by now, and its output. -/
  current : Nat → Option (Output × List Nat × Output)
  /-- The encodings made: by whom, from which output, the places of the values it saw, and how they
  ended. -/
  done : List (Nat × Output × List Nat × Res EncErr Unit × Output)

/-- Atomics with one value each. -/
def Atomics.start {α : Type} (init : Nat → α) : Atomics α where
  history := fun l => [init l]
  view := fun _ _ => 0
  current := fun _ => none
  done := []

/-- What a thread does next. -/
inductive AtomicEvent (α : Type) where
  /-- The thread `k` stores to the atomic `l`. -/
  | store (k l : Nat) (v : α)
  /-- The thread `k` starts to encode the atomics to an output. -/
  | start (k : Nat) (o : Output)
  /-- The thread `k` goes on, and sees the `j`-th value of the next atomic. -/
  | next (k j : Nat)

/-- One step of one thread that encodes `n` atomics of the type `t`. -/
def Atomics.step {t : Ty} (n : Nat) (s : Atomics t.Val) : AtomicEvent t.Val → Atomics t.Val
  | .store k l v =>
    { s with
      history := fun l' => if l' = l then s.history l ++ [v] else s.history l'
      view := fun k' l' => if k' = k ∧ l' = l then (s.history l).length else s.view k' l' }
  | .start k o =>
    match s.current k with
    | some _ => s
    | none => { s with current := fun k' => if k' = k then some (o, [], o) else s.current k' }
  | .next k j =>
    match s.current k with
    | none => s
    | some (o0, seen, o) =>
      if seen.length = n then
        { s with
          current := fun k' => if k' = k then none else s.current k'
          done := s.done ++ [(k, o0, seen, .ok (), o)] }
      else if j < s.view k seen.length then s
      else match (s.history seen.length)[j]? with
        | none => s
        | some v =>
          let view := fun k' l' => if k' = k ∧ l' = seen.length then j else s.view k' l'
          match ((Ty.wrap .atomic t).encode v).mapErr (fun e => .badItem (.item seen.length e)) o with
          | (.ok (), o') =>
            { s with
              view := view
              current := fun k' => if k' = k then some (o0, seen ++ [j], o') else s.current k' }
          | (r, o') =>
            { s with
              view := view
              current := fun k' => if k' = k then none else s.current k'
              done := s.done ++ [(k, o0, seen ++ [j], r, o')] }

/-- A schedule. -/
def Atomics.run {t : Ty} (n : Nat) (s : Atomics t.Val) (es : List (AtomicEvent t.Val)) :
    Atomics t.Val :=
  es.foldl (Atomics.step n) s

end Oct
