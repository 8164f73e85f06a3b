import Verif.Model.Encode
/-
Locks inside locks: values such as `Arc<Mutex<Node>>`, where a `Node` has such values as fields, which
threads encode while others update them.

`Mutex::encode` (oct/src/encode/encode/mod.rs:497-507) and `RwLock::encode` (678-688) hold their guard
until `encode` of the contents is over. So an encoder holds the guards of all locks around the place
at which it is, and asks for the next one while it does.

SIMPLIFICATIONS: what is encoded between two locks is one step; an update replaces all that is in a
lock at once (Model/Shared has updates and encoders in finer steps); `Arc::encode` (219-227) only goes
to the lock it points to.
-/
namespace Oct

/-- A part of what an encoder does. -/
inductive Piece where
  /-- Encodes something without locks. -/
  | plain (m : Enc Unit)
  /-- Encodes the lock with the number `r`, and turns an error of that with `g`. -/
  | lock (r : Nat) (g : EncErr → EncErr)

/-- A lock that an encoder holds. -/
structure Frame where
  lock : Nat
  onErr : EncErr → EncErr
  /-- What is to be done when the guard has been dropped. -/
  rest : List Piece

/-- How far a thread has come. -/
inductive Thread where
  /-- Encoding: what is left of the contents of the innermost lock held, and the locks held. -/
  | encoding (cur : List Piece) (held : List Frame)
  /-- An encoder that has failed with `r` and drops its guards. -/
  | failing (r : Res EncErr Unit) (held : List Frame)
  | ended (r : Res EncErr Unit)
  /-- The updates that a thread is going to make, and whether it has the guard for the first one. -/
  | updating (guarded : Bool) (us : List (Nat × List Piece))

/-- Locks, and the threads that use them. -/
structure Locks where
  kind : Nat → LockKind
  /-- What encoding the contents of a lock amounts to. -/
  content : Nat → List Piece
  /-- The thread that holds a guard of the lock to write through. -/
  writer : Nat → Option Nat
  /-- The encoders that hold a guard of the lock, once for each guard. -/
  readers : Nat → List Nat
  thread : Nat → Thread
  output : Nat → Output

/-- Nobody holds anything. -/
def Locks.start (kind : Nat → LockKind) (content : Nat → List Piece) (thread : Nat → Thread)
    (output : Nat → Output) : Locks where
  kind := kind
  content := content
  writer := fun _ => none
  readers := fun _ => []
  thread := thread
  output := output

/-- Whether an encoder gets the guard of the lock `r`: `Mutex::lock` (503) excludes everybody else, and
`RwLock::read` (684) writers. Whether a further reader is let in while others read is up to the system
(`joins`): std promises nothing, and commonly readers wait if a writer does. -/
def Locks.lets (joins : Locks → Nat → Bool) (s : Locks) (r : Nat) : Bool :=
  match s.kind r with
  | .mutex => (s.writer r).isNone && (s.readers r).isEmpty
  | .rwLock => (s.writer r).isNone && ((s.readers r).isEmpty || joins s r)

/-- The thread `k` goes to `t`. -/
def Locks.goto (s : Locks) (k : Nat) (t : Thread) : Locks :=
  { s with thread := fun k' => if k' = k then t else s.thread k' }

/-- The thread `k` gets a guard of the lock `r` to read through. -/
def Locks.take (s : Locks) (k r : Nat) : Locks :=
  { s with readers := fun r' => if r' = r then k :: s.readers r else s.readers r' }

/-- The thread `k` drops a guard of the lock `r`. -/
def Locks.give (s : Locks) (k r : Nat) : Locks :=
  { s with readers := fun r' => if r' = r then (s.readers r).erase k else s.readers r' }

/-- The next step of the thread `k`, or `none` if it has to wait or is over. -/
def Locks.step (joins : Locks → Nat → Bool) (s : Locks) (k : Nat) : Option Locks :=
  match s.thread k with
  | .encoding (.plain m :: cur) held =>
    let s' := { s with output := fun k' => if k' = k then (m (s.output k)).2 else s.output k' }
    match (m (s.output k)).1 with
    | .ok () => some (s'.goto k (.encoding cur held))
    | r => some (s'.goto k (.failing r held))
  | .encoding (.lock r g :: cur) held =>
    if s.lets joins r then
      some ((s.take k r).goto k (.encoding (s.content r) (⟨r, g, cur⟩ :: held)))
    else none
  | .encoding [] (f :: held) => some ((s.give k f.lock).goto k (.encoding f.rest held))
  | .encoding [] [] => some (s.goto k (.ended (.ok ())))
  | .failing r (f :: held) => some ((s.give k f.lock).goto k (.failing (r.mapErr f.onErr) held))
  | .failing r [] => some (s.goto k (.ended r))
  | .ended _ => none
  | .updating _ [] => none
  | .updating false ((r, c) :: us) =>
    if (s.writer r).isNone && (s.readers r).isEmpty then
      some ({ s with writer := fun r' => if r' = r then some k else s.writer r' }.goto k
        (.updating true ((r, c) :: us)))
    else none
  | .updating true ((r, c) :: us) =>
    some ({ s with
      writer := fun r' => if r' = r then none else s.writer r'
      content := fun r' => if r' = r then c else s.content r' }.goto k (.updating false us))

/-- A schedule: which thread is to make a step. One that has to wait does nothing. -/
def Locks.run (joins : Locks → Nat → Bool) (s : Locks) : List Nat → Locks
  | [] => s
  | k :: ks => ((s.step joins k).getD s).run joins ks

/-- How many steps of a schedule were made. -/
def Locks.made (joins : Locks → Nat → Bool) (s : Locks) : List Nat → Nat
  | [] => 0
  | k :: ks => (if (s.step joins k).isSome then 1 else 0) + ((s.step joins k).getD s).made joins ks

end Oct
