import Verif.Model.Locks
/-
Guards that callers hold: programs that lock a `Mutex` or an `RwLock` themselves, keep the guard, and
meanwhile call `encode` for values with locks in them, or for what the guard protects.

`Mutex::encode` (oct/src/encode/encode/mod.rs:497-507) and `RwLock::encode` (678-688) wait until they get
the lock, whoever holds it, be it the thread that calls them.

SIMPLIFICATIONS: as in Model/Locks; and a lock that the thread itself holds makes it wait (std says that
it waits or panics); a guard is taken out of a `PoisonError`, as the crate does (504, 685); a panic drops all
guards of the caller in one step.
-/
namespace Oct

/-- What a program does next. -/
inductive Cmd where
  /-- `let guard = lock.lock()` or `.write()`, or `.read()` unless `write`. -/
  | guard (r : Nat) (write : Bool)
  /-- `drop(guard)`, of the guard of the lock `r` that was taken last. -/
  | drop (r : Nat)
  /-- `*guard = value`. -/
  | set (r : Nat) (c : List Piece)
  /-- `value.encode(&mut output)`, for a value that the program has elsewhere. -/
  | encode (c : List Piece)
  /-- `guard.encode(&mut output)`, for what the lock protects. -/
  | through (r : Nat)

/-- Where in a call of `encode` a thread is; see `Thread`. -/
inductive Call where
  | idle
  | encoding (cur : List Piece) (held : List Frame)
  | failing (r : Res EncErr Unit) (held : List Frame)

/-- A thread of a program. -/
structure Agent where
  script : List Cmd
  /-- The guards in its own variables, the last one first, and whether they are to write through. -/
  guards : List (Nat × Bool)
  call : Call
  output : Output
  /-- What its calls of `encode` gave. -/
  results : List (Res EncErr Unit)

/-- A program that has not begun. -/
def Agent.start (script : List Cmd) (output : Output) : Agent := ⟨script, [], .idle, output, []⟩

/-- The guards in a call of `encode`. -/
def Call.held : Call → List Frame
  | .idle => []
  | .encoding _ h => h
  | .failing _ h => h

/-- All guards that a thread holds. -/
def Agent.holds (a : Agent) : List (Nat × Bool) :=
  a.call.held.map (fun f => (f.lock, false)) ++ a.guards

/-- The locks and the threads. -/
structure Guards where
  kind : Nat → LockKind
  content : Nat → List Piece
  agents : List Agent

/-- A guard of a `Mutex` excludes everybody else, and one of an `RwLock` if it is to write through. -/
def alone? (kind : Nat → LockKind) (g : Nat × Bool) : Bool :=
  match kind g.1 with
  | .mutex => true
  | .rwLock => g.2

/-- The guards of the lock `r` that there are. -/
def Guards.guardsOf (s : Guards) (r : Nat) : List (Nat × Bool) :=
  (s.agents.flatMap Agent.holds).filter fun g => g.1 == r

/-- Whether the guard is given out. Whether a further reader is let in while others read is up to the
system (`joins`). -/
def Guards.lets (joins : Guards → Nat → Bool) (s : Guards) (g : Nat × Bool) : Bool :=
  if alone? s.kind g then (s.guardsOf g.1).isEmpty
  else (s.guardsOf g.1).all (fun h => !alone? s.kind h) && ((s.guardsOf g.1).isEmpty || joins s g.1)

/-- The guard that the thread asks for in its next step. -/
def Agent.asks (a : Agent) : Option (Nat × Bool) :=
  match a.call, a.script with
  | .encoding (.lock r _ :: _) _, _ => some (r, false)
  | .idle, .guard r w :: _ => some (r, w)
  | _, _ => none

/-- Without the first guard of the lock `r`. -/
def dropGuard (r : Nat) : List (Nat × Bool) → List (Nat × Bool)
  | [] => []
  | g :: gs => if g.1 = r then gs else g :: dropGuard r gs

/-- The next step of a thread that gets what it asks for, and what it writes to a lock. `set` and `through`
without a guard do nothing: there is no such program. -/
def Agent.next (kind : Nat → LockKind) (content : Nat → List Piece) (a : Agent) :
    Option (Agent × Option (Nat × List Piece)) :=
  match a.call with
  | .encoding (.plain m :: cur) held =>
    match (m a.output).1 with
    | .ok () => some ({ a with call := .encoding cur held, output := (m a.output).2 }, none)
    | r => some ({ a with call := .failing r held, output := (m a.output).2 }, none)
  | .encoding (.lock r g :: cur) held =>
    some ({ a with call := .encoding (content r) (⟨r, g, cur⟩ :: held) }, none)
  | .encoding [] (f :: held) => some ({ a with call := .encoding f.rest held }, none)
  | .encoding [] [] => some ({ a with call := .idle, results := a.results ++ [.ok ()] }, none)
  | .failing r (f :: held) => some ({ a with call := .failing (r.mapErr f.onErr) held }, none)
  | .failing (.err e) [] => some ({ a with call := .idle, results := a.results ++ [.err e] }, none)
  | .failing r [] =>
    some ({ a with call := .idle, results := a.results ++ [r], script := [], guards := [] }, none)
  | .idle =>
    match a.script with
    | [] => none
    | .guard r w :: cs => some ({ a with script := cs, guards := (r, w) :: a.guards }, none)
    | .drop r :: cs => some ({ a with script := cs, guards := dropGuard r a.guards }, none)
    | .set r c :: cs =>
      some ({ a with script := cs },
        if a.guards.any (fun g => g.1 == r && alone? kind g) then some (r, c) else none)
    | .encode c :: cs => some ({ a with script := cs, call := .encoding c [] }, none)
    | .through r :: cs =>
      if a.guards.any (fun g => g.1 == r) then
        some ({ a with script := cs, call := .encoding (content r) [] }, none)
      else some ({ a with script := cs }, none)

/-- What the locks contain after a step. -/
def wrote (content : Nat → List Piece) : Option (Nat × List Piece) → Nat → List Piece
  | none => content
  | some (r, c) => fun r' => if r' = r then c else content r'

/-- The next step of the thread `k`, or `none` if it has to wait or is over. -/
def Guards.step (joins : Guards → Nat → Bool) (s : Guards) (k : Nat) : Option Guards :=
  match s.agents[k]? with
  | none => none
  | some a =>
    if (match a.asks with | some g => s.lets joins g | none => true) then
      match a.next s.kind s.content with
      | none => none
      | some (a', w) => some { s with agents := s.agents.set k a', content := wrote s.content w }
    else none

/-- A schedule: which thread is to make a step. One that has to wait does nothing. -/
def Guards.run (joins : Guards → Nat → Bool) (s : Guards) : List Nat → Guards
  | [] => s
  | k :: ks => ((s.step joins k).getD s).run joins ks

/-- How many steps of a schedule were made. -/
def Guards.made (joins : Guards → Nat → Bool) (s : Guards) : List Nat → Nat
  | [] => 0
  | k :: ks => (if (s.step joins k).isSome then 1 else 0) + ((s.step joins k).getD s).made joins ks

end Oct
