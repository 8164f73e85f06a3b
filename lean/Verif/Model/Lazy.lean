import Verif.Model.Encode
/-
Values that are made when they are first needed: `LazyCell` and `LazyLock`, which threads encode.

`LazyCell::encode` (oct/src/encode/encode/mod.rs:454-461) and `LazyLock::encode` (463-472) are
`T::encode(self, output)`: the dereference calls `force` of std, which calls the initialiser if nobody
has yet. An initialiser may force others in turn, and what it makes may contain others.

`force` of std, from its documentation and source: the first one to come calls the initialiser; who
comes to a `LazyLock` meanwhile waits; whoever comes later gets what was made. If the initialiser
panics then the value is poisoned, and everybody who comes to it later panics as well. An initialiser
that forces the value that it makes itself panics in a `LazyCell`; in a `LazyLock` it is unspecified
whether it panics or waits for itself. In this model, it waits.

SIMPLIFICATIONS: what is encoded between two such values is one step; what an initialiser does other
than to force others is not a step of its own; initialisers have no effects besides. A `LazyCell` cannot
be shared between threads, which the model does not require.
-/
namespace Oct

/-- A part of what an encoder does. -/
inductive Part where
  /-- Encodes something in which nothing is made later. -/
  | plain (m : Enc Unit)
  /-- Encodes the lazy value with the number `k`, and turns an error of that with `g`. -/
  | lazy (k : Nat) (g : EncErr → EncErr)

/-- A part whose errors are turned with `g`. -/
def Part.under (g : EncErr → EncErr) : Part → Part
  | .plain m => .plain (m.mapErr g)
  | .lazy k g' => .lazy k (fun e => g (g' e))

/-- What is left for an initialiser to do. What it makes is given by how it is encoded. -/
inductive Maker where
  | gives (v : List Part)
  | panics
  /-- Forces the lazy value `k`, and goes on with what is in it. -/
  | forces (k : Nat) (next : List Part → Maker)

/-- The state of a lazy value. -/
inductive LazyState where
  | fresh
  /-- The thread `i` is running the initialiser. -/
  | busy (i : Nat)
  | ready (v : List Part)
  | poisoned

/-- How a thread has ended. -/
inductive Ending where
  /-- The encoder has returned or panicked with `r`. -/
  | encoded (r : Res EncErr Unit)
  /-- It has panicked as a value could not be made. -/
  | notMade

/-- A thread that encodes something. -/
structure LazyThread where
  /-- The initialisers that it is running, the innermost one first. -/
  making : List (Nat × Maker)
  todo : List Part
  output : Output
  ending : Option Ending

/-- Lazy values, and the threads that encode them. -/
structure Lazies where
  /-- Whether a value is in a `LazyCell` rather than a `LazyLock`. -/
  cell : Nat → Bool
  init : Nat → Maker
  state : Nat → LazyState
  thread : Nat → LazyThread
  /-- The values whose initialiser has been called, once for each call. -/
  called : List Nat

/-- Nothing has been made and nobody has begun to encode. -/
def Lazies.start (cell : Nat → Bool) (init : Nat → Maker) (todo : Nat → List Part)
    (output : Nat → Output) : Lazies where
  cell := cell
  init := init
  state := fun _ => .fresh
  thread := fun i => ⟨[], todo i, output i, none⟩
  called := []

/-- The value that a thread is forcing. -/
def LazyThread.asks (t : LazyThread) : Option Nat :=
  match t.ending, t.making, t.todo with
  | none, [], .lazy k _ :: _ => some k
  | none, (_, .forces k _) :: _, _ => some k
  | _, _, _ => none

/-- The thread goes on with the value that it has forced. -/
def LazyThread.told (t : LazyThread) (v : List Part) : LazyThread :=
  match t.making, t.todo with
  | [], .lazy _ g :: rest => { t with todo := v.map (Part.under g) ++ rest }
  | (k, .forces _ next) :: ms, _ => { t with making := (k, next v) :: ms }
  | _, _ => t

/-- The thread `i` goes to `t`. -/
def Lazies.goto (s : Lazies) (i : Nat) (t : LazyThread) : Lazies :=
  { s with thread := fun i' => if i' = i then t else s.thread i' }

/-- The value `k` gets the state `m`. -/
def Lazies.mark (s : Lazies) (k : Nat) (m : LazyState) : Lazies :=
  { s with state := fun k' => if k' = k then m else s.state k' }

/-- The thread `i` panics. All values whose initialisers it was running are poisoned. -/
def Lazies.unwind (s : Lazies) (i : Nat) : Lazies :=
  { s with state := fun k =>
      if k ∈ (s.thread i).making.map Prod.fst then .poisoned else s.state k }.goto i
    { s.thread i with making := [], ending := some .notMade }

/-- The next step of the thread `i`, or `none` if it has to wait or is over. -/
def Lazies.step (s : Lazies) (i : Nat) : Option Lazies :=
  match (s.thread i).asks with
  | some k =>
    match s.state k with
    | .fresh =>
      some ({ s.mark k (.busy i) with called := k :: s.called }.goto i
        { s.thread i with making := (k, s.init k) :: (s.thread i).making })
    | .ready v => some (s.goto i ((s.thread i).told v))
    | .poisoned => some (s.unwind i)
    | .busy j => if j = i ∧ s.cell k = true then some (s.unwind i) else none
  | none =>
    match (s.thread i).ending, (s.thread i).making, (s.thread i).todo with
    | none, (k, .gives v) :: ms, _ =>
      some ((s.mark k (.ready v)).goto i { s.thread i with making := ms })
    | none, (_, .panics) :: _, _ => some (s.unwind i)
    | none, [], .plain m :: rest =>
      match m (s.thread i).output with
      | (.ok (), o) => some (s.goto i { s.thread i with todo := rest, output := o })
      | (r, o) => some (s.goto i { s.thread i with output := o, ending := some (.encoded r) })
    | none, [], [] => some (s.goto i { s.thread i with ending := some (.encoded (.ok ())) })
    | _, _, _ => none

/-- A schedule: which thread is to make a step. One that has to wait does nothing. -/
def Lazies.run (s : Lazies) : List Nat → Lazies
  | [] => s
  | i :: is => ((s.step i).getD s).run is

/-- How many steps of a schedule were made. -/
def Lazies.made (s : Lazies) : List Nat → Nat
  | [] => 0
  | i :: is => (if (s.step i).isSome then 1 else 0) + ((s.step i).getD s).made is

end Oct
