import Verif.Model.Unwind
/-
Decoding hash maps and hash sets (oct/src/decode/decode/mod.rs:322-374) with keys and values whose
code (`decode`, `hash`, `eq`, `drop`) may fail, panic, or answer whatever it likes: what becomes of
the keys and of the values. Calls and items as in Model/Unwind.

The table itself is std's, and is described by what oct relies on: `insert` hashes the new key,
compares it with some of the keys in the table until one is said to be equal, and either keeps both
key and value, or replaces the value of the key found, destroys the new key, and returns the value
that was there. The table was made large enough beforehand (line 334, 363) and does not hash the keys
it has again.

SIMPLIFICATIONS: each key and value is of a type with a destructor; the hasher has none; one thread.
-/
namespace Oct

/-- A key, and the value that belongs to it: none, for a set. -/
structure TableSlot where
  key : Nat
  value : List Nat
  deriving DecidableEq

/-- The items of a slot, in the order in which they are destroyed. -/
def TableSlot.items (e : TableSlot) : List Nat := e.key :: e.value

/-- What is not fixed about std's tables. -/
structure TableOf where
  /-- The slots that a new key is compared with, in this order, in this round. -/
  candidates : Nat → List TableSlot → List Nat
  /-- The order in which the slots are destroyed. -/
  layout : List TableSlot → List TableSlot
  /-- A destructor that panics keeps the slots after its own from being destroyed. -/
  stops : Bool
  /-- A value about to be returned is lost if the destructor of the new key panics. -/
  loses : Bool

/-- Destructors that never panic. -/
def quietDrop (x : Nat) : Act Unit := do
  touch x
  markDropped x

/-- What Rust does to destroy several items, with these destructors: see `dropGlue`. -/
def glueWith (d : Nat → Act Unit) : List Nat → Act Unit
  | [] => pure ()
  | x :: xs => do
    (d x).guard (glueWith d xs)
    glueWith d xs

/-- Destroys slots one by one, and no others once one has panicked. -/
def dropSlots (d : Nat → Act Unit) : List TableSlot → Act Unit
  | [] => pure ()
  | e :: es => do
    glueWith d e.items
    dropSlots d es

/-- Destroys a table. -/
def dropTable (T : TableOf) (d : Nat → Act Unit) (m : List TableSlot) : Act Unit :=
  if T.stops then dropSlots d (T.layout m) else glueWith d ((T.layout m).flatMap TableSlot.items)

/-- Compares the new key with the keys of the slots at these places, until one is said to be equal to
it: `K::eq`. -/
def findEqual (k : Nat) (m : List TableSlot) : List Nat → Act (Option Nat)
  | [] => pure none
  | i :: is =>
    match m[i]? with
    | none => findEqual k m is
    | some e => do
      touch k
      touch e.key
      if ← userCall then pure (some i) else findEqual k m is

/-- The value of the slot at a place. -/
def valueAt (m : List TableSlot) (i : Nat) : List Nat :=
  match m[i]? with
  | none => []
  | some e => e.value

/-- Another value for the slot at a place. -/
def replaceAt (m : List TableSlot) (i : Nat) (v : List Nat) : List TableSlot :=
  m.modify i fun e => { e with value := v }

/-- `this.insert(key, value);` and `this.insert(key);` (lines 344 and 370). `K::hash` is called first.
If the code of the key panics, `insert` destroys its arguments, and `decode` the table. The value that
was there is destroyed at the end of the statement. -/
def insertSlot (T : TableOf) (d : Nat → Act Unit) (round : Nat) (m : List TableSlot) (k : Nat)
    (v : List Nat) : Act (List TableSlot) := do
  let found ← (do
      touch k
      let _ ← userCall
      findEqual k m (T.candidates round m) : Act (Option Nat)).guard (do
    glueWith d (v ++ [k])
    dropTable T d m)
  match found with
  | none => pure (m ++ [⟨k, v⟩])
  | some i => do
    (d k).guard (do
      glueWith d (if T.loses then [] else valueAt m i)
      dropTable T d (replaceAt m i v))
    (glueWith d (valueAt m i)).guard (dropTable T d (replaceAt m i v))
    pure (replaceAt m i v)

/-- `V::decode(input)` for a map, nothing for a set. -/
def decodeOne (pairs : Bool) : Act (Option (List Nat)) :=
  if pairs then do
    match ← userDecode with
    | none => pure none
    | some x => pure (some [x])
  else pure (some [])

/-- The loop (lines 336-345 and 365-371), with `n` rounds to go: `none` is an error, on which the
locals are destroyed in the order opposite to that of their declarations. -/
def decodeSlots (T : TableOf) (d : Nat → Act Unit) (pairs : Bool) :
    (n : Nat) → List TableSlot → Act (Option (List TableSlot))
  | 0, m => pure (some m)
  | n + 1, m => do
    match ← userDecode.guard (dropTable T d m) with
    | none => do
      dropTable T d m
      pure none
    | some k => do
      match ← (decodeOne pairs).guard (do
          d k
          dropTable T d m) with
      | none => do
        (d k).guard (dropTable T d m)
        dropTable T d m
        pure none
      | some v => do
        let m' ← insertSlot T d n m k v
        decodeSlots T d pairs n m'

/-- `HashMap::decode` (322-347) and `HashSet::decode` (352-374) once the length is decoded:
`S::default()` is called first. -/
def decodeTable (T : TableOf) (d : Nat → Act Unit) (pairs : Bool) (n : Nat) :
    Act (Option (List TableSlot)) := do
  let _ ← userCall
  decodeSlots T d pairs n []

end Oct
