import Verif.Model.Stream
/-
Abstract streams: an output stream is a log, an input stream is a queue of octets.
-/
namespace Oct.Spec

/-- One write to a log of bounded capacity: all of the data is appended, or nothing. -/
def logWrite (cap : Nat) (log data : List UInt8) : Except OutputError Unit × List UInt8 :=
  if log.length + data.length ≤ cap then (.ok (), log ++ data)
  else (.error { capacity := cap, position := log.length, count := data.length }, log)

/-- A history of writes: the outcome of each, and the final log. -/
def logWrites (cap : Nat) : (log : List UInt8) → List (List UInt8) →
    List (Except OutputError Unit) × List UInt8
  | log, [] => ([], log)
  | log, d :: ds =>
    let r := logWrite cap log d
    let rs := logWrites cap r.2 ds
    (r.1 :: rs.1, rs.2)

/-- A read request: by reference, or copying over a destination. -/
inductive ReadOp where
  | read (count : Nat)
  | readInto (dst : List UInt8)

/-- Number of octets asked for. -/
def ReadOp.count : ReadOp → Nat
  | .read n => n
  | .readInto dst => dst.length

/-- What the caller holds after a read: the outcome and the data now visible to it (for a copying
read, the contents of the destination). -/
structure ReadOut where
  error : Option InputError
  data : List UInt8

/-- One read from the octets `rest` that were not delivered yet, out of `cap`. -/
def queueRead (cap : Nat) (rest : List UInt8) (op : ReadOp) : ReadOut × List UInt8 :=
  if op.count ≤ rest.length then (⟨none, rest.take op.count⟩, rest.drop op.count)
  else
    (⟨some { capacity := cap, position := cap - rest.length, count := op.count },
      match op with
      | .read _ => []
      | .readInto dst => dst⟩, rest)

/-- A history of reads. -/
def queueReads (cap : Nat) : (rest : List UInt8) → List ReadOp → List ReadOut × List UInt8
  | rest, [] => ([], rest)
  | rest, op :: ops =>
    let r := queueRead cap rest op
    let rs := queueReads cap r.2 ops
    (r.1 :: rs.1, rs.2)

/-- The data delivered by the successful reads, in order. -/
def delivered : List ReadOut → List UInt8
  | [] => []
  | ⟨none, d⟩ :: rs => d ++ delivered rs
  | ⟨some _, _⟩ :: rs => delivered rs

/-- The data of the writes that succeeded, in order. -/
def accepted : List (List UInt8) → List (Except OutputError Unit) → List UInt8
  | d :: ds, .ok () :: rs => d ++ accepted ds rs
  | _ :: ds, .error _ :: rs => accepted ds rs
  | _, _ => []

end Oct.Spec
