import Verif.Model.Encode
/-
A program that packs values into datagrams of at most as many octets as its buffer has: it encodes each value behind
those before it, and if there is no room left, sends what it has and begins anew. Trying is
`Output::new(&mut buf[used..])` (oct/src/encode/output/mod.rs:39-41), `Encode::encode`
(oct/src/encode/encode/mod.rs:146) and `Output::position` (oct/src/encode/output/mod.rs:111-113). The crate has no such
program; it is what its users write.
SIMPLIFICATION: the panic for lack of room (`write(…).unwrap()`, oct/src/encode/encode/mod.rs:861) is caught, and so are
all others.
-/
namespace Oct

/-- The state of the program. -/
structure Sender where
  /-- The buffer. -/
  buf : List Byte
  /-- How many octets of it are to be sent. -/
  used : Nat
  /-- How many values these are. -/
  count : Nat
  /-- The datagrams that were sent, in order. -/
  sent : List (List Byte)
  /-- The values that could not be sent, in order. -/
  refused : List (Sigma Ty.Val)

namespace Sender

/-- Encodes a value behind what is in the buffer; what is written counts only if that succeeds. -/
def put (s : Sender) (x : Sigma Ty.Val) : Res EncErr Unit × Sender :=
  match x.1.encode x.2 (Output.new (s.buf.drop s.used)) with
  | (.ok (), o) =>
    (.ok (), { s with buf := s.buf.take s.used ++ o.buf, used := s.used + o.position, count := s.count + 1 })
  | (r, o) => (r, { s with buf := s.buf.take s.used ++ o.buf })

/-- Sends what is in the buffer, unless there are no values in it. -/
def flush (s : Sender) : Sender :=
  if s.count = 0 then s else { s with sent := s.sent ++ [s.buf.take s.used], used := 0, count := 0 }

/-- A value is to be sent. If there is no room for it, the buffer is flushed first. -/
def offer (s : Sender) (x : Sigma Ty.Val) : Sender :=
  match s.put x with
  | (.ok (), s) => s
  | (.panic .shortOutput, s) =>
    match s.flush.put x with
    | (.ok (), s) => s
    | (_, s) => { s with refused := s.refused ++ [x] }
  | (_, s) => { s with refused := s.refused ++ [x] }

/-- All these values are to be sent, with this buffer. -/
def pack (buf : List Byte) (xs : List (Sigma Ty.Val)) : Sender :=
  (xs.foldl offer ⟨buf, 0, 0, [], []⟩).flush

end Sender
end Oct
