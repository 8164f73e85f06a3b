import Verif.Model.Slot
/-
The server and clients of the crate documentation's example, over datagrams: oct/src/lib.rs:210-311.
The message types and the server's handler are parameters.

SIMPLIFICATIONS: one server, any number of clients with one request slot and one response slot each;
a step of a party is atomic; the network keeps every datagram ever sent, so that a schedule can
deliver it to any party of the right kind never, once or many times, in any order.
-/
namespace Oct

/-- `UdpSocket::recv(&mut slot)`: the buffer is that of `deref_mut` (oct/src/slot/mod.rs:380-385), that is, the
whole buffer of the slot; what does not fit is discarded (std documentation of `recv_from`). Returns
the number of octets. -/
def Slot.recv (s : Slot) (datagram : List Byte) : Nat × Slot :=
  let count := min datagram.length s.capacity
  (count, { s with buf := datagram.take s.capacity ++ s.buf.drop count })

/-- `struct Party { socket, request_buf, response_buf }`: oct/src/lib.rs:247-252. -/
structure Party where
  requestBuf : Slot
  responseBuf : Slot
  deriving DecidableEq

/-- `Party::new`: oct/src/lib.rs:254-267. -/
def Party.new (sizeOf : Ty → Nat) (req resp : Ty) : Party :=
  { requestBuf := Slot.new sizeOf req, responseBuf := Slot.new sizeOf resp }

/-- The server, the clients, the datagrams sent so far in each direction, and what the parties have
seen. -/
structure Net (req resp : Ty) where
  server : Party
  clients : Nat → Party
  requests : List (List Byte)
  responses : List (List Byte)
  /-- The outcomes of the clients' `write`. -/
  asked : List (Res EncErr Unit)
  /-- The outcomes of the server's `read`. -/
  heard : List (Res DecErr req.Val)
  /-- The outcomes of the server's `write`. -/
  said : List (Res EncErr Unit)
  /-- The outcomes of the clients' `read`, and who read. -/
  got : List (Nat × Res DecErr resp.Val)

/-- Before anything is sent. -/
def Net.start (sizeOf : Ty → Nat) (req resp : Ty) : Net req resp where
  server := Party.new sizeOf req resp
  clients := fun _ => Party.new sizeOf req resp
  requests := []
  responses := []
  asked := []
  heard := []
  said := []
  got := []

/-- What can happen next. -/
inductive NetStep (req : Ty) where
  /-- A client sends a request: oct/src/lib.rs:299-302. The result of `write` is ignored there, so the
  slot is sent after an error, too. -/
  | ask (c : Nat) (v : req.Val)
  /-- The server takes the `i`-th request datagram and answers it: 276-289. -/
  | serve (i : Nat)
  /-- A client takes the `i`-th response datagram: 304-309. -/
  | listen (c : Nat) (i : Nat)
  /-- Somebody else sends a datagram to the server. -/
  | forge (datagram : List Byte)

/-- The contents of a slot that is passed as `&[u8]` (`deref`: oct/src/slot/mod.rs:371-377). -/
def Slot.sent (s : Slot) : List (List Byte) :=
  match s.asSlice with
  | .ok l => [l]
  | _ => []

/-- One step, with the handler `f` of the server. A datagram that was not sent is not received. A
party whose `unwrap` panics sends nothing. -/
def Net.step {req resp : Ty} (f : req.Val → resp.Val) (n : Net req resp) : NetStep req → Net req resp
  | .ask c v =>
    let (r, slot) := (n.clients c).requestBuf.write req v
    { n with
      clients := fun c' => if c' = c then { n.clients c with requestBuf := slot } else n.clients c'
      asked := n.asked ++ [r]
      requests := n.requests ++
        (match r with | .ok () => slot.sent | .err _ => slot.sent | _ => []) }
  | .serve i =>
    match n.requests[i]? with
    | none => n
    | some d =>
      let (count, slot) := n.server.requestBuf.recv d
      let (_, slot) := slot.setLen count
      let request := slot.read req
      match request with
      | .ok v =>
        let (r, out) := n.server.responseBuf.write resp (f v)
        { n with
          server := { requestBuf := slot, responseBuf := out }
          heard := n.heard ++ [request]
          said := n.said ++ [r]
          responses := n.responses ++ (match r with | .ok () => out.sent | _ => []) }
      | _ => { n with server := { n.server with requestBuf := slot }, heard := n.heard ++ [request] }
  | .listen c i =>
    match n.responses[i]? with
    | none => n
    | some d =>
      let (_, slot) := (n.clients c).responseBuf.recv d
      { n with
        clients := fun c' => if c' = c then { n.clients c with responseBuf := slot } else n.clients c'
        got := n.got ++ [(c, slot.read resp)] }
  | .forge d => { n with requests := n.requests ++ [d] }

/-- A schedule. -/
def Net.run {req resp : Ty} (f : req.Val → resp.Val) (n : Net req resp) (steps : List (NetStep req)) :
    Net req resp :=
  steps.foldl (Net.step f) n

end Oct
