import Verif.Model.Memory
/-
A program in safe Rust that uses streams: it owns buffers, has any number of streams and slices over
parts of them, and does with these whatever the borrow checker lets it (Spec/Client). Twice: with
lists for the contents of the buffers, and in memory, with pointers.
Files: oct/src/encode/output/mod.rs, oct/src/decode/input/mod.rs.
-/
namespace Oct

/-- A part of a buffer, `buf[lo..lo + len]`. -/
structure Region where
  buf : Nat
  lo : Nat
  len : Nat
  deriving DecidableEq

/-- A stream over a part of a buffer: what it borrows, and its position. -/
structure Handle where
  region : Region
  pos : Nat
  deriving DecidableEq

/-- Buffers, streams and shared slices, by their names. -/
structure Client where
  bufs : Nat → List Byte
  outs : Nat → Option Handle
  ins : Nat → Option Handle
  refs : Nat → Option Region

/-- What the program does. -/
inductive ClientOp where
  /-- `Output::new(&mut buf[..])`: oct/src/encode/output/mod.rs:39-41. -/
  | openOut (k : Nat) (r : Region)
  /-- `Input::new(&buf[..])`: oct/src/decode/input/mod.rs:37-39. -/
  | openIn (k : Nat) (r : Region)
  /-- `&buf[..]`. -/
  | borrow (j : Nat) (r : Region)
  /-- `&refs[j][lo..lo + len]`. -/
  | sub (j lo len j' : Nat)
  /-- `outs[k].write(refs[j])`: oct/src/encode/output/mod.rs:49-71. -/
  | write (k j : Nat)
  /-- `outs[k].write(outs[k'].as_slice())`: oct/src/encode/output/mod.rs:49-71, 83-90. -/
  | writeFrom (k k' : Nat)
  /-- `outs[k].as_slice()`, `.position()`, `.remaining()`, `.capacity()`:
  oct/src/encode/output/mod.rs:83-113. -/
  | look (k : Nat)
  /-- `refs[j] = ins[k].read(n)?`: oct/src/decode/input/mod.rs:49-69. -/
  | read (k n j : Nat)
  /-- `ins[k].read_into(&mut buf[..])`: oct/src/decode/input/mod.rs:79-101. -/
  | readInto (k : Nat) (r : Region)
  /-- `ins[k].position()`, `.remaining()`, `.capacity()`: oct/src/decode/input/mod.rs:103-124. -/
  | lookIn (k : Nat)
  /-- Looks at the octets of a slice. -/
  | see (j : Nat)
  /-- `buf[i] = x`. -/
  | set (b i : Nat) (x : Byte)
  | dropOut (k : Nat)
  | dropIn (k : Nat)
  | dropRef (j : Nat)

/-- What the program learns from it. -/
inductive Seen where
  | done
  | octets (l : List Byte)
  | numbers (pos remaining capacity : Nat)
  | stream (l : List Byte) (pos remaining capacity : Nat)
  | outErr (e : OutputError)
  | inErr (e : InputError)
  deriving DecidableEq

/-- Replaces an entry. -/
def setAt {α : Type} (f : Nat → α) (k : Nat) (x : α) : Nat → α := fun k' => if k' = k then x else f k'

/-- The octets of a region. -/
def Client.content (c : Client) (r : Region) : List Byte := ((c.bufs r.buf).drop r.lo).take r.len

/-- Puts octets in a region. -/
def Client.put (c : Client) (r : Region) (d : List Byte) : Client :=
  { c with bufs := setAt c.bufs r.buf <|
      (c.bufs r.buf).take r.lo ++ d ++ (c.bufs r.buf).drop (r.lo + d.length) }

/-- The stream as a value. -/
def Client.output (c : Client) (h : Handle) : Output := ⟨c.content h.region, h.pos⟩

/-- The stream as a value. -/
def Client.input (c : Client) (h : Handle) : Input := ⟨c.content h.region, h.pos⟩

/-- `outs[k].write(d)`. -/
def Client.writeTo (c : Client) (k : Nat) (h : Handle) (d : List Byte) : Seen × Client :=
  match (c.output h).write d with
  | (.error e, _) => (.outErr e, c)
  | (.ok (), o) => (.done, { c.put h.region o.buf with outs := setAt c.outs k (some ⟨h.region, o.pos⟩) })

/-- One step, on values. Without the streams and slices that it needs, nothing happens (the borrow
checker does not let this come up). -/
def Client.step (c : Client) : ClientOp → Seen × Client
  | .openOut k r => (.done, { c with outs := setAt c.outs k (some ⟨r, 0⟩) })
  | .openIn k r => (.done, { c with ins := setAt c.ins k (some ⟨r, 0⟩) })
  | .borrow j r => (.done, { c with refs := setAt c.refs j (some r) })
  | .sub j lo len j' =>
    match c.refs j with
    | none => (.done, c)
    | some r => (.done, { c with refs := setAt c.refs j' (some ⟨r.buf, r.lo + lo, len⟩) })
  | .write k j =>
    match c.outs k, c.refs j with
    | some h, some r => c.writeTo k h (c.content r)
    | _, _ => (.done, c)
  | .writeFrom k k' =>
    match c.outs k, c.outs k' with
    | some h, some h' => c.writeTo k h (c.output h').asSlice
    | _, _ => (.done, c)
  | .look k =>
    match c.outs k with
    | none => (.done, c)
    | some h => (.stream (c.output h).asSlice (c.output h).position (c.output h).remaining
        (c.output h).capacity, c)
  | .read k n j =>
    match c.ins k with
    | none => (.done, c)
    | some h =>
      match (c.input h).read n with
      | (.error e, _) => (.inErr e, c)
      | (.ok _, i) => (.done, { c with
          ins := setAt c.ins k (some ⟨h.region, i.pos⟩)
          refs := setAt c.refs j (some ⟨h.region.buf, h.region.lo + h.pos, n⟩) })
  | .readInto k r =>
    match c.ins k with
    | none => (.done, c)
    | some h =>
      match (c.input h).readInto (c.content r) with
      | (.error e, _, _) => (.inErr e, c)
      | (.ok (), d, i) => (.done, { c.put r d with ins := setAt c.ins k (some ⟨h.region, i.pos⟩) })
  | .lookIn k =>
    match c.ins k with
    | none => (.done, c)
    | some h => (.numbers (c.input h).position (c.input h).remaining (c.input h).capacity, c)
  | .see j =>
    match c.refs j with
    | none => (.done, c)
    | some r => (.octets (c.content r), c)
  | .set b i x => (.done, c.put ⟨b, i, 1⟩ [x])
  | .dropOut k => (.done, { c with outs := setAt c.outs k none })
  | .dropIn k => (.done, { c with ins := setAt c.ins k none })
  | .dropRef j => (.done, { c with refs := setAt c.refs j none })

/-- The same in memory: where buffers are, and pointers for streams and slices. -/
structure RawClient where
  mem : Mem Byte
  base : Nat → Nat
  outs : Nat → Option RawOutput
  ins : Nat → Option RawInput
  refs : Nat → Option RawSlice

/-- `buf[lo..lo + len]` as a pointer with a length. -/
def RawClient.slice (c : RawClient) (r : Region) : RawSlice := ⟨⟨c.base r.buf, r.lo⟩, r.len⟩

/-- `outs[k].write(data)`. -/
def RawClient.writeTo (c : RawClient) (k : Nat) (o : RawOutput) (data : RawSlice) :
    Res Empty Seen × RawClient :=
  match o.write data c.mem with
  | (.ok (), o', m) => (.ok .done, { c with mem := m, outs := setAt c.outs k (some o') })
  | (.err e, _, _) => (.ok (.outErr e), c)
  | (.panic p, _, _) => (.panic p, c)
  | (.ub u, _, _) => (.ub u, c)

/-- One step, in memory. -/
def RawClient.step (c : RawClient) : ClientOp → Res Empty Seen × RawClient
  | .openOut k r => (.ok .done, { c with outs := setAt c.outs k (some ⟨c.slice r, 0⟩) })
  | .openIn k r => (.ok .done, { c with ins := setAt c.ins k (some ⟨c.slice r, 0⟩) })
  | .borrow j r => (.ok .done, { c with refs := setAt c.refs j (some (c.slice r)) })
  | .sub j lo len j' =>
    match c.refs j with
    | none => (.ok .done, c)
    | some s =>
      match c.mem.add s.ptr lo with
      | .error u => (.ub u, c)
      | .ok p => (.ok .done, { c with refs := setAt c.refs j' (some ⟨p, len⟩) })
  | .write k j =>
    match c.outs k, c.refs j with
    | some o, some s => c.writeTo k o s
    | _, _ => (.ok .done, c)
  | .writeFrom k k' =>
    match c.outs k, c.outs k' with
    | some o, some o' => c.writeTo k o ⟨o'.buf.ptr, o'.pos⟩
    | _, _ => (.ok .done, c)
  | .look k =>
    match c.outs k with
    | none => (.ok .done, c)
    | some o =>
      match o.asSlice c.mem, o.remaining with
      | .error u, _ => (.ub u, c)
      | _, .error u => (.ub u, c)
      | .ok l, .ok n => (.ok (.stream l o.pos n o.buf.len), c)
  | .read k n j =>
    match c.ins k with
    | none => (.ok .done, c)
    | some i =>
      match i.read n c.mem with
      | (.ok s, i') => (.ok .done, { c with
          ins := setAt c.ins k (some i'), refs := setAt c.refs j (some s) })
      | (.err e, _) => (.ok (.inErr e), c)
      | (.panic p, _) => (.panic p, c)
      | (.ub u, _) => (.ub u, c)
  | .readInto k r =>
    match c.ins k with
    | none => (.ok .done, c)
    | some i =>
      match i.readInto (c.slice r) c.mem with
      | (.ok (), i', m) => (.ok .done, { c with mem := m, ins := setAt c.ins k (some i') })
      | (.err e, _, _) => (.ok (.inErr e), c)
      | (.panic p, _, _) => (.panic p, c)
      | (.ub u, _, _) => (.ub u, c)
  | .lookIn k =>
    match c.ins k with
    | none => (.ok .done, c)
    | some i =>
      match i.remaining with
      | .error u => (.ub u, c)
      | .ok n => (.ok (.numbers i.pos n i.buf.len), c)
  | .see j =>
    match c.refs j with
    | none => (.ok .done, c)
    | some s =>
      match c.mem.values s.ptr s.len with
      | .error u => (.ub u, c)
      | .ok l => (.ok (.octets l), c)
  | .set b i x =>
    match c.mem.store ⟨c.base b, i⟩ [some x] with
    | none => (.panic .indexOutOfBounds, c)
    | some m => (.ok .done, { c with mem := m })
  | .dropOut k => (.ok .done, { c with outs := setAt c.outs k none })
  | .dropIn k => (.ok .done, { c with ins := setAt c.ins k none })
  | .dropRef j => (.ok .done, { c with refs := setAt c.refs j none })

/-- Steps in memory, up to one that does not succeed. -/
def RawClient.run (c : RawClient) : List ClientOp → Res Empty (List Seen) × RawClient
  | [] => (.ok [], c)
  | op :: ops =>
    match c.step op with
    | (.ok s, c') =>
      match c'.run ops with
      | (.ok ss, c'') => (.ok (s :: ss), c'')
      | (.err e, c'') => (.err e, c'')
      | (.panic p, c'') => (.panic p, c'')
      | (.ub u, c'') => (.ub u, c'')
    | (.err e, c') => (.err e, c')
    | (.panic p, c') => (.panic p, c')
    | (.ub u, c') => (.ub u, c')

/-- Steps on values. -/
def Client.run (c : Client) : List ClientOp → List Seen × Client
  | [] => ([], c)
  | op :: ops => ((c.step op).1 :: ((c.step op).2.run ops).1, ((c.step op).2.run ops).2)

end Oct
