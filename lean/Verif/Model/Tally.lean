import Verif.Model.Encode
/-
Encoding, with an account of the work: calls of `encode` and calls of `Output::write`, one for each that is
written in the source. The result and the stream are those of Model/Encode; `Proofs/Tally.lean` proves that.
Line numbers without a file are those of oct/src/encode/encode/mod.rs.

SIMPLIFICATIONS: nothing else counts (comparisons, conversions of errors, locks that are taken, steps of
iterators); a call is counted whether or not the compiler inlines it; the octets that a write copies are
accounted for by the stream.
-/
namespace Oct

/-- What each thing costs. -/
structure Prices where
  /-- A call of `encode`. -/
  call : Nat
  /-- A call of `Output::write`. -/
  write : Nat

/-- One for each call of `encode`. -/
def Prices.calls : Prices := ⟨1, 0⟩

/-- One for each write. -/
def Prices.writes : Prices := ⟨0, 1⟩

/-- An encoding, and what it costs. -/
def Effort := Output → (Res EncErr Unit × Output) × Nat

namespace Effort

/-- An encoding that costs `c`. -/
def of (c : Nat) (e : Enc Unit) : Effort := fun o => (e o, c)

/-- A call of `encode`, with `m` as its body. -/
def call (p : Prices) (m : Effort) : Effort := fun o => ((m o).1, p.call + (m o).2)

/-- `.map_err(g)`. -/
def mapErr (g : EncErr → EncErr) (m : Effort) : Effort := fun o =>
  (((m o).1.1.mapErr g, (m o).1.2), (m o).2)

/-- Sequencing with the `?` operator. -/
def andThen (m n : Effort) : Effort := fun o =>
  match m o with
  | ((.ok _, o'), c) => ((n o').1, c + (n o').2)
  | ((.err e, o'), c) => ((.err e, o'), c)
  | ((.panic x, o'), c) => ((.panic x, o'), c)
  | ((.ub u, o'), c) => ((.ub u, o'), c)

end Effort

/-- `impl_numeric!`: 854-867. One call, one write (861). -/
def tallyNum (p : Prices) (n x : Nat) : Effort := .call p (.of p.write (encNum n x))

/-- `usize::encode`: 820-832, with the call of `u16::encode`. -/
def tallyUsize (p : Prices) (n : Nat) : Effort :=
  .call p (if n ≤ 65535 then tallyNum p 2 n else .of 0 (Enc.fail (.usize n)))

/-- `isize::encode`: 439-451, with the call of `i16::encode`. -/
def tallyIsize (p : Prices) (x : Int) : Effort :=
  .call p (if -32768 ≤ x ∧ x ≤ 32767 then tallyNum p 2 (x % 65536).toNat
    else .of 0 (Enc.fail (.isize x)))

/-- A primitive integer: see `encRepr`. -/
def tallyRepr (p : Prices) : Repr → Int → Effort
  | .int k, x => tallyNum p k.bytes (x % (2 : Int) ^ (8 * k.bytes)).toNat
  | .usize, x => tallyUsize p x.toNat
  | .isize, x => tallyIsize p x

/-- `bool::encode`: 228-236, with the call of `u8::encode`. -/
def tallyBool (p : Prices) (b : Bool) : Effort := .call p (tallyNum p 1 (if b then 1 else 0))

/-- The loops of 186-190, 207-211 and 485-489. -/
def tallyItems {α : Type} (m : α → Effort) (wrap : Nat → EncErr → EncErr) :
    (i : Nat) → List α → Effort
  | _, [] => .of 0 (Enc.pure ())
  | i, v :: vs => ((m v).mapErr (wrap i)).andThen (tallyItems m wrap (i + 1) vs)

/-- `[T]::encode`: 196-215. -/
def tallySlice {α : Type} (p : Prices) (m : α → Effort) (l : List α) : Effort :=
  .call p (((tallyUsize p l.length).mapErr .badLength).andThen
    (tallyItems m (fun i e => .badItem (.item i e)) 0 l))

/-- `LinkedList::encode`: 475-493. -/
def tallyLinkedList {α : Type} (p : Prices) (m : α → Effort) (l : List α) : Effort :=
  .call p (((tallyUsize p l.length).mapErr .badLength).andThen
    (tallyItems m (fun i e => .badItem (.pair i e)) 0 l))

/-- `[u8]::encode`: each octet is a call and a write of its own. -/
def tallyBytes (p : Prices) (bs : List Byte) : Effort := tallySlice p (fun b => tallyNum p 1 b.toNat) bs

/-- The loop of `HashMap::encode`: 349-353. -/
def tallyEntries {α β : Type} (mK : α → Effort) (mV : β → Effort) : List (α × β) → Effort
  | [] => .of 0 (Enc.pure ())
  | (k, v) :: l => (mK k).andThen ((mV v).andThen (tallyEntries mK mV l))

/-- The loop of `HashSet::encode`: 369-372. -/
def tallyKeys {α : Type} (mK : α → Effort) : List α → Effort
  | [] => .of 0 (Enc.pure ())
  | k :: l => (mK k).andThen (tallyKeys mK l)

/-- `Option::encode`: 509-535. -/
def tallyOption {α : Type} (p : Prices) (m : α → Effort) : Option α → Effort
  | none => .call p (tallyBool p false)
  | some v => .call p ((tallyBool p true).andThen (m v))

/-- `Result::encode`: 642-674. -/
def tallyResult {α β : Type} (p : Prices) (mT : α → Effort) (mE : β → Effort) (conv : EncErr → EncErr) :
    ResultVal α β → Effort
  | .ok v => .call p ((tallyBool p false).andThen (mT v))
  | .err e => .call p ((tallyBool p true).andThen ((mE e).mapErr conv))

/-- `Bound::encode`: 238-261. -/
def tallyBound {α : Type} (p : Prices) (m : α → Effort) : BoundVal α → Effort
  | .included b => .call p ((tallyNum p 1 0).andThen ((m b).mapErr .badField))
  | .excluded b => .call p ((tallyNum p 1 1).andThen ((m b).mapErr .badField))
  | .unbounded => .call p (tallyNum p 1 2)

/-- `RefCell::encode`: 626-640. -/
def tallyRefCell {α : Type} (p : Prices) (m : α → Effort) (c : RefCellVal α) : Effort :=
  .call p (if c.mutBorrowed then .of 0 (Enc.fail .badBorrow) else (m c.val).mapErr .badValue)

/-- `Duration::encode`: 325-336. -/
def tallyDuration (p : Prices) (d : DurationVal) : Effort :=
  .call p ((tallyNum p 8 d.secs.toNat).andThen (tallyNum p 4 d.nanos))

/-- `SystemTime::encode`: 776-809, with the call of `i64::encode` at the end. -/
def tallySystemTime (p : Prices) (t : TimePlatform) (ns : Int) : Effort :=
  .call p (
    if 0 ≤ ns then tallyNum p 8 (ns / nanosPerSec).toNat
    else
      let secs := ((-ns) / nanosPerSec).toNat
      if secs = 2 ^ 63 then
        if t.overflowChecks then .of 0 (Enc.panic .arithmeticOverflow) else tallyNum p 8 (2 ^ 63)
      else tallyNum p 8 ((0 - (secs : Int)) % (2 : Int) ^ 64).toNat)

/-- `Ipv4Addr::encode`: 417-426, with the call of `u32::encode`. -/
def tallyIpv4 (p : Prices) (a : Items Byte 4) : Effort := .call p (tallyNum p 4 (fromBe a.val))

/-- `Ipv6Addr::encode`: 428-437, with the call of `u128::encode`. -/
def tallyIpv6 (p : Prices) (a : Items Byte 16) : Effort := .call p (tallyNum p 16 (fromBe a.val))

/-- `IpAddr::encode`: 391-415. -/
def tallyIpAddr (p : Prices) : IpAddrVal → Effort
  | .v4 a => .call p (((tallyNum p 1 4).mapErr .badDiscriminant).andThen ((tallyIpv4 p a).mapErr .badField))
  | .v6 a => .call p (((tallyNum p 1 6).mapErr .badDiscriminant).andThen ((tallyIpv6 p a).mapErr .badField))

/-- `SocketAddrV4::encode`: 724-735. -/
def tallySocketAddrV4 (p : Prices) (a : SocketAddrV4Val) : Effort :=
  .call p ((tallyIpv4 p a.ip).andThen (tallyNum p 2 a.port.toNat))

/-- `SocketAddrV6::encode`: 737-750. -/
def tallySocketAddrV6 (p : Prices) (a : SocketAddrV6Val) : Effort :=
  .call p ((tallyIpv6 p a.ip).andThen ((tallyNum p 2 a.port.toNat).andThen
    ((tallyNum p 4 a.flowinfo.toNat).andThen (tallyNum p 4 a.scopeId.toNat))))

/-- `SocketAddr::encode`: 699-722. -/
def tallySocketAddr (p : Prices) : SocketAddrVal → Effort
  | .v4 a => .call p ((tallyNum p 1 4).andThen (tallySocketAddrV4 p a))
  | .v6 a => .call p ((tallyNum p 1 6).andThen (tallySocketAddrV6 p a))

mutual

/-- `T::encode`, for every modelled `T`, and what it costs. -/
def Ty.tally (p : Prices) : (t : Ty) → t.Val → Effort
  | .num k, v => tallyNum p k.bytes (show BitVec (8 * k.bytes) from v).toNat
  | .bool, v => tallyBool p v
  | .char, v => .call p (tallyNum p 4 (show Char from v).toNat)     -- `u32::encode`: 283-290
  | .usize, v => tallyUsize p v
  | .isize, v => tallyIsize p v
  | .nonZero r, v => .call p (tallyRepr p r v.val)                  -- `self.get().encode`: 893-904
  | .unit _, _ => .call p (.of 0 (Enc.pure ()))
  | .infallible, v => nomatch v
  | .wrap _ t, v => .call p (t.tally p v)                           -- see `Wrap`
  | .array t _, v =>                                                -- 178-194
    .call p (tallyItems (t.tally p) (fun i e => .badItem (.item i e)) 0 v.val)
  | .seq .slice t, v => tallySlice p (t.tally p) v
  | .seq .vec t, v => .call p (tallySlice p (t.tally p) v)          -- `self.as_slice().encode`: 836-843
  | .seq .linkedList t, v => tallyLinkedList p (t.tally p) v
  | .hashMap k v, m => .call p (tallyEntries (k.tally p) (v.tally p) m.val)  -- 340-357
  | .hashSet k, s => .call p (tallyKeys (k.tally p) s.val)          -- 361-376
  | .option t, v => tallyOption p (t.tally p) v
  | .result t e, v =>
    tallyResult p (t.tally p) (e.tally p) (if t.encErrGeneric then EncErr.toGeneric else id) v
  | .bound t, v => tallyBound p (t.tally p) v
  | .range t, v => .call p ((t.tally p v.start).andThen (t.tally p v.stop))  -- 555-565
  | .rangeInclusive t, v =>                                         -- 585-595
    .call p ((t.tally p v.start).andThen (t.tally p v.stop))
  | .lock _ t, v => .call p (t.tally p v.val)                       -- 497-507, 678-688
  | .refCell t, v => tallyRefCell p (t.tally p) v
  | .duration, v => tallyDuration p v
  | .systemTime q, v => tallySystemTime p q v.val
  | .ipv4, v => tallyIpv4 p v
  | .ipv6, v => tallyIpv6 p v
  | .ipAddr, v => tallyIpAddr p v
  | .socketAddrV4, v => tallySocketAddrV4 p v
  | .socketAddrV6, v => tallySocketAddrV6 p v
  | .socketAddr, v => tallySocketAddr p v
  | .str .str, v => .call p (tallyBytes p v.val)                    -- `self.as_bytes().encode`: 752-760
  | .str .string, v => .call p (.call p (tallyBytes p v.val))       -- `self.as_str().encode`: 764-772
  | .cStr .cStr, v => .call p (tallyBytes p v.val)                  -- `self.to_bytes().encode`: 303-311
  | .cStr .cString, v => .call p (.call p (tallyBytes p v.val))     -- `self.as_c_str().encode`: 315-323
  | .sizedStr _, v =>                                               -- oct/src/sized_str/code.rs:49-56
    .call p (.call p (tallyBytes p v.val))
  | .sizedSlice t _, v => .call p (tallySlice p (t.tally p) v.val)  -- oct/src/sized_slice/code.rs:52-59
  | .tuple fs, v => .call p (fs.tally p id v)
  | .struct fs, v => .call p (fs.tally p EncErr.toGeneric v)
  | .enum r vs, v => .call p (vs.tally p r none v)

/-- See `Fields.encode`. -/
def Fields.tally (p : Prices) : (fs : Fields) → (g : EncErr → EncErr) → fs.Val → Effort
  | .nil, _, _ => .of 0 (Enc.pure ())
  | .cons t fs, g, v => ((t.tally p v.1).mapErr g).andThen (fs.tally p g v.2)

/-- See `Variants.encode`. -/
def Variants.tally (p : Prices) : (vs : Variants) → (r : Repr) → (prev : Option Nat) → vs.Val → Effort
  | .nil, _, _, v => nomatch v
  | .cons d fs vs, r, prev, v =>
    match v with
    | .inl v =>
      ((tallyRepr p r (nextDisc prev d)).mapErr .badDiscriminant).andThen
        (fs.tally p (fun e => .badField e.toGeneric) v)
    | .inr v => vs.tally p r (some (nextDisc prev d)) v

end

end Oct
