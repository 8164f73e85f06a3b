import Verif.Model.Encode
import Verif.Model.Decode
import Verif.Model.SizedEncode
/-
The benchmarks of this crate in oct-benchmarks/src/main.rs: the blocks labelled `oct`. Those of other
crates, the clock and the printed scores are left out.
-/
namespace Oct

/-- How a block ends. -/
inductive BenchEnd (ε : Type) where
  /-- The loop is over. -/
  | finished
  /-- `unwrap` panicked on an error. -/
  | unwrapped (e : ε)
  /-- A call panicked. -/
  | panicked (p : Panic)
  /-- A call was undefined. -/
  | undefined (u : Ub)
  deriving DecidableEq

/-- `for _ in 0x0..VALUE_COUNT { value.encode(&mut stream).unwrap(); }`, with the values that are
drawn: e.g. oct-benchmarks/src/main.rs:244-246. -/
def benchEncodeLoop (t : Ty) : List t.Val → Output → BenchEnd EncErr × Output
  | [], o => (.finished, o)
  | v :: l, o =>
    match t.encode v o with
    | (.ok (), o') => benchEncodeLoop t l o'
    | (.err e, o') => (.unwrapped e, o')
    | (.panic p, o') => (.panicked p, o')
    | (.ub u, o') => (.undefined u, o')

/-- A block that encodes: a buffer of `ITEM_SIZE * VALUE_COUNT` zeros, then the loop:
oct-benchmarks/src/main.rs:236-247. -/
def benchEncode (t : Ty) (itemSize : Nat) (l : List t.Val) : BenchEnd EncErr × Output :=
  benchEncodeLoop t l (Output.new (List.replicate (itemSize * l.length) 0))

/-- `for _ in 0x0..VALUE_COUNT { let _ = T::decode(&mut stream).unwrap(); }`:
oct-benchmarks/src/main.rs:584-586. The decoded values, which the code drops, are kept. -/
def benchDecodeLoop (t : Ty) : Nat → Input → BenchEnd DecErr × List t.Val × Input
  | 0, i => (.finished, [], i)
  | n + 1, i =>
    match t.decode i with
    | (.ok v, i') =>
      let (e, l, i'') := benchDecodeLoop t n i'
      (e, v :: l, i'')
    | (.err e, i') => (.unwrapped e, [], i')
    | (.panic p, i') => (.panicked p, [], i')
    | (.ub u, i') => (.undefined u, [], i')

/-- `generate_random_data`: oct-benchmarks/src/main.rs:164-181. `draw` gives the octets
(`as_bytes`) of each value that is drawn. -/
def generateRandomData (draw : Nat → List Byte) (itemSize valueCount : Nat) : List Byte :=
  let count := itemSize * valueCount
  (List.range count).flatMap draw

/-- A block that decodes: oct-benchmarks/src/main.rs:575-587. -/
def benchDecode (t : Ty) (draw : Nat → List Byte) (itemSize valueCount : Nat) :
    BenchEnd DecErr × List t.Val × Input :=
  benchDecodeLoop t valueCount (Input.new (generateRandomData draw itemSize valueCount))

/-- `struct Unit;`: oct-benchmarks/src/main.rs:110-114. -/
def benchUnit : Ty := .struct .nil

/-- `struct Unnamed(u32);`: oct-benchmarks/src/main.rs:116-120. -/
def benchUnnamed : Ty := .struct (.cons (.num (.int .u32)) .nil)

/-- `struct Named { buf: [u8; 0x8] }`: oct-benchmarks/src/main.rs:130-134. -/
def benchNamed : Ty := .struct (.cons (.array (.num (.int .u8)) 8) .nil)

/-- `enum Enum { Unit(Unit), Unnamed(Unnamed), Named(Named) }`: oct-benchmarks/src/main.rs:155-162. -/
def benchEnum : Ty := .enum .isize (.cons none (.cons benchUnit .nil)
  (.cons none (.cons benchUnnamed .nil) (.cons none (.cons benchNamed .nil) .nil)))

/-- `Enum::Unit(Unit)` -/
def benchEnumUnit : benchEnum.Val := Sum.inl ((), ())

/-- `Unnamed::from_char`: oct-benchmarks/src/main.rs:122-128. -/
def unnamedFromChar (c : Char) : benchUnnamed.Val := (BitVec.ofNat 32 c.toNat, ())

/-- The octets of `Named::from_u64`: oct-benchmarks/src/main.rs:140-149. -/
def namedOctets (v : BitVec 64) : List (BitVec 8) :=
  [(v &&& 0x00000000000000FF#64).setWidth 8,
   ((v &&& 0x000000000000FF00#64) >>> 0x2).setWidth 8,
   ((v &&& 0x0000000000FF0000#64) >>> 0x4).setWidth 8,
   ((v &&& 0x00000000FF000000#64) >>> 0x6).setWidth 8,
   ((v &&& 0x000000FF00000000#64) >>> 0x8).setWidth 8,
   ((v &&& 0x0000FF0000000000#64) >>> 0xA).setWidth 8,
   ((v &&& 0x00FF000000000000#64) >>> 0xC).setWidth 8,
   ((v &&& 0xFF00000000000000#64) >>> 0xE).setWidth 8]

/-- `Named::from_u64`: oct-benchmarks/src/main.rs:136-153. -/
def namedFromU64 (v : BitVec 64) : benchNamed.Val := (⟨namedOctets v, rfl⟩, ())

end Oct
