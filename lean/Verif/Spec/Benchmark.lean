import Verif.Model.Benchmark
/-
When a benchmark measures what it says.
-/
namespace Oct.Spec

/-- The block finishes, and its buffer is exactly filled, with these octets. -/
def Fills (r : BenchEnd EncErr × Output) (bs : List UInt8) : Prop :=
  r.1 = .finished ∧ r.2.buf = bs ∧ r.2.pos = bs.length

/-- The block finishes, having decoded these values and all of its buffer. -/
def Drains {α : Type} (r : BenchEnd DecErr × List α × Input) (l : List α) : Prop :=
  r.1 = .finished ∧ r.2.1 = l ∧ r.2.2.pos = r.2.2.buf.length

/-- The octet of a number that counts `256 ^ k`. -/
def octetAt (x k : Nat) : Nat := x / 256 ^ k % 256

end Oct.Spec
