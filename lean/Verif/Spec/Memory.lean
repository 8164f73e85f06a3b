import Verif.Model.Memory
/-
How memory shows the values that the other models work with.
-/
namespace Oct.Spec
open Oct

/-- The slice can be read, and these are its octets. -/
def Holds (m : Mem Byte) (s : RawSlice) (d : List Byte) : Prop :=
  s.len = d.length ∧ m.load s.ptr s.len = some (d.map some)

/-- The stream in memory is the stream `O` of the list model. -/
def ShowsOutput (m : Mem Byte) (o : RawOutput) (O : Output) : Prop :=
  Holds m o.buf O.buf ∧ o.pos = O.pos ∧ O.pos ≤ O.buf.length

/-- The stream in memory is the stream `I` of the list model. -/
def ShowsInput (m : Mem Byte) (i : RawInput) (I : Input) : Prop :=
  Holds m i.buf I.buf ∧ i.pos = I.pos ∧ I.pos ≤ I.buf.length

/-- Nothing is different in memory but within this region: no allocation is new, gone or of another
size, and every region apart from this one can be read as before, and has the same contents. -/
def OnlyIn {α : Type} (p : Ptr) (n : Nat) (m m' : Mem α) : Prop :=
  (∀ a, (m' a).map List.length = (m a).map List.length) ∧
  ∀ q k, Mem.Apart p n q k → m'.load q k = m.load q k

/-- The cell at an offset of an allocation, if there is one. -/
def cell {α : Type} (m : Mem α) (a i : Nat) : Option (Option α) := (m a).bind (·[i]?)

/-- There are `n` cells from the pointer on. -/
def InBounds {α : Type} (m : Mem α) (p : Ptr) (n : Nat) : Prop :=
  n = 0 ∨ ∃ c, m p.alloc = some c ∧ p.off + n ≤ c.length

end Oct.Spec
