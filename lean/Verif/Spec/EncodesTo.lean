import Verif.Model.Encode
/-
What it means for a value to be encoded as given octets.
-/
namespace Oct.Spec

/-- In every stream with room for them, encoding the value succeeds and appends exactly the octets
`bs`. -/
def EncodesTo (t : Ty) (v : t.Val) (bs : List Byte) : Prop :=
  ∀ o : Output, o.position ≤ o.capacity → bs.length ≤ o.remaining →
    ∃ o', t.encode v o = (.ok (), o') ∧ o'.asSlice = o.asSlice ++ bs ∧
      o'.position = o.position + bs.length ∧ o'.capacity = o.capacity ∧
      o'.buf.drop o'.position = o.buf.drop o'.position

/-- The two values can be encoded in the same streams, with the same effect. -/
def EncodesSame (t : Ty) (v : t.Val) (t' : Ty) (v' : t'.Val) : Prop :=
  ∀ o o' : Output, o.position ≤ o.capacity →
    (t.encode v o = (.ok (), o') ↔ t'.encode v' o = (.ok (), o'))

end Oct.Spec
