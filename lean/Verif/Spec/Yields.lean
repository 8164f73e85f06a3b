import Verif.Model.Stream
/-
What it means for a decoder to have a given outcome on given octets.
-/
namespace Oct.Spec

/-- Whatever came before and whatever follows, decoding at the octets `w` ends with `r`, and exactly
`w` is consumed. -/
def Yields {α : Type} (m : Dec α) (w : List Byte) (r : Res DecErr α) : Prop :=
  ∀ pre rest, m ⟨pre ++ (w ++ rest), pre.length⟩ = (r, ⟨pre ++ (w ++ rest), pre.length + w.length⟩)

end Oct.Spec
