import Verif.Model.Decode
import Verif.Spec.Yields
import Verif.Spec.Derived
/- What becomes of a value if some of its octets are changed. -/
namespace Oct.Spec
open Oct

/-- Whatever value the octets stand for, there are as many of them. -/
def OneLength (t : Ty) : Prop :=
  ∀ (a b : List Byte) (v w : t.Val), Yields t.decode a (.ok v) → Yields t.decode b (.ok w) → a.length = b.length

/-- Items in turn, with their octets. -/
inductive InTurn {α : Type} (dec : Dec α) : List Byte → List α → Prop
  | nil : InTurn dec [] []
  | cons {b bs : List Byte} {a : α} {l : List α} :
    Yields dec b (.ok a) → InTurn dec bs l → InTurn dec (b ++ bs) (a :: l)

/-- The outcome for a whole, of that for one of its parts: if that is a value, it is put in its place, and the
`rest` octets of what follows are taken, too; else decoding ends there, with the error put in context. -/
def OnlyPart {α β : Type} (part : Res DecErr α × Input) (place : α → β) (context : DecErr → DecErr) (rest : Nat) :
    Res DecErr β × Input :=
  match part with
  | (.ok v, i) => (.ok (place v), ⟨i.buf, i.position + rest⟩)
  | (.err e, i) => (.err (context e), i)
  | (.panic p, i) => (.panic p, i)
  | (.ub u, i) => (.ub u, i)

end Oct.Spec
