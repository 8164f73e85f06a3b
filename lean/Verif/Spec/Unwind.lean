import Verif.Model.Unwind
import Verif.Spec.Ownership
/-
What panics may not do to items.
-/
namespace Oct.Spec
open Oct

/-- At the beginning: nothing was made, and the calls will do this. -/
def atFirst (fates : List Fate) : Tally := ⟨[], 0, fates⟩

/-- No item is owned twice, none that is owned was destroyed, none was destroyed twice. -/
def Intact (held : List Holder) (s : Tally) : Prop := (held.flatMap owned ++ s.dropped).Nodup

/-- Not `From<[T; N]>` and not `nth`. -/
def CarefulStep : UnwindStep → Prop
  | .op _ .fromArray => False
  | .op _ (.nth _) => False
  | _ => True

/-- The items that were made, were not destroyed, and that nobody owns. -/
def forgotten (held : List Holder) (s : Tally) : List Nat :=
  (List.range s.fresh).filter fun a => a ∉ held.flatMap owned ∧ a ∉ s.dropped

end Oct.Spec
