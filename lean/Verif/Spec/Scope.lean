import Verif.Model.Scope
import Verif.Spec.Macro
/-
Places at which derived implementations mean what they say.
-/
namespace Oct.Spec
open Oct.Macro

/-- The names that a derived implementation may bind. -/
def Bound (name : String) : Prop :=
  name ∈ ["stream", "this", "discriminant", "value", "total_size", "current_size"] ∨
    ∃ i : Nat, name = "value" ++ toString i

/-- The crate goes by its name, nothing goes by a name that is bound, and the names of the integer types
mean these types. -/
def ScopeClear (σ : Scope) : Prop :=
  σ.oct = true ∧ (∀ name, Bound name → σ.taken name = false) ∧
    ∀ p ∈ intTypes, σ.types p.1 = none ∨ σ.types p.1 = some (.int p.2)

end Oct.Spec
