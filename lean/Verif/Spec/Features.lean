import Verif.Model.Features
/-
What it is for the crate to stand under a configuration.
-/
namespace Oct.Spec

/-- Each name that is used under the configuration stands under it. -/
def NamesResolve (c : Config) : Prop :=
  ∀ u ∈ condUses, u.cond.holds c = true → u.name.stands.holds c = true

/-- The use resolves under each configuration. -/
def AlwaysResolves (u : CondUse) : Prop :=
  ∀ c : Config, u.cond.holds c = true → u.name.stands.holds c = true

/-- The trait is implemented for the type under the configuration. -/
def Implemented (c : Config) (t : CondTrait) (h : ImplHead) : Prop :=
  ∃ i ∈ condImpls, i.trait = t ∧ i.head = h ∧ i.cond.holds c = true

/-- `std` is not there, as on a target without an operating system. -/
def NoStd (c : Config) : Prop := c.std = false

end Oct.Spec
