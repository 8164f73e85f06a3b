import Verif.Model.View
import Verif.Spec.Text
/-
What indices stand for.
-/
namespace Oct.Spec
open Oct

/-- The index stands for the positions from `a` up to, but not including, `b` of a sequence of `len`
items; it may be out of range. -/
inductive Means (len : Nat) : Ix → Nat → Nat → Prop where
  | at {i} : Means len (.at i) i (i + 1)
  | range {a b} : Means len (.range a b) a b
  | inclusive {a b} : Means len (.inclusive a b) a (b + 1)
  | from {a} : Means len (.from a) a len
  | to {b} : Means len (.to b) 0 b
  | toInclusive {b} : Means len (.toInclusive b) 0 (b + 1)
  | full : Means len .full 0 len

/-- `r` is the part of `l` from position `a` up to `b`. -/
def IsPart {α : Type} (l r : List α) (a b : Nat) : Prop :=
  ∃ before after, l = before ++ r ++ after ∧ before.length = a ∧ (before ++ r).length = b

/-- `l'` is `l` with `data` from position `a` up to `b`. -/
def Replaced {α : Type} (l l' data : List α) (a b : Nat) : Prop :=
  ∃ before part after, l = before ++ part ++ after ∧ l' = before ++ data ++ after ∧
    before.length = a ∧ (before ++ part).length = b

/-- The index is a range (texts have no index of one position). -/
def IsRange : Ix → Prop
  | .at _ => False
  | _ => True

/-- The text from octet `a` up to `b` is a text of its own: `c2`, between `c1` and `c3`. -/
def Cut (l : List UInt8) (a b : Nat) (c1 c2 c3 : List Char) : Prop :=
  l = utf8 (c1 ++ c2 ++ c3) ∧ (utf8 c1).length = a ∧ (utf8 (c1 ++ c2)).length = b

end Oct.Spec
