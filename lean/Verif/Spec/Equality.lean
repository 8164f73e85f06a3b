import Verif.Model.Ty
import Verif.Spec.RoundTrip
/-
Kinds of types by how `==` of their values is related to what is encoded. Refers to types only.
-/
namespace Oct.Spec

/-- Floating-point numbers. -/
def IsFloat : Ty → Prop
  | .num .f32 | .num .f64 => True
  | _ => False

/-- Hash maps and hash sets. -/
def IsHashed : Ty → Prop
  | .hashMap _ _ | .hashSet _ => True
  | _ => False

/-- Neither. -/
def IsExact (t : Ty) : Prop := ¬ IsFloat t ∧ ¬ IsHashed t

/-- Types without `Hash` or `Eq`: floats, hash maps and sets, locks, atomics, lazy values and cells. -/
def IsNoKey : Ty → Prop
  | .num .f32 | .num .f64 | .hashMap _ _ | .hashSet _ | .lock _ _ | .refCell _ => True
  | .wrap .lazyCell _ | .wrap .lazyLock _ | .wrap .atomic _ | .wrap .cell _ => True
  | _ => False

/-- Types without `PartialEq`: locks, atomics and lazy values, and hash maps and sets of what cannot be a
key (which the standard library lets exist but not be compared). -/
def IsNoEq : Ty → Prop
  | .lock _ _ | .wrap .lazyCell _ | .wrap .lazyLock _ | .wrap .atomic _ => True
  | .hashMap k _ | .hashSet k => ¬ Everywhere (fun t => ¬ IsNoKey t) k
  | _ => False

end Oct.Spec
