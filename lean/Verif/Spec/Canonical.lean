import Verif.Model.Ty
/-
Kinds of types by how strict the format is about them. Refers to types only.
-/
namespace Oct.Spec

/-- Types some of whose values have several encodings of the same length: any octet but zero is
`true`, `Some` or `Err`, and the nanoseconds of a `Duration` may contain whole seconds. -/
def Loose : Ty → Prop
  | .bool | .option _ | .result _ _ | .duration => True
  | _ => False

/-- Types whose decoding may consume more or less than their encoding produces: maps and sets, and
sized slices. -/
def Unbalanced : Ty → Prop
  | .hashMap _ _ | .hashSet _ | .sizedSlice _ _ => True
  | _ => False

end Oct.Spec
