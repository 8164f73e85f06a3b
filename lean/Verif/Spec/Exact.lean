import Verif.Spec.Stops
/-
Which types have but one encoding of each value, and which take as many octets as they give. Refers to
types only.
-/
namespace Oct.Spec

mutual

/-- Types of which no octets stand for a value, or only none at all. -/
def Silent : Ty → Prop
  | .unit _ => True
  | .infallible => True
  | .wrap _ t => Silent t
  | .array t n => n = 0 ∨ Silent t
  | .result t e => ¬ Decodable t ∧ ¬ Decodable e
  | .range t => Silent t
  | .rangeInclusive t => Silent t
  | .lock _ t => Silent t
  | .refCell t => Silent t
  | .sizedSlice t n => n ≠ 0 ∧ ¬ Decodable t
  | .tuple fs => SilentFields fs
  | .struct fs => SilentFields fs
  | .enum r vs => ¬ DecodableVariants r (explicitDiscs vs) vs 0
  | _ => False

def SilentFields : Fields → Prop
  | .nil => True
  | .cons t fs => Decodable t ∧ DecodableFields fs → Silent t ∧ SilentFields fs

end

/-- Equal octets, or only equally many. -/
def Same (strict : Bool) (a b : List UInt8) : Prop :=
  if strict = true then a = b else a.length = b.length

mutual

/-- Types for which whatever octets stand for a value are those of its encoding, or only as many. -/
def Exact (strict : Bool) : Ty → Prop
  | .bool => strict = false
  | .duration => strict = false
  | .wrap _ t => Exact strict t
  | .array t n => n = 0 ∨ Exact strict t
  | .seq _ t => Exact strict t
  | .hashMap _ _ => False
  | .hashSet _ => False
  | .option t => Exact strict t ∧ (strict = true → ¬ Decodable t)
  | .result t e => Exact strict t ∧ Exact strict e ∧ (strict = true → ¬ Decodable e)
  | .bound t => Exact strict t
  | .range t => Exact strict t
  | .rangeInclusive t => Exact strict t
  | .lock _ t => Exact strict t
  | .refCell t => Exact strict t
  | .sizedSlice t n => n = 0 ∨ Silent t
  | .tuple fs => ExactFields strict fs
  | .struct fs => ExactFields strict fs
  | .enum r vs => ExactVariants strict r (explicitDiscs vs) vs 0
  | _ => True

/-- Each field, if they all have values. -/
def ExactFields (strict : Bool) : Fields → Prop
  | .nil => True
  | .cons t fs => Decodable t ∧ DecodableFields fs → Exact strict t ∧ ExactFields strict fs

/-- Each variant whose discriminant can be encoded. -/
def ExactVariants (strict : Bool) (r : Repr) (explicit : List (Option Nat)) : Variants → Nat → Prop
  | .nil, _ => True
  | .cons _ fs vs, j =>
    (ReprEncodable r (discOf explicit j) → ExactFields strict fs) ∧
      ExactVariants strict r explicit vs (j + 1)

end

end Oct.Spec
