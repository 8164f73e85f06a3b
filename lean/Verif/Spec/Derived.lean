import Verif.Model.Ty
/-
Vocabulary for derived types: the variants of an enumeration by number, and concatenation of fields.
Refers to types and values only.
-/
namespace Oct.Spec

/-- Variant number `j` of the enumeration has the fields `fs`; `f` makes it of its fields. -/
inductive VariantAt : (vs : Variants) → Nat → (fs : Fields) → (fs.Val → vs.Val) → Prop
  | here (d : Option Nat) (fs : Fields) (vs : Variants) :
    VariantAt (.cons d fs vs) 0 fs (Sum.inl : fs.Val → fs.Val ⊕ vs.Val)
  | there (d : Option Nat) (fs' : Fields) {vs : Variants} {j : Nat} {fs : Fields} {f : fs.Val → vs.Val} :
    VariantAt vs j fs f →
    VariantAt (.cons d fs' vs) (j + 1) fs (fun v => (Sum.inr (f v) : fs'.Val ⊕ vs.Val))

/-- How many variants there are. -/
def variantCount : Variants → Nat
  | .nil => 0
  | .cons _ _ vs => variantCount vs + 1

/-- The fields of the one, followed by those of the other. -/
def appendFields : Fields → Fields → Fields
  | .nil, gs => gs
  | .cons t fs, gs => .cons t (appendFields fs gs)

/-- The values for the one, followed by those for the other. -/
def appendVals : (fs : Fields) → {gs : Fields} → fs.Val → gs.Val → (appendFields fs gs).Val
  | .nil, _, _, w => w
  | .cons _ fs, _, v, w => (v.1, appendVals fs v.2 w)

/-- As many fields of the type as there are values. -/
def repeatField (t : Ty) : List t.Val → Fields
  | [] => .nil
  | _ :: l => .cons t (repeatField t l)

/-- The values, as field values. -/
def repeatVals (t : Ty) : (l : List t.Val) → (repeatField t l).Val
  | [] => ()
  | v :: l => (v, repeatVals t l)

end Oct.Spec
