import Verif.Model.SizedEncode
/-
Which other constants a `MAX_ENCODED_SIZE` is computed from.
-/
namespace Oct.Spec
open Oct

/-- `t` is the type of one of the fields. -/
inductive FieldOf (t : Ty) : Fields → Prop
  | head (fs) : FieldOf t (.cons t fs)
  | tail (u fs) : FieldOf t fs → FieldOf t (.cons u fs)

/-- The fields are those of one of the variants. -/
inductive VariantOf (fs : Fields) : Variants → Prop
  | head (d vs) : VariantOf fs (.cons d fs vs)
  | tail (d gs vs) : VariantOf fs vs → VariantOf fs (.cons d gs vs)

/-- The constant of the first type is computed from that of the second, directly or not. That of a
`Result` is computed from none. -/
inductive SizeReads : Ty → Ty → Prop
  | self (t) : SizeReads t t
  | wrap (w t u) : SizeReads t u → SizeReads (.wrap w t) u
  | array (t n u) : SizeReads t u → SizeReads (.array t n) u
  | option (t u) : SizeReads t u → SizeReads (.option t) u
  | bound (t u) : SizeReads t u → SizeReads (.bound t) u
  | range (t u) : SizeReads t u → SizeReads (.range t) u
  | rangeInclusive (t u) : SizeReads t u → SizeReads (.rangeInclusive t) u
  | lock (k t u) : SizeReads t u → SizeReads (.lock k t) u
  | refCell (t u) : SizeReads t u → SizeReads (.refCell t) u
  | sizedSlice (t n u) : SizeReads t u → SizeReads (.sizedSlice t n) u
  | tuple (t fs u) : FieldOf t fs → SizeReads t u → SizeReads (.tuple fs) u
  | struct (t fs u) : FieldOf t fs → SizeReads t u → SizeReads (.struct fs) u
  | enum (t fs r vs u) : VariantOf fs vs → FieldOf t fs → SizeReads t u → SizeReads (.enum r vs) u

end Oct.Spec
