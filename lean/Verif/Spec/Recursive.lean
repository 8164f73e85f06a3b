import Verif.Model.Recursive
import Verif.Spec.RoundTrip
import Verif.Spec.Stops
/-
Which declarations of recursive types make sense, and when decoding them must end. Refers to the
shape of declarations only.
-/
namespace Oct.Spec

/-- The type with `()` for each reference. -/
abbrev blank : Nat → Ty := fun _ => .unit .unit

mutual

/-- Decoding a field reads something, if it succeeds, given of which declared types that is known:
there is a length, sign, discriminant or other type with octets in it. -/
def Takes (reads : Nat → Prop) : RTy → Prop
  | .plain t => Eats t
  | .named k => reads k
  | .wrap _ t => Takes reads t
  | .array t n => n ≠ 0 ∧ Takes reads t
  | .range t => Takes reads t
  | .rangeInclusive t => Takes reads t
  | .lock _ t => Takes reads t
  | .refCell t => Takes reads t
  | .tuple fs => TakesFields reads fs
  | _ => True

/-- See `Takes`. -/
def TakesFields (reads : Nat → Prop) : RFields → Prop
  | .nil => False
  | .cons t fs => Takes reads t ∨ TakesFields reads fs

end

/-- See `Takes`. An enumeration begins with its discriminant. -/
def TakesDecl (reads : Nat → Prop) : Decl → Prop
  | .struct fs => TakesFields reads fs
  | .enum _ _ => True

mutual

/-- `p` holds of each declared type that a field refers to before something has been read: without a
length, sign, discriminant or other field with octets in front. -/
def Leading (reads p : Nat → Prop) : RTy → Prop
  | .named k => p k
  | .wrap _ t => Leading reads p t
  | .array t n => n = 0 ∨ Leading reads p t
  | .range t => Leading reads p t
  | .rangeInclusive t => Leading reads p t
  | .lock _ t => Leading reads p t
  | .refCell t => Leading reads p t
  | .tuple fs => LeadingFields reads p fs
  | _ => True

/-- See `Leading`. -/
def LeadingFields (reads p : Nat → Prop) : RFields → Prop
  | .nil => True
  | .cons t fs => Leading reads p t ∧ (Takes reads t ∨ LeadingFields reads p fs)

end

/-- See `Leading`. -/
def LeadingDecl (reads p : Nat → Prop) : Decl → Prop
  | .struct fs => LeadingFields reads p fs
  | .enum _ _ => True

mutual

/-- `p` holds of each declared type that a field refers to. -/
def Refers (p : Nat → Prop) : RTy → Prop
  | .plain _ => True
  | .named k => p k
  | .wrap _ t => Refers p t
  | .array t _ => Refers p t
  | .seq _ t => Refers p t
  | .hashMap _ t => Refers p t
  | .option t => Refers p t
  | .result t e => Refers p t ∧ Refers p e
  | .bound t => Refers p t
  | .range t => Refers p t
  | .rangeInclusive t => Refers p t
  | .lock _ t => Refers p t
  | .refCell t => Refers p t
  | .sizedSlice t _ => Refers p t
  | .tuple fs => RefersFields p fs

/-- See `Refers`. -/
def RefersFields (p : Nat → Prop) : RFields → Prop
  | .nil => True
  | .cons t fs => Refers p t ∧ RefersFields p fs

end

/-- See `Refers`. -/
def RefersVariants (p : Nat → Prop) : RVariants → Prop
  | .nil => True
  | .cons _ fs vs => RefersFields p fs ∧ RefersVariants p vs

/-- See `Refers`. -/
def RefersDecl (p : Nat → Prop) : Decl → Prop
  | .struct fs => RefersFields p fs
  | .enum _ vs => RefersVariants p vs

/-- No declared type contains itself: each reference goes to a declaration of lower rank. -/
def Hierarchical (D : Decls) (rank : Nat → Nat) : Prop :=
  ∀ k, RefersDecl (fun j => rank j < rank k) (D k)

/-- No declared type leads back to itself without reading something on the way: each reference
before which nothing is read goes to a declaration of lower rank, of which there are `ranks`. The
declared types said to read something have a field that does. -/
def Guarded (D : Decls) (reads : Nat → Prop) (rank : Nat → Nat) (ranks : Nat) : Prop :=
  ∀ k, (reads k → TakesDecl reads (D k)) ∧ rank k < ranks ∧
    LeadingDecl reads (fun j => rank j < rank k) (D k)

/-- `Infallible` is nowhere in the declarations. -/
def NoInfallible (D : Decls) : Prop := ∀ k, Everywhere (· ≠ .infallible) ((D k).close blank)

/-- Only the first `N` declarations are there; the others are of `struct Empty {}`. -/
def Finitely (D : Decls) (N : Nat) : Prop := ∀ k, N ≤ k → D k = .struct .nil

/-- rustc accepts each declaration (`Ty.WF`), whatever is referred to. -/
def WellDeclared (D : Decls) : Prop := ∀ k, ((D k).close blank).WF

/-- Some octets stand for a value of the type of a field, if calls nest deep enough. -/
def Made (D : Decls) (t : RTy) : Prop := ∃ n, Decodable (t.close (unroll D n))

mutual

/-- Decoding a field can get to the `j`-th declared type: the reference is not to the items of an
empty array, and there are values for what is in front. -/
def GetsTo (D : Decls) (j : Nat) : RTy → Prop
  | .plain _ => False
  | .named k => k = j
  | .wrap _ t => GetsTo D j t
  | .array t n => n ≠ 0 ∧ GetsTo D j t
  | .seq _ t => GetsTo D j t
  | .hashMap k v => Decodable k ∧ GetsTo D j v
  | .option t => GetsTo D j t
  | .result t e => GetsTo D j t ∨ GetsTo D j e
  | .bound t => GetsTo D j t
  | .range t => GetsTo D j t
  | .rangeInclusive t => GetsTo D j t
  | .lock _ t => GetsTo D j t
  | .refCell t => GetsTo D j t
  | .sizedSlice t n => n ≠ 0 ∧ GetsTo D j t
  | .tuple fs => GetsToFields D j fs

/-- See `GetsTo`. -/
def GetsToFields (D : Decls) (j : Nat) : RFields → Prop
  | .nil => False
  | .cons t fs => GetsTo D j t ∨ Made D t ∧ GetsToFields D j fs

end

/-- See `GetsTo`. The discriminant of the variant is one that can be read. -/
def GetsToVariants (D : Decls) (j : Nat) (r : Repr) (explicit : List (Option Nat)) :
    RVariants → Nat → Prop
  | .nil, _ => False
  | .cons _ fs vs, i =>
    ReprEncodable r (discOf explicit i) ∧ GetsToFields D j fs ∨ GetsToVariants D j r explicit vs (i + 1)

/-- See `GetsTo`. -/
def GetsToDecl (D : Decls) (j : Nat) : Decl → Prop
  | .struct fs => GetsToFields D j fs
  | .enum r vs => GetsToVariants D j r (explicitDiscs (vs.close blank)) vs 0

/-- Decoding the `k`-th declared type can go from one declared type to the next without end. -/
def Endless (D : Decls) (k : Nat) : Prop :=
  ∃ next : Nat → Nat, next 0 = k ∧ ∀ n, GetsToDecl D (next (n + 1)) (D (next n))

/-- Depth `n` is enough to decode from `i`: the innermost calls are never made, so that whatever
type stands in their place, the outcome is the same. -/
def DepthSuffices (D : Decls) (n k : Nat) (i : Input) : Prop :=
  ∀ b : Nat → Ty, (unrollWith b D n k).decode i
    = (((unroll D n k).decode i).1.map (embed b D n k), ((unroll D n k).decode i).2)

end Oct.Spec
