import Verif.Model.Graph
import Verif.Spec.Recursive
/-
Which objects refer to which, and which declarations write something on the way. Refers to the shape of
declarations and to values only.
-/
namespace Oct.Spec
open Oct

mutual

/-- The objects that a field holds references to: declared type and address, in order. -/
def refs : (r : RTy) → (r.close addr).Val → List (Nat × Nat)
  | .plain _, _ => []
  | .named k, a => [(k, a)]
  | .wrap _ t, v => refs t v
  | .array t _, v => v.val.flatMap (refs t)
  | .seq _ t, v => (show List (t.close addr).Val from v).flatMap (refs t)
  | .hashMap _ t, v => v.val.flatMap fun p => refs t p.2
  | .option t, v =>
    match v with
    | none => []
    | some v => refs t v
  | .result t e, v =>
    match v with
    | .ok v => refs t v
    | .err v => refs e v
  | .bound t, v =>
    match v with
    | .included v => refs t v
    | .excluded v => refs t v
    | .unbounded => []
  | .range t, v => refs t v.start ++ refs t v.stop
  | .rangeInclusive t, v => refs t v.start ++ refs t v.stop
  | .lock _ t, v => refs t v.val
  | .refCell t, v => refs t v.val
  | .sizedSlice t _, v => v.val.flatMap (refs t)
  | .tuple fs, v => refsFields fs v

/-- See `refs`. -/
def refsFields : (fs : RFields) → (fs.close addr).Val → List (Nat × Nat)
  | .nil, _ => []
  | .cons t fs, v => refs t v.1 ++ refsFields fs v.2

end

/-- See `refs`. -/
def refsVariants : (vs : RVariants) → (vs.close addr).Val → List (Nat × Nat)
  | .nil, v => nomatch v
  | .cons _ fs vs, v =>
    match v with
    | .inl v => refsFields fs v
    | .inr v => refsVariants vs v

/-- See `refs`. -/
def refsDecl : (d : Decl) → (d.close addr).Val → List (Nat × Nat)
  | .struct fs, v => refsFields fs v
  | .enum _ vs, v => refsVariants vs v

/-- The object `x` holds a reference to the object `y`. -/
def HoldsRef {D : Decls} (H : Heap D) (y x : Nat × Nat) : Prop := y ∈ refsDecl (D x.1) (H x.1 x.2)

/-- From `x`, no references can be followed without end; in particular none lead back. -/
def Unlooped {D : Decls} (H : Heap D) (x : Nat × Nat) : Prop := Acc (HoldsRef H) x

/-- From `x`, references can be followed `n` times at most. -/
def WithinDepth {D : Decls} (H : Heap D) : Nat → Nat × Nat → Prop
  | 0, x => refsDecl (D x.1) (H x.1 x.2) = []
  | n + 1, x => ∀ y ∈ refsDecl (D x.1) (H x.1 x.2), WithinDepth H n y

/-- `n` nested calls are enough to encode the object at `o`: it does not matter what would happen where
they are exceeded, nor how many more there could be. -/
def EncodesWithin {D : Decls} (H : Heap D) (n k a : Nat) (o : Output) : Prop :=
  ∀ (stop stop' : Panic) (j : Nat), H.encode stop n k a o = H.encode stop' (n + j) k a o

mutual

/-- Types that write at least one octet for each value. Hash maps write no length. -/
def EmitsSome : Ty → Prop
  | .unit _ => False
  | .wrap _ t => EmitsSome t
  | .array t n => n ≠ 0 ∧ EmitsSome t
  | .hashMap _ _ => False
  | .hashSet _ => False
  | .range t => EmitsSome t
  | .rangeInclusive t => EmitsSome t
  | .lock _ t => EmitsSome t
  | .refCell t => EmitsSome t
  | .tuple fs => EmitsSomeFields fs
  | .struct fs => EmitsSomeFields fs
  | _ => True

/-- See `EmitsSome`. -/
def EmitsSomeFields : Fields → Prop
  | .nil => False
  | .cons t fs => EmitsSome t ∨ EmitsSomeFields fs

end

mutual

/-- `p` holds of each declared type that a field refers to before something has been written. -/
def Heading (p : Nat → Prop) : RTy → Prop
  | .named k => p k
  | .wrap _ t => Heading p t
  | .array t n => n = 0 ∨ Heading p t
  | .hashMap k t => EmitsSome k ∨ Heading p t
  | .range t => Heading p t
  | .rangeInclusive t => Heading p t
  | .lock _ t => Heading p t
  | .refCell t => Heading p t
  | .tuple fs => HeadingFields p fs
  | _ => True

/-- See `Heading`. -/
def HeadingFields (p : Nat → Prop) : RFields → Prop
  | .nil => True
  | .cons t fs => Heading p t ∧ (EmitsSome (t.close blank) ∨ HeadingFields p fs)

end

/-- See `Heading`. An enumeration begins with its discriminant. -/
def HeadingDecl (p : Nat → Prop) : Decl → Prop
  | .struct fs => HeadingFields p fs
  | .enum _ _ => True

/-- No declared type leads back to itself without writing something on the way: each reference before
which nothing is written goes to a declaration of lower rank, of which there are `ranks`. -/
def GuardedOut (D : Decls) (rank : Nat → Nat) (ranks : Nat) : Prop :=
  ∀ k, rank k < ranks ∧ HeadingDecl (fun j => rank j < rank k) (D k)

end Oct.Spec
