import Verif.Spec.Graph
import Verif.Spec.Format
/-
What encoding an object consists of: octets, and references to other objects, in order. Refers to the
format (Spec/Format) and to the shape of values only.
-/
namespace Oct.Spec
open Oct

/-- A step of encoding: octets, if there are such (`able`), or an object referred to. -/
inductive Step
  | put (w : List UInt8) (able : Prop)
  | call (y : Nat × Nat)

mutual

/-- What a field is encoded as, after Spec/Format. -/
def steps : (r : RTy) → (r.close addr).Val → List Step
  | .plain t, v => [.put (wire t v) (Encodable t v)]
  | .named k, a => [.call (k, a)]
  | .wrap _ t, v => steps t v
  | .array t _, v => v.val.flatMap (steps t)
  | .seq _ t, v => .put (leBytes 2 (List.length v)) (List.length v ≤ 65535) ::
      (show List (t.close addr).Val from v).flatMap (steps t)
  | .hashMap k t, v => v.val.flatMap fun p => .put (wire k p.1) (Encodable k p.1) :: steps t p.2
  | .option t, v =>
    match v with
    | none => [.put [0] True]
    | some v => .put [1] True :: steps t v
  | .result t e, v =>
    match v with
    | .ok v => .put [0] True :: steps t v
    | .err v => .put [1] True :: steps e v
  | .bound t, v =>
    match v with
    | .included v => .put [0] True :: steps t v
    | .excluded v => .put [1] True :: steps t v
    | .unbounded => [.put [2] True]
  | .range t, v => steps t v.start ++ steps t v.stop
  | .rangeInclusive t, v => steps t v.start ++ steps t v.stop
  | .lock _ t, v => steps t v.val
  | .refCell t, v => .put [] (v.mutBorrowed = false) :: steps t v.val
  | .sizedSlice t _, v => .put (leBytes 2 v.val.length) (v.val.length ≤ 65535) :: v.val.flatMap (steps t)
  | .tuple fs, v => stepsFields fs v

/-- See `steps`. -/
def stepsFields : (fs : RFields) → (fs.close addr).Val → List Step
  | .nil, _ => []
  | .cons t fs, v => steps t v.1 ++ stepsFields fs v.2

end

/-- See `steps`. `j` is the number of the first variant of `vs`. -/
def stepsVariants (r : Repr) (explicit : List (Option Nat)) : (vs : RVariants) → (j : Nat) →
    (vs.close addr).Val → List Step
  | .nil, _, v => nomatch v
  | .cons _ fs vs, j, v =>
    match v with
    | .inl v => .put (reprWire r (discOf explicit j)) (ReprEncodable r (discOf explicit j)) :: stepsFields fs v
    | .inr v => stepsVariants r explicit vs (j + 1) v

/-- See `steps`. -/
def stepsDecl : (d : Decl) → (d.close addr).Val → List Step
  | .struct fs, v => stepsFields fs v
  | .enum r vs, v => stepsVariants r (explicitDiscs (vs.close blank)) vs 0 v

/-- What the object `x` is encoded as. -/
def objSteps {D : Decls} (H : Heap D) (x : Nat × Nat) : List Step := stepsDecl (D x.1) (H x.1 x.2)

/-- The object `x` has an encoding: its octets do, and the objects that it refers to. -/
inductive HasEncoding {D : Decls} (H : Heap D) : Nat × Nat → Prop
  | intro (x : Nat × Nat) : (∀ w E, Step.put w E ∈ objSteps H x → E) →
    (∀ y, Step.call y ∈ objSteps H x → HasEncoding H y) → HasEncoding H x

/-- The object `x` has an encoding, of no octets. -/
inductive HasEmptyEncoding {D : Decls} (H : Heap D) : Nat × Nat → Prop
  | intro (x : Nat × Nat) : (∀ w E, Step.put w E ∈ objSteps H x → E ∧ w = []) →
    (∀ y, Step.call y ∈ objSteps H x → HasEmptyEncoding H y) → HasEmptyEncoding H x

/-- The object `x` refers to the object `y`, and what is in front has an encoding. -/
def RefersNext {D : Decls} (H : Heap D) (y x : Nat × Nat) : Prop :=
  ∃ pre post, objSteps H x = pre ++ .call y :: post ∧ (∀ w E, Step.put w E ∈ pre → E) ∧
    ∀ z, Step.call z ∈ pre → HasEncoding H z

/-- The object `x` refers to the object `y`, and what is in front has an encoding of no octets. -/
def RefersFirst {D : Decls} (H : Heap D) (y x : Nat × Nat) : Prop :=
  ∃ pre post, objSteps H x = pre ++ .call y :: post ∧ (∀ w E, Step.put w E ∈ pre → E ∧ w = []) ∧
    ∀ z, Step.call z ∈ pre → HasEmptyEncoding H z

/-- From the object `x`, such references can be followed without end. -/
def Forever (rel : Nat × Nat → Nat × Nat → Prop) (x : Nat × Nat) : Prop :=
  ∃ next : Nat → Nat × Nat, next 0 = x ∧ ∀ n, rel (next (n + 1)) (next n)

end Oct.Spec
