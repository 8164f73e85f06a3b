import Verif.Proofs.Agree
import Verif.Props.Samples
/-
C107-C109: the crate's own types are among those with impls by others, with the same behaviour.
-/
namespace Oct.Props
open Oct

/-- C107. A type of the crate, put together from its parts as containers of types with impls by others,
has the same values and is encoded alike. -/
theorem C107_agrees (sizeOf : Ty → Nat) (t : Ty) :
    ∃ h : t.Val = (t.toOpen sizeOf).Val, ∀ v, (t.toOpen sizeOf).encode (cast h v) = t.encode v :=
  Codec.encode_eq (t.toOpen_codec sizeOf)

/-- C108. It is decoded alike. -/
theorem C108_agrees (sizeOf : Ty → Nat) (t : Ty) :
    ∃ h : t.Val = (t.toOpen sizeOf).Val, ∀ i,
      (t.toOpen sizeOf).decode i = ((t.decode i).1.map (cast h), (t.decode i).2) :=
  Codec.decode_eq (t.toOpen_codec sizeOf)

/-- C109. It has the same declared size. -/
theorem C109_agrees (sizeOf : Ty → Nat) (sz : Open → Nat) (h : ∀ t, sz (Ty.toOpen sizeOf t) = sizeOf t)
    (t : Ty) : (t.toOpen sizeOf).maxSize sz = t.maxSize sizeOf :=
  t.toOpen_maxSize sizeOf sz h

example : ∀ t, (fun _ : Open => 0) (Ty.toOpen (fun _ => 0) t) = (fun _ : Ty => 0) t := fun _ => rfl

/-- Nothing is left whole that `Open` can take apart. -/
example (sizeOf : Ty → Nat) :
    (Ty.struct (.cons (.seq .vec (.option .bool)) .nil)).toOpen sizeOf =
      .struct (.cons (.seq .vec (.option (.impl (Ty.bool.impl sizeOf)))) .nil) := rfl

end Oct.Props
