import Verif.Model.Shared
/- What it means for steps to make up an encoder, and what may have been seen of an atomic. -/
namespace Oct.Spec
open Oct

/-- The steps from the `i`-th on, one after the other with the contents `v` unchanged, take an output
to a result and an output. -/
inductive Undisturbed {α : Type} (part : Steps α) (v : α) :
    Nat → Output → Res EncErr Unit → Output → Prop
  | over {i : Nat} {o : Output} : part i v = none → Undisturbed part v i o (.ok ()) o
  | next {i : Nat} {o o1 o2 : Output} {m : Enc Unit} {r : Res EncErr Unit} :
    part i v = some m → m o = (.ok (), o1) → Undisturbed part v (i + 1) o1 r o2 →
      Undisturbed part v i o r o2
  | stop {i : Nat} {o o1 : Output} {m : Enc Unit} {r : Res EncErr Unit} :
    part i v = some m → m o = (r, o1) → r ≠ .ok () → Undisturbed part v i o r o1

/-- The steps make up an encoder: left alone, they do what it does. -/
def Splits {α : Type} (part : Steps α) (enc : α → Enc Unit) : Prop :=
  ∀ v o r o', Undisturbed part v 0 o r o' → enc v o = (r, o')

/-- No thread panics under its guard, and the contents are in order (`P`) whenever a thread drops the
guard it wrote through. -/
def Tidy {α : Type} (P : α → Prop) (part : Steps α) (s : Shared α) (es : List (Event α)) : Prop :=
  (∀ w, .panic w ∉ es) ∧
  ∀ p q w, es = p ++ .release w :: q → (s.run part p).writer = some w → P (s.run part p).val

/-- A value that an atomic has had: its first one, or one that was stored. -/
def Had {α : Type} (init : Nat → α) (es : List (AtomicEvent α)) (l : Nat) (v : α) : Prop :=
  v = init l ∨ ∃ k, .store k l v ∈ es

/-- The values that all atomics have after a schedule, if stores take effect one after the other. -/
def valuesAfter {α : Type} (init : Nat → α) : List (AtomicEvent α) → Nat → α
  | [] => init
  | .store _ l v :: es => valuesAfter (fun l' => if l' = l then v else init l') es
  | _ :: es => valuesAfter init es

end Oct.Spec
