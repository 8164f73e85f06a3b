import Verif.Model.Track
import Verif.Spec.RoundTrip
/-
What should be so of the heap when something has been decoded.
-/
namespace Oct.Spec
open Oct

/-- Each allocation that the decoding made (from `n` on) is in exactly one place, once: it is owned by
the value, kept in its sized slices, freed, or lost. No other allocation is in any of these. -/
def Balanced {α : Type} (n : Nat) (x : Tracked α) : Prop :=
  n ≤ x.next ∧
  (∀ a, x.owned.count a + x.kept.count a + x.freed.count a + x.lost.count a
    = if n ≤ a ∧ a < x.next then 1 else 0) ∧
  ((∀ v, x.res ≠ .ok v) → x.owned = [] ∧ x.kept = [])

/-- Types that allocate nothing themselves. -/
def NoHeap : Ty → Prop
  | .wrap .arc _ | .wrap .box _ | .wrap .rc _ => False
  | .seq _ _ | .hashMap _ _ | .hashSet _ | .str _ | .cStr _ => False
  | _ => True

/-- Types whose values never own an allocation. -/
def Plain (t : Ty) : Prop := Everywhere NoHeap t

/-- `Vec`, arrays of two or more and sized slices have plain items. -/
def PlainItems : Ty → Prop
  | .seq .vec t | .seq .slice t => Plain t
  | .array t n => n ≤ 1 ∨ Plain t
  | .sizedSlice t _ => Plain t
  | _ => True

/-- Sized slices have plain items. -/
def PlainSized : Ty → Prop
  | .sizedSlice t _ => Plain t
  | _ => True

/-- Types in which every `Vec`, array and sized slice has plain items. -/
def TidyHeap (t : Ty) : Prop := Everywhere PlainItems t

end Oct.Spec
