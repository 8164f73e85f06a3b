import Verif.Spec.Format
import Verif.Spec.RoundTrip
/-
Values that have hash maps and sets at their end only. Refers to types, values and the format.
-/
namespace Oct.Spec

mutual

/-- Values that may end with a hash map or hash set, but have none in front of anything else. Its
entries have octets and are all that the format carries (no fractions of a second). -/
def Trailing : (t : Ty) → t.Val → Prop
  | .hashMap k t, v => ∀ p ∈ v.val, (Delimited k p.1 ∧ Delimited t p.2) ∧
      (carried k p.1 = p.1 ∧ carried t p.2 = p.2) ∧ wire k p.1 ++ wire t p.2 ≠ []
  | .hashSet k, v => ∀ x ∈ v.val, Delimited k x ∧ carried k x = x ∧ wire k x ≠ []
  | .wrap _ t, v => Trailing t v
  | .option t, v =>
    match v with
    | none => True
    | some v => Trailing t v
  | .result t e, v =>
    match v with
    | .ok v => Trailing t v
    | .err v => Trailing e v
  | .bound t, v =>
    match v with
    | .included v => Trailing t v
    | .excluded v => Trailing t v
    | .unbounded => True
  | .lock _ t, v => Trailing t v.val
  | .refCell t, v => Trailing t v.val
  | .tuple fs, v => TrailingFields fs v
  | .struct fs, v => TrailingFields fs v
  | .enum _ vs, v => TrailingVariants vs v
  | t, v => Delimited t v

/-- Only the last field may end so. -/
def TrailingFields : (fs : Fields) → fs.Val → Prop
  | .nil, _ => True
  | .cons t fs, v => (fs = .nil ∧ Trailing t v.1 ∨ Delimited t v.1) ∧ TrailingFields fs v.2

/-- See `Trailing`. -/
def TrailingVariants : (vs : Variants) → vs.Val → Prop
  | .nil, _ => True
  | .cons _ fs vs, v =>
    match v with
    | .inl v => TrailingFields fs v
    | .inr v => TrailingVariants vs v

end

end Oct.Spec
