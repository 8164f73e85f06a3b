import Verif.Model.Order
import Verif.Model.Equality
import Verif.Spec.RoundTrip
/-
Values that are the same but for the order of the entries of hash maps and hash sets. Refers to values only.
-/
namespace Oct.Spec

/-- Two lists are as long as each other, and each item is related to the one in the same place. -/
def Pointwise {α β : Type} (R : α → β → Prop) : List α → List β → Prop
  | [], [] => True
  | a :: l, b :: l' => R a b ∧ Pointwise R l l'
  | _, _ => False

/-- Two hash maps have the same keys, and related values for each. -/
def SameEntries {α β γ : Type} (R : β → γ → Prop) (l : List (α × β)) (l' : List (α × γ)) : Prop :=
  (∀ k v, (k, v) ∈ l → ∃ v', (k, v') ∈ l' ∧ R v v') ∧ ∀ k v', (k, v') ∈ l' → ∃ v, (k, v) ∈ l ∧ R v v'

mutual

/-- The values are equal, up to the order of entries. -/
def Akin : (t : Ty) → t.Val → t.Val → Prop
  | .wrap _ t, v, w => Akin t v w
  | .array t _, v, w => Pointwise (Akin t) v.val w.val
  | .seq _ t, v, w => Pointwise (Akin t) v w
  | .hashMap _ t, v, w => SameEntries (Akin t) v.val w.val
  | .hashSet _, v, w => ∀ k, k ∈ v.val ↔ k ∈ w.val
  | .option t, v, w =>
    match v, w with
    | none, none => True
    | some v, some w => Akin t v w
    | _, _ => False
  | .result t e, v, w =>
    match v, w with
    | .ok v, .ok w => Akin t v w
    | .err v, .err w => Akin e v w
    | _, _ => False
  | .bound t, v, w =>
    match v, w with
    | .included v, .included w => Akin t v w
    | .excluded v, .excluded w => Akin t v w
    | .unbounded, .unbounded => True
    | _, _ => False
  | .range t, v, w => Akin t v.start w.start ∧ Akin t v.stop w.stop
  | .rangeInclusive t, v, w =>
    Akin t v.start w.start ∧ Akin t v.stop w.stop ∧ v.exhausted = w.exhausted
  | .lock _ t, v, w => v.poisoned = w.poisoned ∧ Akin t v.val w.val
  | .refCell t, v, w => v.mutBorrowed = w.mutBorrowed ∧ Akin t v.val w.val
  | .sizedSlice t _, v, w => Pointwise (Akin t) v.val w.val
  | .tuple fs, v, w => AkinFields fs v w
  | .struct fs, v, w => AkinFields fs v w
  | .enum _ vs, v, w => AkinVariants vs v w
  | .num _, v, w | .bool, v, w | .char, v, w | .usize, v, w | .isize, v, w | .nonZero _, v, w
  | .unit _, v, w | .infallible, v, w | .duration, v, w | .systemTime _, v, w | .ipv4, v, w
  | .ipv6, v, w | .ipAddr, v, w | .socketAddrV4, v, w | .socketAddrV6, v, w | .socketAddr, v, w
  | .str _, v, w | .cStr _, v, w | .sizedStr _, v, w => v = w

/-- See `Akin`. -/
def AkinFields : (fs : Fields) → fs.Val → fs.Val → Prop
  | .nil, _, _ => True
  | .cons t fs, v, w => Akin t v.1 w.1 ∧ AkinFields fs v.2 w.2

/-- See `Akin`. -/
def AkinVariants : (vs : Variants) → vs.Val → vs.Val → Prop
  | .nil, _, _ => True
  | .cons _ fs vs, v, w =>
    match v, w with
    | .inl v, .inl w => AkinFields fs v w
    | .inr v, .inr w => AkinVariants vs v w
    | _, _ => False

end

/-- There are no hash maps and hash sets. -/
def Ordered (t : Ty) : Prop :=
  Everywhere (fun | .hashMap _ _ | .hashSet _ => False | _ => True) t

/-- The keys of a hash map or hash set have no hash maps and hash sets in them (as these are not `Hash`). -/
def HashableKeys : Ty → Prop
  | .hashMap k _ | .hashSet k => Ordered k
  | _ => True

end Oct.Spec
