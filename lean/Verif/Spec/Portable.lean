import Verif.Model.SizedEncode
import Verif.Spec.Format
import Verif.Spec.RoundTrip
/-
One type on two platforms: the platforms differ in the times they can represent and in whether the
crate is compiled with overflow checks.
-/
namespace Oct.Spec
open Oct

mutual

/-- The type as it is on another platform. Hash maps and sets are left as they are. -/
def onPlatform (q : TimePlatform) : Ty → Ty
  | .systemTime _ => .systemTime q
  | .wrap w t => .wrap w (onPlatform q t)
  | .array t n => .array (onPlatform q t) n
  | .seq k t => .seq k (onPlatform q t)
  | .option t => .option (onPlatform q t)
  | .result t e => .result (onPlatform q t) (onPlatform q e)
  | .bound t => .bound (onPlatform q t)
  | .range t => .range (onPlatform q t)
  | .rangeInclusive t => .rangeInclusive (onPlatform q t)
  | .lock k t => .lock k (onPlatform q t)
  | .refCell t => .refCell (onPlatform q t)
  | .sizedSlice t n => .sizedSlice (onPlatform q t) n
  | .tuple fs => .tuple (onPlatformFields q fs)
  | .struct fs => .struct (onPlatformFields q fs)
  | .enum r vs => .enum r (onPlatformVariants q vs)
  | .num k => .num k
  | .bool => .bool
  | .char => .char
  | .usize => .usize
  | .isize => .isize
  | .nonZero r => .nonZero r
  | .unit k => .unit k
  | .infallible => .infallible
  | .hashMap k v => .hashMap k v
  | .hashSet k => .hashSet k
  | .duration => .duration
  | .ipv4 => .ipv4
  | .ipv6 => .ipv6
  | .ipAddr => .ipAddr
  | .socketAddrV4 => .socketAddrV4
  | .socketAddrV6 => .socketAddrV6
  | .socketAddr => .socketAddr
  | .str k => .str k
  | .cStr k => .cStr k
  | .sizedStr n => .sizedStr n

/-- See `onPlatform`. -/
def onPlatformFields (q : TimePlatform) : Fields → Fields
  | .nil => .nil
  | .cons t fs => .cons (onPlatform q t) (onPlatformFields q fs)

/-- See `onPlatform`. -/
def onPlatformVariants (q : TimePlatform) : Variants → Variants
  | .nil => .nil
  | .cons d fs vs => .cons d (onPlatformFields q fs) (onPlatformVariants q vs)

end

mutual

/-- All times in the value can be represented on the other platform, and encoded there. -/
def Fits (q : TimePlatform) : (t : Ty) → t.Val → Prop
  | .systemTime _, v => (q.lo ≤ v.val ∧ v.val ≤ q.hi) ∧
      ¬ (q.overflowChecks = true ∧ v.val = -(2 : Int) ^ 63 * nanosPerSec)
  | .wrap _ t, v => Fits q t v
  | .array t _, v => ∀ x ∈ v.val, Fits q t x
  | .seq _ t, v => ∀ x ∈ (show List t.Val from v), Fits q t x
  | .option t, v =>
    match v with
    | none => True
    | some v => Fits q t v
  | .result t e, v =>
    match v with
    | .ok v => Fits q t v
    | .err v => Fits q e v
  | .bound t, v =>
    match v with
    | .included v => Fits q t v
    | .excluded v => Fits q t v
    | .unbounded => True
  | .range t, v => Fits q t v.start ∧ Fits q t v.stop
  | .rangeInclusive t, v => Fits q t v.start ∧ Fits q t v.stop
  | .lock _ t, v => Fits q t v.val
  | .refCell t, v => Fits q t v.val
  | .sizedSlice t _, v => ∀ x ∈ v.val, Fits q t x
  | .tuple fs, v => FitsFields q fs v
  | .struct fs, v => FitsFields q fs v
  | .enum _ vs, v => FitsVariants q vs v
  | _, _ => True

/-- See `Fits`. -/
def FitsFields (q : TimePlatform) : (fs : Fields) → fs.Val → Prop
  | .nil, _ => True
  | .cons t fs, v => Fits q t v.1 ∧ FitsFields q fs v.2

/-- See `Fits`. -/
def FitsVariants (q : TimePlatform) : (vs : Variants) → vs.Val → Prop
  | .nil, _ => True
  | .cons _ fs vs, v =>
    match v with
    | .inl v => FitsFields q fs v
    | .inr v => FitsVariants q vs v

end

/-- A time on the other platform; the epoch if it cannot be represented there. -/
def movedTime (q : TimePlatform) (ns : Int) : {ns : Int // q.lo ≤ ns ∧ ns ≤ q.hi} :=
  if h : q.lo ≤ ns ∧ ns ≤ q.hi then ⟨ns, h⟩ else ⟨0, q.lo_le, q.le_hi⟩

mutual

/-- The same value on the other platform (if it fits). -/
def moved (q : TimePlatform) : (t : Ty) → t.Val → (onPlatform q t).Val
  | .systemTime _, v => movedTime q v.val
  | .wrap _ t, v => moved q t v
  | .array t _, v => ⟨v.val.map (moved q t), by simp [v.property]⟩
  | .seq _ t, v => List.map (moved q t) v
  | .option t, v => Option.map (moved q t) v
  | .result t e, v =>
    match v with
    | .ok v => .ok (moved q t v)
    | .err v => .err (moved q e v)
  | .bound t, v =>
    match v with
    | .included v => .included (moved q t v)
    | .excluded v => .excluded (moved q t v)
    | .unbounded => .unbounded
  | .range t, v => ⟨moved q t v.start, moved q t v.stop⟩
  | .rangeInclusive t, v => ⟨moved q t v.start, moved q t v.stop, v.exhausted⟩
  | .lock _ t, v => ⟨v.poisoned, moved q t v.val⟩
  | .refCell t, v => ⟨v.mutBorrowed, moved q t v.val⟩
  | .sizedSlice t _, v => ⟨v.val.map (moved q t), by simp [v.property]⟩
  | .tuple fs, v => movedFields q fs v
  | .struct fs, v => movedFields q fs v
  | .enum _ vs, v => movedVariants q vs v
  | .num _, v => v
  | .bool, v => v
  | .char, v => v
  | .usize, v => v
  | .isize, v => v
  | .nonZero _, v => v
  | .unit _, v => v
  | .infallible, v => v
  | .hashMap _ _, v => v
  | .hashSet _, v => v
  | .duration, v => v
  | .ipv4, v => v
  | .ipv6, v => v
  | .ipAddr, v => v
  | .socketAddrV4, v => v
  | .socketAddrV6, v => v
  | .socketAddr, v => v
  | .str _, v => v
  | .cStr _, v => v
  | .sizedStr _, v => v

/-- See `moved`. -/
def movedFields (q : TimePlatform) : (fs : Fields) → fs.Val → (onPlatformFields q fs).Val
  | .nil, v => v
  | .cons t fs, v => (moved q t v.1, movedFields q fs v.2)

/-- See `moved`. -/
def movedVariants (q : TimePlatform) : (vs : Variants) → vs.Val → (onPlatformVariants q vs).Val
  | .nil, v => v
  | .cons _ fs vs, v =>
    match v with
    | .inl v => .inl (movedFields q fs v)
    | .inr v => .inr (movedVariants q vs v)

end

/-- Not a `Result`. -/
def NotResult : Ty → Prop
  | .result _ _ => False
  | _ => True

end Oct.Spec
