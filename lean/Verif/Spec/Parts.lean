import Verif.Model.Ty
/-
Predicates over all parts of a value.
-/
namespace Oct.Spec

mutual

/-- `p` holds of the value and of all values it is made of. -/
def AllParts (p : (t : Ty) → t.Val → Prop) : (t : Ty) → t.Val → Prop
  | .wrap w t, v => p (.wrap w t) v ∧ AllParts p t v
  | .array t n, v => p (.array t n) v ∧ ∀ x ∈ v.val, AllParts p t x
  | .seq k t, v => p (.seq k t) v ∧ ∀ x ∈ (show List t.Val from v), AllParts p t x
  | .hashMap k v, m =>
    p (.hashMap k v) m ∧ ∀ x ∈ m.val, AllParts p k x.1 ∧ AllParts p v x.2
  | .hashSet k, s => p (.hashSet k) s ∧ ∀ x ∈ s.val, AllParts p k x
  | .option t, v => p (.option t) v ∧
    match v with
    | none => True
    | some v => AllParts p t v
  | .result t e, v => p (.result t e) v ∧
    match v with
    | .ok v => AllParts p t v
    | .err v => AllParts p e v
  | .bound t, v => p (.bound t) v ∧
    match v with
    | .included v => AllParts p t v
    | .excluded v => AllParts p t v
    | .unbounded => True
  | .range t, v => p (.range t) v ∧ AllParts p t v.start ∧ AllParts p t v.stop
  | .rangeInclusive t, v => p (.rangeInclusive t) v ∧ AllParts p t v.start ∧ AllParts p t v.stop
  | .lock k t, v => p (.lock k t) v ∧ AllParts p t v.val
  | .refCell t, v => p (.refCell t) v ∧ AllParts p t v.val
  | .sizedSlice t n, v => p (.sizedSlice t n) v ∧ ∀ x ∈ v.val, AllParts p t x
  | .tuple fs, v => p (.tuple fs) v ∧ AllPartsFields p fs v
  | .struct fs, v => p (.struct fs) v ∧ AllPartsFields p fs v
  | .enum r vs, v => p (.enum r vs) v ∧ AllPartsVariants p vs v
  | .num k, v => p (.num k) v
  | .bool, v => p .bool v
  | .char, v => p .char v
  | .usize, v => p .usize v
  | .isize, v => p .isize v
  | .nonZero r, v => p (.nonZero r) v
  | .unit k, v => p (.unit k) v
  | .infallible, v => p .infallible v
  | .duration, v => p .duration v
  | .systemTime q, v => p (.systemTime q) v
  | .ipv4, v => p .ipv4 v
  | .ipv6, v => p .ipv6 v
  | .ipAddr, v => p .ipAddr v
  | .socketAddrV4, v => p .socketAddrV4 v
  | .socketAddrV6, v => p .socketAddrV6 v
  | .socketAddr, v => p .socketAddr v
  | .str k, v => p (.str k) v
  | .cStr k, v => p (.cStr k) v
  | .sizedStr n, v => p (.sizedStr n) v

/-- See `AllParts`. -/
def AllPartsFields (p : (t : Ty) → t.Val → Prop) : (fs : Fields) → fs.Val → Prop
  | .nil, _ => True
  | .cons t fs, v => AllParts p t v.1 ∧ AllPartsFields p fs v.2

/-- See `AllParts`. -/
def AllPartsVariants (p : (t : Ty) → t.Val → Prop) : (vs : Variants) → vs.Val → Prop
  | .nil, _ => True
  | .cons _ fs vs, v =>
    match v with
    | .inl v => AllPartsFields p fs v
    | .inr v => AllPartsVariants p vs v

end

/-- Not the `SystemTime` of exactly `-2^63` seconds in a build with overflow checks. -/
def NotMinTime : (t : Ty) → t.Val → Prop
  | .systemTime p, v => ¬ (p.overflowChecks = true ∧ v.val = -(2 : Int) ^ 63 * nanosPerSec)
  | _, _ => True

end Oct.Spec
