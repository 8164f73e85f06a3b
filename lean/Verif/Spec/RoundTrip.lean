import Verif.Model.Ty
/-
What a round trip is expected to preserve, and predicates over the structure of a type. Refers to
types and values only.
-/
namespace Oct.Spec

/-- Truncation of a time to the whole second nearer to the epoch stays representable. -/
theorem truncSeconds_mem (p : TimePlatform) (ns : Int) (h : p.lo ≤ ns ∧ ns ≤ p.hi) :
    p.lo ≤ ns.tdiv nanosPerSec * nanosPerSec ∧ ns.tdiv nanosPerSec * nanosPerSec ≤ p.hi := by
  have hN : ((nanosPerSec : Nat) : Int) = 1000000000 := rfl
  have := p.lo_le
  have := p.le_hi
  rw [hN]
  by_cases h0 : 0 ≤ ns
  · rw [Int.tdiv_eq_ediv_of_nonneg h0]
    omega
  · have ht : ns.tdiv 1000000000 = - ((-ns) / 1000000000) := by
      have : ns = -(-ns) := by omega
      rw [this, Int.neg_tdiv, Int.tdiv_eq_ediv_of_nonneg (by omega)]
      simp
    rw [ht]
    omega

mutual

/-- The part of a value that the format carries: the sub-second part of a `SystemTime`, lock
poisoning, an outstanding borrow and the exhaustion flag of an inclusive range are dropped;
everything else is kept. -/
def carried : (t : Ty) → t.Val → t.Val
  | .wrap _ t, v => carried t v
  | .array t _, v => ⟨v.val.map (carried t), by simp [v.property]⟩
  | .seq _ t, v => List.map (carried t) v
  | .option t, v => Option.map (carried t) v
  | .result t e, v =>
    match v with
    | .ok v => .ok (carried t v)
    | .err v => .err (carried e v)
  | .bound t, v =>
    match v with
    | .included v => .included (carried t v)
    | .excluded v => .excluded (carried t v)
    | .unbounded => .unbounded
  | .range t, v => ⟨carried t v.start, carried t v.stop⟩
  | .rangeInclusive t, v => ⟨carried t v.start, carried t v.stop, false⟩
  | .lock _ t, v => ⟨false, carried t v.val⟩
  | .refCell t, v => ⟨false, carried t v.val⟩
  | .systemTime p, v =>
    ⟨v.val.tdiv nanosPerSec * nanosPerSec, truncSeconds_mem p v.val v.property⟩
  | .sizedSlice t _, v => ⟨v.val.map (carried t), by simp [v.property]⟩
  | .tuple fs, v => carriedFields fs v
  | .struct fs, v => carriedFields fs v
  | .enum _ vs, v => carriedVariants vs v
  | .num _, v => v
  | .bool, v => v
  | .char, v => v
  | .usize, v => v
  | .isize, v => v
  | .nonZero _, v => v
  | .unit _, v => v
  | .infallible, v => v
  | .hashMap _ _, v => v
  | .hashSet _, v => v
  | .duration, v => v
  | .ipv4, v => v
  | .ipv6, v => v
  | .ipAddr, v => v
  | .socketAddrV4, v => v
  | .socketAddrV6, v => v
  | .socketAddr, v => v
  | .str _, v => v
  | .cStr _, v => v
  | .sizedStr _, v => v

/-- See `carried`. -/
def carriedFields : (fs : Fields) → fs.Val → fs.Val
  | .nil, v => v
  | .cons t fs, v => (carried t v.1, carriedFields fs v.2)

/-- See `carried`. -/
def carriedVariants : (vs : Variants) → vs.Val → vs.Val
  | .nil, v => v
  | .cons _ fs vs, v =>
    match v with
    | .inl v => .inl (carriedFields fs v)
    | .inr v => .inr (carriedVariants vs v)

end

mutual

/-- Types each of whose decodings reads at least one octet. -/
def Eats : Ty → Prop
  | .unit _ => False
  | .wrap _ t => Eats t
  | .array t n => n ≠ 0 ∧ Eats t
  | .range t => Eats t
  | .rangeInclusive t => Eats t
  | .lock _ t => Eats t
  | .refCell t => Eats t
  | .tuple fs => EatsFields fs
  | .struct fs => EatsFields fs
  | _ => True

/-- See `Eats`. -/
def EatsFields : Fields → Prop
  | .nil => False
  | .cons t fs => Eats t ∨ EatsFields fs

end

mutual

/-- Values for which the round trip works: those without a hash map or hash set in them (their
encoding lacks the length that their decoding expects), and all of whose sized slices are full
(decoding a sized slice of capacity `N` always reads `N` items) or have items without octets. -/
def Supported : (t : Ty) → t.Val → Prop
  | .hashMap _ _, _ => False
  | .hashSet _, _ => False
  | .sizedSlice t n, v => (v.val.length = n ∨ ¬ Eats t) ∧ ∀ x ∈ v.val, Supported t x
  | .wrap _ t, v => Supported t v
  | .array t _, v => ∀ x ∈ v.val, Supported t x
  | .seq _ t, v => ∀ x ∈ (show List t.Val from v), Supported t x
  | .option t, v =>
    match v with
    | none => True
    | some v => Supported t v
  | .result t e, v =>
    match v with
    | .ok v => Supported t v
    | .err v => Supported e v
  | .bound t, v =>
    match v with
    | .included v => Supported t v
    | .excluded v => Supported t v
    | .unbounded => True
  | .range t, v => Supported t v.start ∧ Supported t v.stop
  | .rangeInclusive t, v => Supported t v.start ∧ Supported t v.stop
  | .lock _ t, v => Supported t v.val
  | .refCell t, v => Supported t v.val
  | .tuple fs, v => SupportedFields fs v
  | .struct fs, v => SupportedFields fs v
  | .enum _ vs, v => SupportedVariants vs v
  | _, _ => True

/-- See `Supported`. -/
def SupportedFields : (fs : Fields) → fs.Val → Prop
  | .nil, _ => True
  | .cons t fs, v => Supported t v.1 ∧ SupportedFields fs v.2

/-- See `Supported`. -/
def SupportedVariants : (vs : Variants) → vs.Val → Prop
  | .nil, _ => True
  | .cons _ fs vs, v =>
    match v with
    | .inl v => SupportedFields fs v
    | .inr v => SupportedVariants vs v

end

mutual

/-- Values whose end can be told from the octets: those without a hash map or hash set in them (their
encoding lacks the length). -/
def Delimited : (t : Ty) → t.Val → Prop
  | .hashMap _ _, _ => False
  | .hashSet _, _ => False
  | .sizedSlice t _, v => ∀ x ∈ v.val, Delimited t x
  | .wrap _ t, v => Delimited t v
  | .array t _, v => ∀ x ∈ v.val, Delimited t x
  | .seq _ t, v => ∀ x ∈ (show List t.Val from v), Delimited t x
  | .option t, v =>
    match v with
    | none => True
    | some v => Delimited t v
  | .result t e, v =>
    match v with
    | .ok v => Delimited t v
    | .err v => Delimited e v
  | .bound t, v =>
    match v with
    | .included v => Delimited t v
    | .excluded v => Delimited t v
    | .unbounded => True
  | .range t, v => Delimited t v.start ∧ Delimited t v.stop
  | .rangeInclusive t, v => Delimited t v.start ∧ Delimited t v.stop
  | .lock _ t, v => Delimited t v.val
  | .refCell t, v => Delimited t v.val
  | .tuple fs, v => DelimitedFields fs v
  | .struct fs, v => DelimitedFields fs v
  | .enum _ vs, v => DelimitedVariants vs v
  | _, _ => True

/-- See `Delimited`. -/
def DelimitedFields : (fs : Fields) → fs.Val → Prop
  | .nil, _ => True
  | .cons t fs, v => Delimited t v.1 ∧ DelimitedFields fs v.2

/-- See `Delimited`. -/
def DelimitedVariants : (vs : Variants) → vs.Val → Prop
  | .nil, _ => True
  | .cons _ fs vs, v =>
    match v with
    | .inl v => DelimitedFields fs v
    | .inr v => DelimitedVariants vs v

end

mutual

/-- `p` holds of the type itself and of all types it is made of. -/
def Everywhere (p : Ty → Prop) : Ty → Prop
  | .wrap w t => p (.wrap w t) ∧ Everywhere p t
  | .array t n => p (.array t n) ∧ Everywhere p t
  | .seq k t => p (.seq k t) ∧ Everywhere p t
  | .hashMap k v => p (.hashMap k v) ∧ Everywhere p k ∧ Everywhere p v
  | .hashSet k => p (.hashSet k) ∧ Everywhere p k
  | .option t => p (.option t) ∧ Everywhere p t
  | .result t e => p (.result t e) ∧ Everywhere p t ∧ Everywhere p e
  | .bound t => p (.bound t) ∧ Everywhere p t
  | .range t => p (.range t) ∧ Everywhere p t
  | .rangeInclusive t => p (.rangeInclusive t) ∧ Everywhere p t
  | .lock k t => p (.lock k t) ∧ Everywhere p t
  | .refCell t => p (.refCell t) ∧ Everywhere p t
  | .sizedSlice t n => p (.sizedSlice t n) ∧ Everywhere p t
  | .tuple fs => p (.tuple fs) ∧ EverywhereFields p fs
  | .struct fs => p (.struct fs) ∧ EverywhereFields p fs
  | .enum r vs => p (.enum r vs) ∧ EverywhereVariants p vs
  | t => p t

/-- See `Everywhere`. -/
def EverywhereFields (p : Ty → Prop) : Fields → Prop
  | .nil => True
  | .cons t fs => Everywhere p t ∧ EverywhereFields p fs

/-- See `Everywhere`. -/
def EverywhereVariants (p : Ty → Prop) : Variants → Prop
  | .nil => True
  | .cons _ fs vs => EverywhereFields p fs ∧ EverywhereVariants p vs

end

end Oct.Spec
