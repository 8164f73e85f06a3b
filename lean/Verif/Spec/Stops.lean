import Verif.Spec.Accepts
import Verif.Spec.RoundTrip
/-
The octets after which decoding stops without giving a value or an error, though none are lacking. Refers
to types and values only, not to the modelled code.
-/
namespace Oct.Spec

/-- The ways in which decoding can stop, other than for lack of octets: it makes a `char` of a surrogate,
the seconds of a `Duration` overflow, or it is asked for an `Infallible`. -/
inductive Stop where
  | invalidChar
  | durationOverflow
  | infallible
  deriving DecidableEq

/-- The outcome of decoding that stops. -/
def Stop.res {α : Type} : Stop → Res DecErr α
  | .invalidChar => .ub .invalidChar
  | .durationOverflow => .panic .durationOverflow
  | .infallible => .panic .infallible

/-- Some elements, fewer than `n`, and then one that stops. -/
def ItemStops {α : Type} (A : List UInt8 → α → Prop) (S : List UInt8 → Stop → Prop) (n : Nat)
    (bs : List UInt8) (s : Stop) : Prop :=
  ∃ (l : List α) (b1 b2 : List UInt8), l.length < n ∧ bs = b1 ++ b2 ∧ Each A b1 l ∧ S b2 s

/-- One of two parts stops, the first one if possible. -/
def PartStops {α : Type} (A : List UInt8 → α → Prop) (S T : List UInt8 → Stop → Prop)
    (bs : List UInt8) (s : Stop) : Prop :=
  S bs s ∨ ∃ a b1 b2, bs = b1 ++ b2 ∧ A b1 a ∧ T b2 s

mutual

/-- Decoding stops after exactly these octets. -/
def Stops : Ty → List UInt8 → Stop → Prop
  | .char, bs, s => ∃ x, (0xDE00 ≤ x ∧ x ≤ 0xDFFF) ∧ bs = leBytes 4 x ∧ s = .invalidChar
  | .infallible, bs, s => bs = [] ∧ s = .infallible
  | .duration, bs, s => ∃ x n : Nat, x < 2 ^ 64 ∧ n < 2 ^ 32 ∧ bs = leBytes 8 x ++ leBytes 4 n ∧
      2 ^ 64 * nanosPerSec ≤ x * nanosPerSec + n ∧ s = .durationOverflow
  | .wrap _ t, bs, s => Stops t bs s
  | .array t n, bs, s => ItemStops (Accepts t) (Stops t) n bs s
  | .seq _ t, bs, s => ∃ n r, n ≤ 65535 ∧ bs = leBytes 2 n ++ r ∧
      ItemStops (Accepts t) (Stops t) n r s
  | .hashMap k v, bs, s => ∃ n r, n ≤ 65535 ∧ bs = leBytes 2 n ++ r ∧
      ItemStops (fun b (p : k.Val × v.Val) => Both (Accepts k) (Accepts v) b p.1 p.2)
        (PartStops (Accepts k) (Stops k) (Stops v)) n r s
  | .hashSet k, bs, s => ∃ n r, n ≤ 65535 ∧ bs = leBytes 2 n ++ r ∧
      ItemStops (Accepts k) (Stops k) n r s
  | .option t, bs, s => ∃ b r, b ≠ 0 ∧ bs = b :: r ∧ Stops t r s
  | .result t u, bs, s => ∃ b r, bs = b :: r ∧ (b = 0 ∧ Stops t r s ∨ b ≠ 0 ∧ Stops u r s)
  | .bound t, bs, s => ∃ b r, (b = 0 ∨ b = 1) ∧ bs = b :: r ∧ Stops t r s
  | .range t, bs, s => PartStops (Accepts t) (Stops t) (Stops t) bs s
  | .rangeInclusive t, bs, s => PartStops (Accepts t) (Stops t) (Stops t) bs s
  | .lock _ t, bs, s => Stops t bs s
  | .refCell t, bs, s => Stops t bs s
  | .sizedSlice t n, bs, s => ∃ k r, k ≤ 65535 ∧ k ≤ n ∧ bs = leBytes 2 k ++ r ∧
      ItemStops (Accepts t) (Stops t) n r s
  | .tuple fs, bs, s => StopsFields fs bs s
  | .struct fs, bs, s => StopsFields fs bs s
  | .enum r vs, bs, s => ∃ x w, ReprEncodable r x ∧ r.InRange x ∧ bs = reprWire r x ++ w ∧
      StopsVariants (explicitDiscs vs) vs 0 x w s
  | .num _, _, _ | .bool, _, _ | .usize, _, _ | .isize, _, _ | .nonZero _, _, _ | .unit _, _, _
  | .systemTime _, _, _ | .ipv4, _, _ | .ipv6, _, _ | .ipAddr, _, _ | .socketAddrV4, _, _
  | .socketAddrV6, _, _ | .socketAddr, _, _ | .str _, _, _ | .cStr _, _, _
  | .sizedStr _, _, _ => False

/-- One field stops, the ones before are accepted. -/
def StopsFields : Fields → List UInt8 → Stop → Prop
  | .nil, _, _ => False
  | .cons t fs, bs, s => PartStops (Accepts t) (Stops t) (StopsFields fs) bs s

/-- The fields of the variant with discriminant `x` stop. -/
def StopsVariants (explicit : List (Option Nat)) :
    Variants → (j : Nat) → (x : Int) → List UInt8 → Stop → Prop
  | .nil, _, _, _, _ => False
  | .cons _ fs vs, j, x, bs, s =>
      x = discOf explicit j ∧ StopsFields fs bs s ∨ StopsVariants explicit vs (j + 1) x bs s

end

mutual

/-- Types of which some octets stand for a value. -/
def Decodable : Ty → Prop
  | .infallible => False
  | .wrap _ t => Decodable t
  | .array t n => n = 0 ∨ Decodable t
  | .result t e => Decodable t ∨ Decodable e
  | .range t => Decodable t
  | .rangeInclusive t => Decodable t
  | .lock _ t => Decodable t
  | .refCell t => Decodable t
  | .sizedSlice t n => n = 0 ∨ Decodable t
  | .tuple fs => DecodableFields fs
  | .struct fs => DecodableFields fs
  | .enum r vs => DecodableVariants r (explicitDiscs vs) vs 0
  | _ => True

/-- All fields. -/
def DecodableFields : Fields → Prop
  | .nil => True
  | .cons t fs => Decodable t ∧ DecodableFields fs

/-- One of the variants whose discriminant can be encoded. -/
def DecodableVariants (r : Repr) (explicit : List (Option Nat)) : Variants → Nat → Prop
  | .nil, _ => False
  | .cons _ fs vs, j =>
    ReprEncodable r (discOf explicit j) ∧ DecodableFields fs ∨ DecodableVariants r explicit vs (j + 1)

end

mutual

/-- Types in which decoding can get to a type that can stop in the given way. -/
def Reaches (s : Stop) : Ty → Prop
  | .char => s = .invalidChar
  | .infallible => s = .infallible
  | .duration => s = .durationOverflow
  | .wrap _ t => Reaches s t
  | .array t n => n ≠ 0 ∧ Reaches s t
  | .seq _ t => Reaches s t
  | .hashMap k v => Reaches s k ∨ Decodable k ∧ Reaches s v
  | .hashSet k => Reaches s k
  | .option t => Reaches s t
  | .result t e => Reaches s t ∨ Reaches s e
  | .bound t => Reaches s t
  | .range t => Reaches s t
  | .rangeInclusive t => Reaches s t
  | .lock _ t => Reaches s t
  | .refCell t => Reaches s t
  | .sizedSlice t n => n ≠ 0 ∧ Reaches s t
  | .tuple fs => ReachesFields s fs
  | .struct fs => ReachesFields s fs
  | .enum r vs => ReachesVariants s r (explicitDiscs vs) vs 0
  | _ => False

/-- A field, if the ones before have values. -/
def ReachesFields (s : Stop) : Fields → Prop
  | .nil => False
  | .cons t fs => Reaches s t ∨ Decodable t ∧ ReachesFields s fs

/-- The fields of one of the variants whose discriminant can be encoded. -/
def ReachesVariants (s : Stop) (r : Repr) (explicit : List (Option Nat)) : Variants → Nat → Prop
  | .nil, _ => False
  | .cons _ fs vs, j =>
    ReprEncodable r (discOf explicit j) ∧ ReachesFields s fs ∨
      ReachesVariants s r explicit vs (j + 1)

end

end Oct.Spec
