import Verif.Model.Basic
import Verif.Spec.Format
import Verif.Spec.Text
/-
The language of the decoder: which octet strings are accepted, with which value, and which are
rejected, with which error. It refers to the types and values of `Model/Ty.lean` and the error
values of `Model/Basic.lean` only, not to the modelled code.

Octet strings are those consumed: `Accepts t bs v` says that all of `bs` and nothing more is needed
for the value `v`, and `Rejects t bs e` that the error `e` is reported after exactly `bs`.
-/
namespace Oct.Spec

/-- One octet string after the other, each standing for one element. -/
inductive Each {α : Type} (A : List UInt8 → α → Prop) : List UInt8 → List α → Prop
  | nil : Each A [] []
  | cons {b bs : List UInt8} {a : α} {l : List α} :
    A b a → Each A bs l → Each A (b ++ bs) (a :: l)

/-- Two octet strings, one after the other, each standing for one of the values. -/
def Both {α β : Type} (A : List UInt8 → α → Prop) (B : List UInt8 → β → Prop) (bs : List UInt8)
    (a : α) (b : β) : Prop :=
  ∃ b1 b2, bs = b1 ++ b2 ∧ A b1 a ∧ B b2 b

/-- Some elements, fewer than `n`, and then one that is rejected: the error carries its index. -/
def ItemRejected {α : Type} (A : List UInt8 → α → Prop) (R : List UInt8 → DecErr → Prop) (n : Nat)
    (bs : List UInt8) (e : DecErr) : Prop :=
  ∃ (l : List α) (b1 b2 : List UInt8) (e' : DecErr), l.length < n ∧ bs = b1 ++ b2 ∧ Each A b1 l ∧
    R b2 e' ∧ e = .badItem (.item l.length e')

/-- One of two parts is rejected, the first one if possible. -/
def PartRejected {α : Type} (A : List UInt8 → α → Prop) (R S : List UInt8 → DecErr → Prop)
    (bs : List UInt8) (e : DecErr) : Prop :=
  R bs e ∨ ∃ a b1 b2, bs = b1 ++ b2 ∧ A b1 a ∧ S b2 e

/-- The elements of a list in the order of their first occurrences. -/
def firsts {α : Type} [DecidableEq α] : List α → List α
  | [] => []
  | a :: l => a :: (firsts l).filter (· ≠ a)

/-- What a list of entries means as a map: its keys are those of the entries, in the order of their
first occurrences, and each is mapped as the last entry with this key tells. -/
def MapOf {α β : Type} [DecidableEq α] (l m : List (α × β)) : Prop :=
  m.map Prod.fst = firsts (l.map Prod.fst) ∧
  ∀ p ∈ m, ∃ l1 l2, l = l1 ++ p :: l2 ∧ p.1 ∉ l2.map Prod.fst

/-- The octets stop being UTF-8 text at index `j`. -/
def TextEnds (d : List UInt8) (j : Nat) : Prop :=
  j < d.length ∧ IsUtf8 (d.take j) ∧ ∀ k ≤ d.length, IsUtf8 (d.take k) → k ≤ j

mutual

/-- The octets stand for the value. Deviations of the code from its documentation are included: a
`SizedSlice` is followed by the octets of `n` elements whatever its length. -/
def Accepts : (t : Ty) → List UInt8 → t.Val → Prop
  | .num k, bs, v => bs = leBytes k.bytes (show BitVec (8 * k.bytes) from v).toNat
  | .bool, bs, v => ∃ b : UInt8, bs = [b] ∧ ((show Bool from v) = true ↔ b ≠ 0)
  | .char, bs, v => bs = leBytes 4 (show Char from v).toNat
  | .usize, bs, v => (show Nat from v) ≤ 65535 ∧ bs = leBytes 2 v
  | .isize, bs, v =>
    (-32768 ≤ (show Int from v) ∧ (show Int from v) ≤ 32767) ∧ bs = leBytesInt 2 v
  | .nonZero r, bs, v => ReprEncodable r v.val ∧ bs = reprWire r v.val
  | .unit _, bs, _ => bs = []
  | .infallible, _, _ => False
  | .wrap _ t, bs, v => Accepts t bs v
  | .array t _, bs, v => Each (Accepts t) bs v.val
  | .seq _ t, bs, v => ∃ r, List.length v ≤ 65535 ∧ bs = leBytes 2 (List.length v) ++ r ∧
      Each (Accepts t) r v
  | .hashMap k v, bs, m => ∃ (l : List (k.Val × v.Val)) (r : List UInt8), l.length ≤ 65535 ∧
      bs = leBytes 2 l.length ++ r ∧
      Each (fun b p => Both (Accepts k) (Accepts v) b p.1 p.2) r l ∧ MapOf l m.val
  | .hashSet k, bs, s => ∃ (l : List k.Val) (r : List UInt8), l.length ≤ 65535 ∧
      bs = leBytes 2 l.length ++ r ∧ Each (Accepts k) r l ∧ s.val = firsts l
  | .option t, bs, v =>
    match v with
    | none => bs = [0]
    | some v => ∃ b r, b ≠ 0 ∧ bs = b :: r ∧ Accepts t r v
  | .result t e, bs, v =>
    match v with
    | .ok v => ∃ r, bs = 0 :: r ∧ Accepts t r v
    | .err v => ∃ b r, b ≠ 0 ∧ bs = b :: r ∧ Accepts e r v
  | .bound t, bs, v =>
    match v with
    | .included v => ∃ r, bs = 0 :: r ∧ Accepts t r v
    | .excluded v => ∃ r, bs = 1 :: r ∧ Accepts t r v
    | .unbounded => bs = [2]
  | .range t, bs, v => Both (Accepts t) (Accepts t) bs v.start v.stop
  | .rangeInclusive t, bs, v => v.exhausted = false ∧ Both (Accepts t) (Accepts t) bs v.start v.stop
  | .lock _ t, bs, v => v.poisoned = false ∧ Accepts t bs v.val
  | .refCell t, bs, v => v.mutBorrowed = false ∧ Accepts t bs v.val
  | .duration, bs, v => ∃ s n : Nat, s < 2 ^ 64 ∧ n < 2 ^ 32 ∧ bs = leBytes 8 s ++ leBytes 4 n ∧
      v.secs.toNat * nanosPerSec + v.nanos = s * nanosPerSec + n
  | .systemTime _, bs, v => ∃ x : Int, (-(2 : Int) ^ 63 ≤ x ∧ x < (2 : Int) ^ 63) ∧
      bs = leBytesInt 8 x ∧ v.val = x * nanosPerSec
  | .ipv4, bs, v => bs = v.val.reverse
  | .ipv6, bs, v => bs = v.val.reverse
  | .ipAddr, bs, v =>
    match v with
    | .v4 a => bs = 4 :: a.val.reverse
    | .v6 a => bs = 6 :: a.val.reverse
  | .socketAddrV4, bs, v => bs = v.ip.val.reverse ++ leBytes 2 v.port.toNat
  | .socketAddrV6, bs, v => bs = v.ip.val.reverse ++ leBytes 2 v.port.toNat
      ++ leBytes 4 v.flowinfo.toNat ++ leBytes 4 v.scopeId.toNat
  | .socketAddr, bs, v =>
    match v with
    | .v4 a => bs = 4 :: (a.ip.val.reverse ++ leBytes 2 a.port.toNat)
    | .v6 a => bs = 6 :: (a.ip.val.reverse ++ leBytes 2 a.port.toNat
        ++ leBytes 4 a.flowinfo.toNat ++ leBytes 4 a.scopeId.toNat)
  | .str _, bs, v => v.val.length ≤ 65535 ∧ bs = leBytes 2 v.val.length ++ v.val
  | .cStr _, bs, v => v.val.length ≤ 65535 ∧ bs = leBytes 2 v.val.length ++ v.val
  | .sizedStr _, bs, v => v.val.length ≤ 65535 ∧ bs = leBytes 2 v.val.length ++ v.val
  | .sizedSlice t n, bs, v => ∃ (l : List t.Val) (r : List UInt8), l.length = n ∧
      v.val.length ≤ 65535 ∧ bs = leBytes 2 v.val.length ++ r ∧ Each (Accepts t) r l ∧ v.val <+: l
  | .tuple fs, bs, v => AcceptsFields fs bs v
  | .struct fs, bs, v => AcceptsFields fs bs v
  | .enum r vs, bs, v => AcceptsVariants r (explicitDiscs vs) vs 0 bs v

/-- Fields in order. -/
def AcceptsFields : (fs : Fields) → List UInt8 → fs.Val → Prop
  | .nil, bs, _ => bs = []
  | .cons t fs, bs, v => Both (Accepts t) (AcceptsFields fs) bs v.1 v.2

/-- A discriminant and the fields of the variant that has it. `j` is the number of the first variant
of `vs`. -/
def AcceptsVariants (r : Repr) (explicit : List (Option Nat)) :
    (vs : Variants) → (j : Nat) → List UInt8 → vs.Val → Prop
  | .nil, _, _, v => nomatch v
  | .cons _ fs vs, j, bs, v =>
    match v with
    | .inl v => ReprEncodable r (discOf explicit j) ∧
        ∃ w, bs = reprWire r (discOf explicit j) ++ w ∧ AcceptsFields fs w v
    | .inr v => AcceptsVariants r explicit vs (j + 1) bs v

end

mutual

/-- The error is reported after the octets. Deviations of the code from its documentation are
included: the code points `DE00` to `DFFF` are not rejected (nor accepted). -/
def Rejects : Ty → List UInt8 → DecErr → Prop
  | .char, bs, e => ∃ x < 2 ^ 32, (0xD800 ≤ x ∧ x ≤ 0xDDFF ∨ 0x110000 ≤ x) ∧ bs = leBytes 4 x ∧
      e = .char x
  | .nonZero r, bs, e => bs = reprWire r 0 ∧ e = .nonZero
  | .wrap _ t, bs, e => Rejects t bs e
  | .array t n, bs, e => ItemRejected (Accepts t) (Rejects t) n bs e
  | .seq _ t, bs, e => ∃ n r, n ≤ 65535 ∧ bs = leBytes 2 n ++ r ∧
      ItemRejected (Accepts t) (Rejects t) n r e
  | .hashMap k v, bs, e => ∃ n r, n ≤ 65535 ∧ bs = leBytes 2 n ++ r ∧
      ItemRejected (fun b (p : k.Val × v.Val) => Both (Accepts k) (Accepts v) b p.1 p.2)
        (PartRejected (Accepts k) (Rejects k) (Rejects v)) n r e
  | .hashSet k, bs, e => ∃ n r, n ≤ 65535 ∧ bs = leBytes 2 n ++ r ∧
      ItemRejected (Accepts k) (Rejects k) n r e
  | .option t, bs, e => ∃ b r, b ≠ 0 ∧ bs = b :: r ∧ Rejects t r e
  | .result t u, bs, e => ∃ b r e', bs = b :: r ∧ e = .badField e' ∧
      (b = 0 ∧ Rejects t r e' ∨ b ≠ 0 ∧ Rejects u r e')
  | .bound t, bs, e =>
      (∃ b r e', (b = 0 ∨ b = 1) ∧ bs = b :: r ∧ e = .badField e' ∧ Rejects t r e') ∨
      ∃ b : UInt8, 2 < b.toNat ∧ bs = [b] ∧ e = .unassigned b.toNat
  | .range t, bs, e => PartRejected (Accepts t) (Rejects t) (Rejects t) bs e
  | .rangeInclusive t, bs, e => PartRejected (Accepts t) (Rejects t) (Rejects t) bs e
  | .lock _ t, bs, e => Rejects t bs e
  | .refCell t, bs, e => Rejects t bs e
  | .systemTime p, bs, e => ∃ x : Int, (-(2 : Int) ^ 63 ≤ x ∧ x < (2 : Int) ^ 63) ∧
      ¬ (p.lo ≤ x * nanosPerSec ∧ x * nanosPerSec ≤ p.hi) ∧ bs = leBytesInt 8 x ∧ e = .systemTime x
  | .ipAddr, bs, e => ∃ b : UInt8, b ≠ 4 ∧ b ≠ 6 ∧ bs = [b] ∧ e = .unassigned b.toNat
  | .socketAddr, bs, e => ∃ b : UInt8, b ≠ 4 ∧ b ≠ 6 ∧ bs = [b] ∧ e = .unassigned b.toNat
  | .str _, bs, e => ∃ d j c, d.length ≤ 65535 ∧ bs = leBytes 2 d.length ++ d ∧ TextEnds d j ∧
      d[j]? = some c ∧ e = .badItem (.utf8 c j)
  | .cStr _, bs, e => ∃ d j, d.length ≤ 65535 ∧ bs = leBytes 2 d.length ++ d ∧
      d[j]? = some 0 ∧ 0 ∉ d.take j ∧ e = .cString j
  | .sizedStr n, bs, e => ∃ d, d.length ≤ 65535 ∧ bs = leBytes 2 d.length ++ d ∧
      (n < d.length ∧ e = .badLength (.length n d.length) ∨
       d.length ≤ n ∧ ∃ j c, TextEnds d j ∧ d[j]? = some c ∧ e = .badItem (.utf8 c j))
  | .sizedSlice t n, bs, e => ∃ k r, k ≤ 65535 ∧ bs = leBytes 2 k ++ r ∧
      (n < k ∧ r = [] ∧ e = .badLength (.length n k) ∨
       k ≤ n ∧ ItemRejected (Accepts t) (Rejects t) n r e)
  | .tuple fs, bs, e => RejectsFields fs bs e
  | .struct fs, bs, e => ∃ e', RejectsFields fs bs e' ∧ e = e'.toGeneric
  | .enum r vs, bs, e =>
      (∃ x w e', ReprEncodable r x ∧ r.InRange x ∧ bs = reprWire r x ++ w ∧
        RejectsVariants (explicitDiscs vs) vs 0 x w e' ∧ e = .badField e'.toGeneric) ∨
      ∃ x, ReprEncodable r x ∧ r.InRange x ∧ bs = reprWire r x ∧ e = .unassigned x ∧
        ∀ j < (explicitDiscs vs).length, x ≠ discOf (explicitDiscs vs) j
  | .num _, _, _ | .bool, _, _ | .usize, _, _ | .isize, _, _ | .unit _, _, _ | .infallible, _, _
  | .duration, _, _ | .ipv4, _, _ | .ipv6, _, _ | .socketAddrV4, _, _ | .socketAddrV6, _, _ => False

/-- One field is rejected, the ones before are accepted. -/
def RejectsFields : Fields → List UInt8 → DecErr → Prop
  | .nil, _, _ => False
  | .cons t fs, bs, e => PartRejected (Accepts t) (Rejects t) (RejectsFields fs) bs e

/-- The fields of the variant with discriminant `x` are rejected. -/
def RejectsVariants (explicit : List (Option Nat)) :
    Variants → (j : Nat) → (x : Int) → List UInt8 → DecErr → Prop
  | .nil, _, _, _, _ => False
  | .cons _ fs vs, j, x, bs, e =>
      x = discOf explicit j ∧ RejectsFields fs bs e ∨ RejectsVariants explicit vs (j + 1) x bs e

end

end Oct.Spec
