import Verif.Model.Basic
import Verif.Spec.Format
/-
Which values the encoder refuses, with which error, after writing which octets. It refers to the
types and values of `Model/Ty.lean` and the error values of `Model/Basic.lean` only, not to the
modelled code.
-/
namespace Oct.Spec

/-- Integers that have no encoding, with their errors. -/
def RefusesRepr : Repr → Int → EncErr → Prop
  | .int _, _, _ => False
  | .usize, x, e => 65535 < x ∧ e = .usize x.toNat
  | .isize, x, e => (x < -32768 ∨ 32767 < x) ∧ e = .isize x

/-- One element is refused, the ones before, with octets `w`, have encodings; `wrap` makes the error
of its index and error. -/
def ItemRefused {α : Type} (w : α → List UInt8) (E : α → Prop)
    (R : α → List UInt8 → EncErr → Prop) (wrap : Nat → EncErr → EncErr) (l : List α)
    (bs : List UInt8) (e : EncErr) : Prop :=
  ∃ pre x post b e', l = pre ++ x :: post ∧ (∀ y ∈ pre, E y) ∧ R x b e' ∧
    bs = pre.flatMap w ++ b ∧ e = wrap pre.length e'

/-- A length of more than 65535. -/
def LongRefused (n : Nat) (bs : List UInt8) (e : EncErr) : Prop :=
  65535 < n ∧ bs = [] ∧ e = .badLength (.usize n)

/-- Whether the type's encode error type is the generic one: that of a derived structure, and of
types that borrow the error type of a component. -/
def errorIsGeneric : Ty → Prop
  | .wrap _ t | .option t | .range t | .rangeInclusive t | .lock _ t => errorIsGeneric t
  | .hashMap k _ => errorIsGeneric k
  | .hashSet k => errorIsGeneric k
  | .result t _ => errorIsGeneric t
  | .tuple (.cons t _) => errorIsGeneric t
  | .struct _ => True
  | _ => False

mutual

/-- The value is refused with the error after exactly these octets have been written. -/
def Refuses : (t : Ty) → t.Val → List UInt8 → EncErr → Prop
  | .usize, v, bs, e => 65535 < (show Nat from v) ∧ bs = [] ∧ e = .usize v
  | .isize, v, bs, e => ((show Int from v) < -32768 ∨ 32767 < (show Int from v)) ∧ bs = [] ∧
      e = .isize v
  | .nonZero r, v, bs, e => bs = [] ∧ RefusesRepr r v.val e
  | .wrap _ t, v, bs, e => Refuses t v bs e
  | .array t _, v, bs, e => ItemRefused (wire t) (Encodable t) (Refuses t)
      (fun i e => .badItem (.item i e)) v.val bs e
  | .seq k t, v, bs, e => LongRefused (List.length v) bs e ∨
      (List.length v ≤ 65535 ∧ ∃ b, bs = leBytes 2 (List.length v) ++ b ∧
        ItemRefused (wire t) (Encodable t) (Refuses t)
          (fun i e => .badItem (if k = .linkedList then .pair i e else .item i e)) v b e)
  | .hashMap k v, m, bs, e =>
      ItemRefused (fun p : k.Val × v.Val => wire k p.1 ++ wire v p.2)
        (fun p => Encodable k p.1 ∧ Encodable v p.2)
        (fun p bs e => Refuses k p.1 bs e ∨
          (Encodable k p.1 ∧ ∃ b, bs = wire k p.1 ++ b ∧ Refuses v p.2 b e))
        (fun _ e => e) m.val bs e
  | .hashSet k, s, bs, e => ItemRefused (wire k) (Encodable k) (Refuses k) (fun _ e => e) s.val bs e
  | .option t, v, bs, e =>
    match v with
    | none => False
    | some v => ∃ b, bs = 1 :: b ∧ Refuses t v b e
  | .result t u, v, bs, e =>
    match v with
    | .ok v => ∃ b, bs = 0 :: b ∧ Refuses t v b e
    | .err v => ∃ b e', bs = 1 :: b ∧ Refuses u v b e' ∧
        (errorIsGeneric t ∧ e = e'.toGeneric ∨ ¬ errorIsGeneric t ∧ e = e')
  | .bound t, v, bs, e =>
    match v with
    | .included v => ∃ b e', bs = 0 :: b ∧ Refuses t v b e' ∧ e = .badField e'
    | .excluded v => ∃ b e', bs = 1 :: b ∧ Refuses t v b e' ∧ e = .badField e'
    | .unbounded => False
  | .range t, v, bs, e => Refuses t v.start bs e ∨
      (Encodable t v.start ∧ ∃ b, bs = wire t v.start ++ b ∧ Refuses t v.stop b e)
  | .rangeInclusive t, v, bs, e => Refuses t v.start bs e ∨
      (Encodable t v.start ∧ ∃ b, bs = wire t v.start ++ b ∧ Refuses t v.stop b e)
  | .lock _ t, v, bs, e => Refuses t v.val bs e
  | .refCell t, v, bs, e => (v.mutBorrowed = true ∧ bs = [] ∧ e = .badBorrow) ∨
      (v.mutBorrowed = false ∧ ∃ e', Refuses t v.val bs e' ∧ e = .badValue e')
  | .str _, v, bs, e => LongRefused v.val.length bs e
  | .cStr _, v, bs, e => LongRefused v.val.length bs e
  | .sizedStr _, v, bs, e => LongRefused v.val.length bs e
  | .sizedSlice t _, v, bs, e => LongRefused v.val.length bs e ∨
      (v.val.length ≤ 65535 ∧ ∃ b, bs = leBytes 2 v.val.length ++ b ∧
        ItemRefused (wire t) (Encodable t) (Refuses t) (fun i e => .badItem (.item i e)) v.val b e)
  | .tuple fs, v, bs, e => RefusesFields fs v bs e
  | .struct fs, v, bs, e => ∃ e', RefusesFields fs v bs e' ∧ e = e'.toGeneric
  | .enum r vs, v, bs, e => RefusesVariants r (explicitDiscs vs) vs 0 v bs e
  | .num _, _, _, _ | .bool, _, _, _ | .char, _, _, _ | .unit _, _, _, _ | .infallible, _, _, _
  | .duration, _, _, _ | .systemTime _, _, _, _ | .ipv4, _, _, _ | .ipv6, _, _, _
  | .ipAddr, _, _, _ | .socketAddrV4, _, _, _ | .socketAddrV6, _, _, _
  | .socketAddr, _, _, _ => False

/-- One field is refused, the ones before have encodings. -/
def RefusesFields : (fs : Fields) → fs.Val → List UInt8 → EncErr → Prop
  | .nil, _, _, _ => False
  | .cons t fs, v, bs, e => Refuses t v.1 bs e ∨
      (Encodable t v.1 ∧ ∃ b, bs = wire t v.1 ++ b ∧ RefusesFields fs v.2 b e)

/-- The discriminant is refused, or a field after it. -/
def RefusesVariants (r : Repr) (explicit : List (Option Nat)) :
    (vs : Variants) → (j : Nat) → vs.Val → List UInt8 → EncErr → Prop
  | .nil, _, v, _, _ => nomatch v
  | .cons _ fs vs, j, v, bs, e =>
    match v with
    | .inl v => (bs = [] ∧ ∃ e', RefusesRepr r (discOf explicit j) e' ∧ e = .badDiscriminant e') ∨
        (ReprEncodable r (discOf explicit j) ∧ ∃ b e', bs = reprWire r (discOf explicit j) ++ b ∧
          RefusesFields fs v b e' ∧ e = .badField e'.toGeneric)
    | .inr v => RefusesVariants r explicit vs (j + 1) v bs e

end

end Oct.Spec
