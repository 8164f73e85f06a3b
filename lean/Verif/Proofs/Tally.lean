import Verif.Proofs.Graph
import Verif.Spec.Tally
/- Lemmas for C133: what encoding costs. -/
set_option linter.unusedVariables false
namespace Oct
open Spec

namespace Effort

/-- `m` does what `e` does. -/
def Same (m : Effort) (e : Enc Unit) : Prop := ∀ o, (m o).1 = e o

theorem Same.of (c : Nat) (e : Enc Unit) : Same (.of c e) e := fun _ => rfl

theorem Same.call {m : Effort} {e : Enc Unit} (h : Same m e) (p : Prices) : Same (m.call p) e := fun o => h o

theorem Same.mapErr {m : Effort} {e : Enc Unit} (h : Same m e) (g : EncErr → EncErr) :
    Same (m.mapErr g) (e.mapErr g) := fun o => by
  show ((m o).1.1.mapErr g, (m o).1.2) = ((e o).1.mapErr g, (e o).2)
  rw [h o]

theorem Same.andThen {m n : Effort} {e f : Enc Unit} (hm : Same m e) (hn : Same n f) :
    Same (m.andThen n) (e >>= fun _ => f) := fun o => by
  have h := hm o
  show (Effort.andThen m n o).1 = Enc.bind e (fun _ => f) o
  unfold Effort.andThen Enc.bind
  rw [← h]
  generalize m o = q
  obtain ⟨⟨r, o'⟩, c⟩ := q
  cases r with
  | ok a => exact hn o'
  | err _ => rfl
  | panic _ => rfl
  | ub _ => rfl

end Effort

open Effort

theorem tallyNum_same (p : Prices) (n x : Nat) : Same (tallyNum p n x) (encNum n x) := (Same.of _ _).call p

theorem tallyUsize_same (p : Prices) (n : Nat) : Same (tallyUsize p n) (encUsize n) := by
  unfold tallyUsize encUsize
  split
  · exact (tallyNum_same p 2 n).call p
  · exact (Same.of _ _).call p

theorem tallyIsize_same (p : Prices) (x : Int) : Same (tallyIsize p x) (encIsize x) := by
  unfold tallyIsize encIsize
  split
  · exact (tallyNum_same p 2 _).call p
  · exact (Same.of _ _).call p

theorem tallyRepr_same (p : Prices) : (r : Repr) → (x : Int) → Same (tallyRepr p r x) (encRepr r x)
  | .int k, x => tallyNum_same p _ _
  | .usize, x => tallyUsize_same p _
  | .isize, x => tallyIsize_same p x

theorem tallyBool_same (p : Prices) (b : Bool) : Same (tallyBool p b) (encBool b) :=
  (tallyNum_same p 1 _).call p

theorem tallyItems_same {α : Type} {m : α → Effort} {e : α → Enc Unit} (h : ∀ v, Same (m v) (e v))
    (wrap : Nat → EncErr → EncErr) : (i : Nat) → (l : List α) →
    Same (tallyItems m wrap i l) (encItems e wrap i l)
  | _, [] => Same.of _ _
  | i, v :: vs => ((h v).mapErr _).andThen (tallyItems_same h wrap (i + 1) vs)

theorem tallySlice_same {α : Type} (p : Prices) {m : α → Effort} {e : α → Enc Unit}
    (h : ∀ v, Same (m v) (e v)) (l : List α) : Same (tallySlice p m l) (encSlice e l) :=
  (((tallyUsize_same p _).mapErr _).andThen (tallyItems_same h _ 0 l)).call p

theorem tallyLinkedList_same {α : Type} (p : Prices) {m : α → Effort} {e : α → Enc Unit}
    (h : ∀ v, Same (m v) (e v)) (l : List α) : Same (tallyLinkedList p m l) (encLinkedList e l) :=
  (((tallyUsize_same p _).mapErr _).andThen (tallyItems_same h _ 0 l)).call p

theorem tallyBytes_same (p : Prices) (bs : List Byte) : Same (tallyBytes p bs) (encBytes bs) := by
  have h : ∀ b : Byte, Same (tallyNum p 1 b.toNat) (encU8 b.toNat) := by
    intro b
    unfold encU8
    exact tallyNum_same p 1 b.toNat
  exact tallySlice_same (α := Byte) p h bs

theorem tallyEntries_same {α β : Type} {mK : α → Effort} {mV : β → Effort} {eK : α → Enc Unit}
    {eV : β → Enc Unit} (hK : ∀ k, Same (mK k) (eK k)) (hV : ∀ v, Same (mV v) (eV v)) :
    (l : List (α × β)) → Same (tallyEntries mK mV l) (encHashMap eK eV l)
  | [] => Same.of _ _
  | (k, v) :: l => (hK k).andThen ((hV v).andThen (tallyEntries_same hK hV l))

theorem tallyKeys_same {α : Type} {mK : α → Effort} {eK : α → Enc Unit} (hK : ∀ k, Same (mK k) (eK k)) :
    (l : List α) → Same (tallyKeys mK l) (encHashSet eK l)
  | [] => Same.of _ _
  | k :: l => (hK k).andThen (tallyKeys_same hK l)

theorem tallySystemTime_same (p : Prices) (t : TimePlatform) (ns : Int) :
    Same (tallySystemTime p t ns) (encSystemTime t ns) := by
  unfold tallySystemTime encSystemTime
  dsimp only
  split
  · exact (tallyNum_same p _ _).call p
  · split
    · split
      · exact (Same.of _ _).call p
      · exact (tallyNum_same p _ _).call p
    · exact (tallyNum_same p _ _).call p

theorem tallyIpv4_same (p : Prices) (a : Items Byte 4) : Same (tallyIpv4 p a) (encIpv4 a) :=
  (tallyNum_same p _ _).call p

theorem tallyIpv6_same (p : Prices) (a : Items Byte 16) : Same (tallyIpv6 p a) (encIpv6 a) :=
  (tallyNum_same p _ _).call p

theorem tallySocketAddrV4_same (p : Prices) (a : SocketAddrV4Val) :
    Same (tallySocketAddrV4 p a) (encSocketAddrV4 a) :=
  ((tallyIpv4_same p _).andThen (tallyNum_same p _ _)).call p

theorem tallySocketAddrV6_same (p : Prices) (a : SocketAddrV6Val) :
    Same (tallySocketAddrV6 p a) (encSocketAddrV6 a) :=
  ((tallyIpv6_same p _).andThen ((tallyNum_same p _ _).andThen ((tallyNum_same p _ _).andThen
    (tallyNum_same p _ _)))).call p

mutual

theorem Ty.tally_same (p : Prices) : (t : Ty) → (v : t.Val) → Same (t.tally p v) (t.encode v)
  | .num k, v => tallyNum_same p _ _
  | .bool, v => tallyBool_same p v
  | .char, v => (tallyNum_same p 4 _).call p
  | .usize, v => tallyUsize_same p v
  | .isize, v => tallyIsize_same p v
  | .nonZero r, v => (tallyRepr_same p r v.val).call p
  | .unit _, _ => (Same.of _ _).call p
  | .infallible, v => nomatch v
  | .wrap _ t, v => (t.tally_same p v).call p
  | .array t _, v => (tallyItems_same (t.tally_same p) _ 0 v.val).call p
  | .seq .slice t, v => tallySlice_same p (t.tally_same p) v
  | .seq .vec t, v => (tallySlice_same p (t.tally_same p) v).call p
  | .seq .linkedList t, v => tallyLinkedList_same p (t.tally_same p) v
  | .hashMap k v, m => (tallyEntries_same (k.tally_same p) (v.tally_same p) m.val).call p
  | .hashSet k, s => (tallyKeys_same (k.tally_same p) s.val).call p
  | .option t, none => (tallyBool_same p false).call p
  | .option t, some v => ((tallyBool_same p true).andThen (t.tally_same p v)).call p
  | .result t e, .ok v => ((tallyBool_same p false).andThen (t.tally_same p v)).call p
  | .result t e, .err v => ((tallyBool_same p true).andThen ((e.tally_same p v).mapErr _)).call p
  | .bound t, .included v => ((tallyNum_same p 1 0).andThen ((t.tally_same p v).mapErr _)).call p
  | .bound t, .excluded v => ((tallyNum_same p 1 1).andThen ((t.tally_same p v).mapErr _)).call p
  | .bound t, .unbounded => (tallyNum_same p 1 2).call p
  | .range t, v => ((t.tally_same p v.start).andThen (t.tally_same p v.stop)).call p
  | .rangeInclusive t, v => ((t.tally_same p v.start).andThen (t.tally_same p v.stop)).call p
  | .lock _ t, v => (t.tally_same p v.val).call p
  | .refCell t, ⟨true, v⟩ => (Same.of _ _).call p
  | .refCell t, ⟨false, v⟩ => ((t.tally_same p v).mapErr _).call p
  | .duration, v => ((tallyNum_same p _ _).andThen (tallyNum_same p _ _)).call p
  | .systemTime q, v => tallySystemTime_same p q v.val
  | .ipv4, v => tallyIpv4_same p v
  | .ipv6, v => tallyIpv6_same p v
  | .ipAddr, .v4 a => (((tallyNum_same p 1 4).mapErr _).andThen ((tallyIpv4_same p a).mapErr _)).call p
  | .ipAddr, .v6 a => (((tallyNum_same p 1 6).mapErr _).andThen ((tallyIpv6_same p a).mapErr _)).call p
  | .socketAddrV4, v => tallySocketAddrV4_same p v
  | .socketAddrV6, v => tallySocketAddrV6_same p v
  | .socketAddr, .v4 a => ((tallyNum_same p 1 4).andThen (tallySocketAddrV4_same p a)).call p
  | .socketAddr, .v6 a => ((tallyNum_same p 1 6).andThen (tallySocketAddrV6_same p a)).call p
  | .str .str, v => (tallyBytes_same p v.val).call p
  | .str .string, v => ((tallyBytes_same p v.val).call p).call p
  | .cStr .cStr, v => (tallyBytes_same p v.val).call p
  | .cStr .cString, v => ((tallyBytes_same p v.val).call p).call p
  | .sizedStr _, v => ((tallyBytes_same p v.val).call p).call p
  | .sizedSlice t _, v => (tallySlice_same p (t.tally_same p) v.val).call p
  | .tuple fs, v => (fs.tally_same p _ v).call p
  | .struct fs, v => (fs.tally_same p _ v).call p
  | .enum r vs, v => (vs.tally_same p r none v).call p

theorem Fields.tally_same (p : Prices) : (fs : Fields) → (g : EncErr → EncErr) → (v : fs.Val) →
    Same (fs.tally p g v) (fs.encode g v)
  | .nil, _, _ => Same.of _ _
  | .cons t fs, g, v => ((t.tally_same p v.1).mapErr g).andThen (fs.tally_same p g v.2)

theorem Variants.tally_same (p : Prices) : (vs : Variants) → (r : Repr) → (prev : Option Nat) → (v : vs.Val) →
    Same (vs.tally p r prev v) (vs.encode r prev v)
  | .nil, _, _, v => nomatch v
  | .cons d fs vs, r, prev, .inl v =>
    ((tallyRepr_same p r _).mapErr _).andThen (fs.tally_same p _ v)
  | .cons d fs vs, r, prev, .inr v => vs.tally_same p r _ v

end

/-- A property of encodings that what is made of encodings that have it has. -/
structure Effort.Inv (p : Prices) (P : Effort → Prop) : Prop where
  num : ∀ n x, 0 < n → n ≤ 16 → P (tallyNum p n x)
  pure : P (.of 0 (Enc.pure ()))
  fail : ∀ e, P (.of 0 (Enc.fail e))
  panic : ∀ x, P (.of 0 (Enc.panic x))
  call : ∀ {m}, P m → P (m.call p)
  mapErr : ∀ {m} g, P m → P (m.mapErr g)
  andThen : ∀ {m n}, P m → P n → P (m.andThen n)

namespace Effort.Inv
variable {p : Prices} {P : Effort → Prop} (h : Effort.Inv p P)
include h

theorem usize (n : Nat) : P (tallyUsize p n) := by
  unfold tallyUsize
  split
  · exact h.call (h.num _ _ (by decide) (by decide))
  · exact h.call (h.fail _)

theorem isize (x : Int) : P (tallyIsize p x) := by
  unfold tallyIsize
  split
  · exact h.call (h.num _ _ (by decide) (by decide))
  · exact h.call (h.fail _)

theorem repr : (r : Repr) → (x : Int) → P (tallyRepr p r x)
  | .int k, x => h.num _ _ (by cases k <;> decide) (by cases k <;> decide)
  | .usize, x => h.usize _
  | .isize, x => h.isize x

theorem bool (b : Bool) : P (tallyBool p b) := h.call (h.num _ _ (by decide) (by decide))

theorem items {α : Type} {m : α → Effort} (hm : ∀ v, P (m v)) (wrap : Nat → EncErr → EncErr) :
    (i : Nat) → (l : List α) → P (tallyItems m wrap i l)
  | _, [] => h.pure
  | i, v :: vs => h.andThen (h.mapErr _ (hm v)) (items hm wrap (i + 1) vs)

theorem slice {α : Type} {m : α → Effort} (hm : ∀ v, P (m v)) (l : List α) : P (tallySlice p m l) :=
  h.call (h.andThen (h.mapErr _ (h.usize _)) (h.items hm _ 0 l))

theorem linkedList {α : Type} {m : α → Effort} (hm : ∀ v, P (m v)) (l : List α) :
    P (tallyLinkedList p m l) :=
  h.call (h.andThen (h.mapErr _ (h.usize _)) (h.items hm _ 0 l))

theorem bytes (bs : List Byte) : P (tallyBytes p bs) :=
  h.slice (fun b => h.num _ _ (by decide) (by decide)) bs

theorem entries {α β : Type} {mK : α → Effort} {mV : β → Effort} (hK : ∀ k, P (mK k)) (hV : ∀ v, P (mV v)) :
    (l : List (α × β)) → P (tallyEntries mK mV l)
  | [] => h.pure
  | (k, v) :: l => h.andThen (hK k) (h.andThen (hV v) (entries hK hV l))

theorem keys {α : Type} {mK : α → Effort} (hK : ∀ k, P (mK k)) : (l : List α) → P (tallyKeys mK l)
  | [] => h.pure
  | k :: l => h.andThen (hK k) (keys hK l)

theorem systemTime (t : TimePlatform) (ns : Int) : P (tallySystemTime p t ns) := by
  have h8 : ∀ x, P (tallyNum p 8 x) := fun x => h.num _ _ (by decide) (by decide)
  unfold tallySystemTime
  dsimp only
  split
  · exact h.call (h8 _)
  · split
    · split
      · exact h.call (h.panic _)
      · exact h.call (h8 _)
    · exact h.call (h8 _)

theorem ipv4 (a : Items Byte 4) : P (tallyIpv4 p a) := h.call (h.num _ _ (by decide) (by decide))

theorem ipv6 (a : Items Byte 16) : P (tallyIpv6 p a) := h.call (h.num _ _ (by decide) (by decide))

theorem socketAddrV4 (a : SocketAddrV4Val) : P (tallySocketAddrV4 p a) :=
  h.call (h.andThen (h.ipv4 _) (h.num _ _ (by decide) (by decide)))

theorem socketAddrV6 (a : SocketAddrV6Val) : P (tallySocketAddrV6 p a) :=
  h.call (h.andThen (h.ipv6 _) (h.andThen (h.num _ _ (by decide) (by decide))
    (h.andThen (h.num _ _ (by decide) (by decide)) (h.num _ _ (by decide) (by decide)))))

end Effort.Inv

mutual

theorem Ty.tally_inv {p : Prices} {P : Effort → Prop} (h : Effort.Inv p P) : (t : Ty) → (v : t.Val) →
    P (t.tally p v)
  | .num k, v => h.num _ _ (by
      cases k with
      | int k => cases k <;> decide
      | _ => decide) (by
      cases k with
      | int k => cases k <;> decide
      | _ => decide)
  | .bool, v => h.bool v
  | .char, v => h.call (h.num _ _ (by decide) (by decide))
  | .usize, v => h.usize v
  | .isize, v => h.isize v
  | .nonZero r, v => h.call (h.repr r v.val)
  | .unit _, _ => h.call h.pure
  | .infallible, v => nomatch v
  | .wrap _ t, v => h.call (t.tally_inv h v)
  | .array t _, v => h.call (h.items (t.tally_inv h) _ 0 v.val)
  | .seq .slice t, v => h.slice (t.tally_inv h) v
  | .seq .vec t, v => h.call (h.slice (t.tally_inv h) v)
  | .seq .linkedList t, v => h.linkedList (t.tally_inv h) v
  | .hashMap k v, m => h.call (h.entries (k.tally_inv h) (v.tally_inv h) m.val)
  | .hashSet k, s => h.call (h.keys (k.tally_inv h) s.val)
  | .option t, none => h.call (h.bool false)
  | .option t, some v => h.call (h.andThen (h.bool true) (t.tally_inv h v))
  | .result t e, .ok v => h.call (h.andThen (h.bool false) (t.tally_inv h v))
  | .result t e, .err v => h.call (h.andThen (h.bool true) (h.mapErr _ (e.tally_inv h v)))
  | .bound t, .included v => h.call (h.andThen (h.num _ _ (by decide) (by decide)) (h.mapErr _ (t.tally_inv h v)))
  | .bound t, .excluded v => h.call (h.andThen (h.num _ _ (by decide) (by decide)) (h.mapErr _ (t.tally_inv h v)))
  | .bound t, .unbounded => h.call (h.num _ _ (by decide) (by decide))
  | .range t, v => h.call (h.andThen (t.tally_inv h v.start) (t.tally_inv h v.stop))
  | .rangeInclusive t, v => h.call (h.andThen (t.tally_inv h v.start) (t.tally_inv h v.stop))
  | .lock _ t, v => h.call (t.tally_inv h v.val)
  | .refCell t, ⟨true, v⟩ => h.call (h.fail _)
  | .refCell t, ⟨false, v⟩ => h.call (h.mapErr _ (t.tally_inv h v))
  | .duration, v => h.call (h.andThen (h.num _ _ (by decide) (by decide)) (h.num _ _ (by decide) (by decide)))
  | .systemTime q, v => h.systemTime q v.val
  | .ipv4, v => h.ipv4 v
  | .ipv6, v => h.ipv6 v
  | .ipAddr, .v4 a =>
    h.call (h.andThen (h.mapErr _ (h.num _ _ (by decide) (by decide))) (h.mapErr _ (h.ipv4 a)))
  | .ipAddr, .v6 a =>
    h.call (h.andThen (h.mapErr _ (h.num _ _ (by decide) (by decide))) (h.mapErr _ (h.ipv6 a)))
  | .socketAddrV4, v => h.socketAddrV4 v
  | .socketAddrV6, v => h.socketAddrV6 v
  | .socketAddr, .v4 a => h.call (h.andThen (h.num _ _ (by decide) (by decide)) (h.socketAddrV4 a))
  | .socketAddr, .v6 a => h.call (h.andThen (h.num _ _ (by decide) (by decide)) (h.socketAddrV6 a))
  | .str .str, v => h.call (h.bytes v.val)
  | .str .string, v => h.call (h.call (h.bytes v.val))
  | .cStr .cStr, v => h.call (h.bytes v.val)
  | .cStr .cString, v => h.call (h.call (h.bytes v.val))
  | .sizedStr _, v => h.call (h.call (h.bytes v.val))
  | .sizedSlice t _, v => h.call (h.slice (t.tally_inv h) v.val)
  | .tuple fs, v => h.call (fs.tally_inv h _ v)
  | .struct fs, v => h.call (fs.tally_inv h _ v)
  | .enum r vs, v => h.call (vs.tally_inv h r none v)

theorem Fields.tally_inv {p : Prices} {P : Effort → Prop} (h : Effort.Inv p P) : (fs : Fields) →
    (g : EncErr → EncErr) → (v : fs.Val) → P (fs.tally p g v)
  | .nil, _, _ => h.pure
  | .cons t fs, g, v => h.andThen (h.mapErr g (t.tally_inv h v.1)) (fs.tally_inv h g v.2)

theorem Variants.tally_inv {p : Prices} {P : Effort → Prop} (h : Effort.Inv p P) : (vs : Variants) →
    (r : Repr) → (prev : Option Nat) → (v : vs.Val) → P (vs.tally p r prev v)
  | .nil, _, _, v => nomatch v
  | .cons d fs vs, r, prev, .inl v => h.andThen (h.mapErr _ (h.repr r _)) (fs.tally_inv h _ v)
  | .cons d fs vs, r, prev, .inr v => vs.tally_inv h r _ v

end

end Oct
