import Verif.Proofs.Emits
/- `Ty.encode` writes `Spec.wire` exactly for `Spec.Encodable` values. -/
namespace Oct
open Spec

theorem encNum_emits (n x : Nat) : Emits (encNum n x) (leBytes n x) (.ok ()) := by
  unfold encNum
  rw [← toLe_eq_leBytes]
  exact Emits.write _

theorem encNum_encodes (n x : Nat) {E : Prop} (hE : E) : Encodes (encNum n x) (leBytes n x) E :=
  (encNum_emits n x).encodes hE

theorem leBytes_one (x : Nat) : leBytes 1 x = [UInt8.ofNat (x % 256)] := by
  simp [leBytes, List.range_succ]

theorem encU8_encodes (x : Nat) {E : Prop} (hE : E) :
    Encodes (encU8 x) [UInt8.ofNat (x % 256)] E := by
  rw [← leBytes_one]
  exact encNum_encodes 1 x hE

theorem encBool_encodes (b : Bool) {E : Prop} (hE : E) :
    Encodes (encBool b) [if b = true then 1 else 0] E := by
  unfold encBool
  have h := encU8_encodes (if b = true then 1 else 0) hE
  cases b <;> exact h

theorem encUsize_encodes (n : Nat) : Encodes (encUsize n) (leBytes 2 n) (n ≤ 65535) := by
  unfold encUsize
  split
  · rename_i h; exact encNum_encodes 2 n h
  · rename_i h; exact (Emits.fail _).not_encodes (by simp) h

theorem encIsize_encodes (x : Int) :
    Encodes (encIsize x) (leBytesInt 2 x) (-32768 ≤ x ∧ x ≤ 32767) := by
  unfold encIsize
  split
  · rename_i h; exact encNum_encodes 2 _ h
  · rename_i h; exact (Emits.fail _).not_encodes (by simp) h

theorem encRepr_encodes (r : Repr) (x : Int) (hx : r.InRange x ∨ 0 ≤ x) :
    Encodes (encRepr r x) (reprWire r x) (ReprEncodable r x) := by
  cases r with
  | int k => exact encNum_encodes _ _ trivial
  | usize =>
    have h0 : 0 ≤ x := by rcases hx with h | h <;> exact h
    have h := encUsize_encodes x.toNat
    refine h.congr ?_ ?_
    · simp only [ReprEncodable]; omega
    · intro hE
      simp only [ReprEncodable] at hE
      simp only [reprWire, leBytesInt, Repr.bytes]
      congr 1
      have : x % (2:Int) ^ (8 * 2) = x := by
        rw [Int.emod_eq_of_lt h0]; omega
      rw [this]
  | isize => exact encIsize_encodes x

theorem encItems_encodes {α : Type} (enc : α → Enc Unit) (w : α → List Byte) (E : α → Prop)
    (h : ∀ a, Encodes (enc a) (w a) (E a)) (wrap : Nat → EncErr → EncErr) (l : List α) (i : Nat) :
    Encodes (encItems enc wrap i l) (l.flatMap w) (∀ x ∈ l, E x) := by
  induction l generalizing i with
  | nil => exact Emits.pure.encodes (by simp)
  | cons a l ih =>
    have := ((h a).mapErr (wrap i)).bind (f := fun _ => encItems enc wrap (i + 1) l) (ih (i + 1))
    exact this.congr (by simp) (fun _ => by simp)

theorem encArray_encodes {α : Type} (enc : α → Enc Unit) (w : α → List Byte) (E : α → Prop)
    (h : ∀ a, Encodes (enc a) (w a) (E a)) (l : List α) :
    Encodes (encArray enc l) (l.flatMap w) (∀ x ∈ l, E x) :=
  encItems_encodes enc w E h _ l 0

theorem encSlice_encodes {α : Type} (enc : α → Enc Unit) (w : α → List Byte) (E : α → Prop)
    (h : ∀ a, Encodes (enc a) (w a) (E a)) (l : List α) :
    Encodes (encSlice enc l) (leBytes 2 l.length ++ l.flatMap w)
      (l.length ≤ 65535 ∧ ∀ x ∈ l, E x) :=
  ((encUsize_encodes l.length).mapErr .badLength).bind (encItems_encodes enc w E h _ l 0)

theorem encLinkedList_encodes {α : Type} (enc : α → Enc Unit) (w : α → List Byte) (E : α → Prop)
    (h : ∀ a, Encodes (enc a) (w a) (E a)) (l : List α) :
    Encodes (encLinkedList enc l) (leBytes 2 l.length ++ l.flatMap w)
      (l.length ≤ 65535 ∧ ∀ x ∈ l, E x) :=
  ((encUsize_encodes l.length).mapErr .badLength).bind (encItems_encodes enc w E h _ l 0)

theorem encBytes_encodes (bs : List Byte) :
    Encodes (encBytes bs) (leBytes 2 bs.length ++ bs) (bs.length ≤ 65535) := by
  have h := encSlice_encodes (fun b : Byte => encU8 b.toNat) (fun b => [b]) (fun _ => True)
    (fun b => by
      have h := encU8_encodes b.toNat trivial
      have e : UInt8.ofNat (b.toNat % 256) = b := by
        have := b.toNat_lt
        rw [Nat.mod_eq_of_lt this]; simp
      rwa [e] at h) bs
  exact h.congr (by simp) (fun _ => by simp)

theorem encHashMap_encodes {α β : Type} (encK : α → Enc Unit) (encV : β → Enc Unit)
    (wk : α → List Byte) (wv : β → List Byte) (Ek : α → Prop) (Ev : β → Prop)
    (hk : ∀ a, Encodes (encK a) (wk a) (Ek a)) (hv : ∀ a, Encodes (encV a) (wv a) (Ev a))
    (l : List (α × β)) :
    Encodes (encHashMap encK encV l) (l.flatMap fun p => wk p.1 ++ wv p.2)
      (∀ p ∈ l, Ek p.1 ∧ Ev p.2) := by
  induction l with
  | nil => exact Emits.pure.encodes (by simp)
  | cons p l ih =>
    obtain ⟨k, v⟩ := p
    have := (hk k).bind (f := fun _ => (encV v).bind fun _ => encHashMap encK encV l)
      ((hv v).bind (f := fun _ => encHashMap encK encV l) ih)
    exact this.congr (by simp [and_assoc]) (fun _ => by simp)

theorem encHashSet_encodes {α : Type} (encK : α → Enc Unit)
    (wk : α → List Byte) (Ek : α → Prop)
    (hk : ∀ a, Encodes (encK a) (wk a) (Ek a)) (l : List α) :
    Encodes (encHashSet encK l) (l.flatMap wk) (∀ p ∈ l, Ek p) := by
  induction l with
  | nil => exact Emits.pure.encodes (by simp)
  | cons k l ih =>
    have := (hk k).bind (f := fun _ => encHashSet encK l) ih
    exact this.congr (by simp) (fun _ => by simp)

theorem encIpv4_encodes (a : Items Byte 4) : Encodes (encIpv4 a) a.val.reverse True := by
  have h := encNum_encodes 4 (fromBe a.val) trivial
  rw [← toLe_eq_leBytes] at h
  have e := toLe_fromBe a.val
  rw [a.property] at e
  rwa [e] at h

theorem encIpv6_encodes (a : Items Byte 16) : Encodes (encIpv6 a) a.val.reverse True := by
  have h := encNum_encodes 16 (fromBe a.val) trivial
  rw [← toLe_eq_leBytes] at h
  have e := toLe_fromBe a.val
  rw [a.property] at e
  rwa [e] at h

theorem encSocketAddrV4_encodes (a : SocketAddrV4Val) :
    Encodes (encSocketAddrV4 a) (a.ip.val.reverse ++ leBytes 2 a.port.toNat) True :=
  ((encIpv4_encodes a.ip).bind (encNum_encodes 2 a.port.toNat trivial)).congr
    (by simp) (fun _ => rfl)

theorem encSocketAddrV6_encodes (a : SocketAddrV6Val) :
    Encodes (encSocketAddrV6 a) (a.ip.val.reverse ++ leBytes 2 a.port.toNat
      ++ leBytes 4 a.flowinfo.toNat ++ leBytes 4 a.scopeId.toNat) True :=
  ((encIpv6_encodes a.ip).bind ((encNum_encodes 2 a.port.toNat trivial).bind
    ((encNum_encodes 4 a.flowinfo.toNat trivial).bind
      (encNum_encodes 4 a.scopeId.toNat trivial)))).congr
    (by simp) (fun _ => by simp)

theorem tdiv_nonneg (ns : Int) (h : 0 ≤ ns) :
    ns.tdiv nanosPerSec = ns / nanosPerSec := by
  rw [Int.tdiv_eq_ediv_of_nonneg h]

theorem encSystemTime_encodes (p : TimePlatform) (ns : Int) (hlo : p.lo ≤ ns) (hhi : ns ≤ p.hi) :
    Encodes (encSystemTime p ns) (leBytesInt 8 (ns.tdiv nanosPerSec))
      (¬ (p.overflowChecks = true ∧ ns = -(2 : Int) ^ 63 * nanosPerSec)) := by
  have hlb := p.lo_bound
  have hhb := p.hi_bound
  have hN : ((nanosPerSec : Nat) : Int) = 1000000000 := rfl
  unfold encSystemTime leBytesInt
  rw [hN]
  rw [hN] at hlb hhb
  split
  · rename_i h0
    rw [Int.tdiv_eq_ediv_of_nonneg h0]
    have h1 : (ns / 1000000000) % (2:Int) ^ (8 * 8) = ns / 1000000000 := by
      rw [Int.emod_eq_of_lt] <;> omega
    rw [h1]
    exact encNum_encodes 8 _ (by omega)
  · rename_i h0
    have ht : ns.tdiv 1000000000 = - ((-ns) / 1000000000) := by
      have : ns = -(-ns) := by omega
      rw [this, Int.neg_tdiv, Int.tdiv_eq_ediv_of_nonneg (by omega)]
      simp
    rw [ht]
    simp only
    split
    · rename_i hs
      have hns : ns = -(2 : Int) ^ 63 * 1000000000 := by omega
      split
      · rename_i hc
        exact (Emits.panic _).not_encodes (by simp) (by simp [hc, hns])
      · rename_i hc
        have : ((-((-ns) / 1000000000)) % (2:Int) ^ (8 * 8)).toNat = 2 ^ 63 := by
          subst hns; decide
        rw [this]
        exact encNum_encodes 8 _ (by simp [hc])
    · rename_i hs
      have : (0 - (((-ns) / 1000000000).toNat : Int)) = - ((-ns) / 1000000000) := by omega
      rw [this]
      exact encNum_encodes 8 _ (by
        rintro ⟨_, h⟩
        apply hs
        subst h; decide)

/-! Discriminants. -/

theorem discs_length : (vs : Variants) → (prev : Option Nat) →
    (vs.discs prev).length = (explicitDiscs vs).length
  | .nil, _ => rfl
  | .cons d _ vs, prev => by
    simp [Variants.discs, explicitDiscs, discs_length vs]

/-- The discriminant rule as a recurrence. -/
theorem discOf_step (explicit : List (Option Nat)) (j : Nat) (d : Option Nat)
    (h : explicit[j]? = some d) :
    discOf explicit j = nextDisc (if j = 0 then none else some (discOf explicit (j - 1))) d := by
  unfold discOf
  rw [List.range_succ, List.reverse_append, List.reverse_singleton, List.singleton_append,
    List.findSome?_cons]
  cases d with
  | some d => simp [h, nextDisc]
  | none =>
    simp only [h, Option.join, Option.map_none, Option.bind_some, id]
    cases j with
    | zero => simp [nextDisc]
    | succ j =>
      simp only [Nat.add_one_ne_zero, if_false, nextDisc, Nat.add_sub_cancel]
      have key : ∀ l : List Nat, (∀ i ∈ l, i ≤ j) →
          (l.findSome? fun i => (explicit[i]?.join).map fun d => d + (j + 1 - i))
            = (l.findSome? fun i => (explicit[i]?.join).map fun d => d + (j - i)).map (· + 1) := by
        intro l hl
        induction l with
        | nil => rfl
        | cons i l ih =>
          rw [List.findSome?_cons, List.findSome?_cons]
          have hi : i ≤ j := hl i (by simp)
          cases hx : explicit[i]?.join with
          | none => simp [ih (fun i hi => hl i (by simp [hi]))]
          | some d => simp; omega
      have hk := key (List.range (j + 1)).reverse (by intro i hi; simp at hi; omega)
      simp only [Option.join] at hk
      rw [hk]
      cases (List.findSome? (fun i => Option.map (fun d => d + (j - i)) (explicit[i]?.bind id))
        (List.range (j + 1)).reverse) <;> simp

mutual

theorem Ty.encode_encodes : (t : Ty) → (v : t.Val) →
    Encodes (t.encode v) (wire t v) (Encodable t v)
  | .num k, v => encNum_encodes _ _ trivial
  | .bool, v => encBool_encodes v trivial
  | .char, v => encNum_encodes _ _ trivial
  | .usize, v => encUsize_encodes v
  | .isize, v => encIsize_encodes v
  | .nonZero r, v => encRepr_encodes r v.val (.inl v.property.1)
  | .unit _, _ => Emits.pure.encodes trivial
  | .infallible, v => nomatch v
  | .wrap _ t, v => Ty.encode_encodes t v
  | .array t _, v => encArray_encodes _ _ _ (Ty.encode_encodes t) v.val
  | .seq .slice t, v => encSlice_encodes _ _ _ (Ty.encode_encodes t) v
  | .seq .vec t, v => encSlice_encodes _ _ _ (Ty.encode_encodes t) v
  | .seq .linkedList t, v => encLinkedList_encodes _ _ _ (Ty.encode_encodes t) v
  | .hashMap k v, m =>
    encHashMap_encodes _ _ _ _ _ _ (Ty.encode_encodes k) (Ty.encode_encodes v) m.val
  | .hashSet k, s => encHashSet_encodes _ _ _ (Ty.encode_encodes k) s.val
  | .option t, none => encBool_encodes false trivial
  | .option t, some v =>
    ((encBool_encodes true trivial).bind (Ty.encode_encodes t v)).congr
      (by simp [Encodable]) (fun _ => by simp [wire])
  | .result t e, .ok v =>
    ((encBool_encodes false trivial).bind (Ty.encode_encodes t v)).congr
      (by simp [Encodable]) (fun _ => by simp [wire])
  | .result t e, .err v =>
    ((encBool_encodes true trivial).bind ((Ty.encode_encodes e v).mapErr _)).congr
      (by simp [Encodable]) (fun _ => by simp [wire])
  | .bound t, .included v =>
    ((encU8_encodes 0 trivial).bind ((Ty.encode_encodes t v).mapErr _)).congr
      (by simp [Encodable]) (fun _ => by simp [wire])
  | .bound t, .excluded v =>
    ((encU8_encodes 1 trivial).bind ((Ty.encode_encodes t v).mapErr _)).congr
      (by simp [Encodable]) (fun _ => by simp [wire])
  | .bound t, .unbounded => encU8_encodes 2 trivial
  | .range t, v => (Ty.encode_encodes t v.start).bind (Ty.encode_encodes t v.stop)
  | .rangeInclusive t, v => (Ty.encode_encodes t v.start).bind (Ty.encode_encodes t v.stop)
  | .lock _ t, v => Ty.encode_encodes t v.val
  | .refCell t, ⟨true, v⟩ => (Emits.fail _).not_encodes (by simp) (by simp [Encodable])
  | .refCell t, ⟨false, v⟩ =>
    ((Ty.encode_encodes t v).mapErr .badValue).congr (by simp [Encodable]) (fun _ => rfl)
  | .duration, v =>
    ((encNum_encodes 8 v.secs.toNat trivial).bind (encNum_encodes 4 v.nanos trivial)).congr
      (by simp [Encodable]) (fun _ => rfl)
  | .systemTime p, v => encSystemTime_encodes p v.val v.property.1 v.property.2
  | .ipv4, v => encIpv4_encodes v
  | .ipv6, v => encIpv6_encodes v
  | .ipAddr, .v4 a =>
    (((encU8_encodes 4 trivial).mapErr _).bind ((encIpv4_encodes a).mapErr _)).congr
      (by simp [Encodable]) (fun _ => by simp [wire])
  | .ipAddr, .v6 a =>
    (((encU8_encodes 6 trivial).mapErr _).bind ((encIpv6_encodes a).mapErr _)).congr
      (by simp [Encodable]) (fun _ => by simp [wire])
  | .socketAddrV4, v => encSocketAddrV4_encodes v
  | .socketAddrV6, v => encSocketAddrV6_encodes v
  | .socketAddr, .v4 a =>
    ((encU8_encodes 4 trivial).bind (encSocketAddrV4_encodes a)).congr
      (by simp [Encodable]) (fun _ => by simp [wire])
  | .socketAddr, .v6 a =>
    ((encU8_encodes 6 trivial).bind (encSocketAddrV6_encodes a)).congr
      (by simp [Encodable]) (fun _ => by simp [wire])
  | .str _, v => encBytes_encodes v.val
  | .cStr _, v => encBytes_encodes v.val
  | .sizedStr _, v => encBytes_encodes v.val
  | .sizedSlice t _, v => encSlice_encodes _ _ _ (Ty.encode_encodes t) v.val
  | .tuple fs, v => Fields.encode_encodes fs _ v
  | .struct fs, v => Fields.encode_encodes fs _ v
  | .enum r vs, v => Variants.encode_encodes vs r none (explicitDiscs vs) 0
      (by simp) (by simp) v

theorem Fields.encode_encodes : (fs : Fields) → (g : EncErr → EncErr) → (v : fs.Val) →
    Encodes (fs.encode g v) (wireFields fs v) (EncodableFields fs v)
  | .nil, _, _ => Emits.pure.encodes trivial
  | .cons t fs, g, v => ((Ty.encode_encodes t v.1).mapErr g).bind (Fields.encode_encodes fs g v.2)

theorem Variants.encode_encodes : (vs : Variants) → (r : Repr) → (prev : Option Nat) →
    (explicit : List (Option Nat)) → (j : Nat) → (explicit.drop j = explicitDiscs vs) →
    (prev = if j = 0 then none else some (discOf explicit (j - 1))) → (v : vs.Val) →
    Encodes (vs.encode r prev v) (wireVariants r explicit vs j v) (EncodableVariants r explicit vs j v)
  | .nil, _, _, _, _, _, _, v => nomatch v
  | .cons d fs vs, r, prev, explicit, j, h, hp, .inl v => by
    have hd : discOf explicit j = nextDisc prev d := by
      rw [hp]
      apply discOf_step
      have := congrArg (·[0]?) h
      simpa [explicitDiscs] using this
    have h1 := (encRepr_encodes r (nextDisc prev d) (.inr (by omega))).mapErr .badDiscriminant
    rw [← hd] at h1
    have h2 := h1.bind (f := fun _ => fs.encode (fun e => .badField e.toGeneric) v)
      (Fields.encode_encodes fs _ v)
    rw [hd] at h2
    show Encodes _ (reprWire r (discOf explicit j) ++ wireFields fs v)
      (ReprEncodable r (discOf explicit j) ∧ EncodableFields fs v)
    rw [hd]
    exact h2
  | .cons d fs vs, r, prev, explicit, j, h, hp, .inr v => by
    have hd : discOf explicit j = nextDisc prev d := by
      rw [hp]
      apply discOf_step
      have := congrArg (·[0]?) h
      simpa [explicitDiscs] using this
    have hdrop : explicit.drop (j + 1) = explicitDiscs vs := by
      have := congrArg List.tail h
      simpa [explicitDiscs] using this
    exact Variants.encode_encodes vs r (some (nextDisc prev d)) explicit (j + 1) hdrop
      (by simp [hd]) v

end

end Oct
