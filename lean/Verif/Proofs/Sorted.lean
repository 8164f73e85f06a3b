import Verif.Spec.Sorted
import Verif.Proofs.Derived
import Verif.Model.SizedStr
/-
Octets that are ordered as the values they encode are.
-/
namespace Oct
open Spec
set_option linter.unusedVariables false

theorem then_assoc' (a b c : Ordering) : (a.then b).then c = a.then (b.then c) := by cases a <;> rfl

theorem itemwise_append {α : Type} {f : α → α → Ordering} : ∀ (l m r s : List α), l.length = m.length →
    itemwise f (l ++ r) (m ++ s) = (itemwise f l m).then (itemwise f r s)
  | [], [], r, s, _ => rfl
  | [], _ :: _, _, _, h => nomatch h
  | _ :: _, [], _, _, h => nomatch h
  | a :: l, b :: m, r, s, h => by
    have := itemwise_append (f := f) l m r s (by simpa using h)
    show (f a b).then (itemwise f (l ++ r) (m ++ s)) = ((f a b).then _).then _
    rw [this, then_assoc']

theorem octetwise_cons (x y : UInt8) (r s : List UInt8) :
    octetwise (x :: r) (y :: s) = (compare x.toNat y.toNat).then (octetwise r s) := rfl

theorem octetwise_same : ∀ (w r s : List UInt8), octetwise (w ++ r) (w ++ s) = octetwise r s
  | [], r, s => rfl
  | x :: w, r, s => by
    show (compare x.toNat x.toNat).then (octetwise (w ++ r) (w ++ s)) = _
    rw [octetwise_same w r s, Nat.compare_eq_eq.mpr rfl]
    rfl

/-- Small numbers are ordered as their octets. -/
theorem octetwise_small (n : Nat) (hn : 0 < n) (a b : Nat) (ha : a < 256) (hb : b < 256) (r s : List UInt8) :
    octetwise (leBytes n a ++ r) (leBytes n b ++ s) = (compare a b).then (octetwise r s) := by
  obtain ⟨m, rfl⟩ : ∃ m, n = m + 1 := ⟨n - 1, by omega⟩
  have h : ∀ a, a < 256 → leBytes (m + 1) a = UInt8.ofNat a :: List.replicate m 0 := by
    intro a ha
    unfold leBytes
    rw [List.range_succ_eq_map, List.map_cons, List.map_map]
    congr 1
    · simp [Nat.mod_eq_of_lt ha]
    · refine List.eq_replicate_iff.mpr ⟨by simp, fun x hx => ?_⟩
      obtain ⟨i, _, rfl⟩ := List.mem_map.mp hx
      have : 256 ≤ 256 ^ (i + 1) := by
        rw [Nat.pow_succ]
        exact Nat.le_mul_of_pos_left _ (Nat.pow_pos (by omega))
      show UInt8.ofNat (a / 256 ^ (i + 1) % 256) = 0
      rw [Nat.div_eq_of_lt (by omega)]
      rfl
  rw [h a ha, h b hb, List.cons_append, List.cons_append, octetwise_cons, octetwise_same]
  congr 2
  · simp; omega
  · simp; omega

theorem reprWire_small (r : Repr) (d : Nat) (hd : d < 256) : reprWire r d = leBytes r.bytes d := by
  unfold reprWire leBytesInt
  congr 1
  have h1 : (256 : Nat) ≤ 2 ^ (8 * r.bytes) := by
    have : 1 ≤ r.bytes := by
      cases r with
      | int k => cases k <;> decide
      | _ => decide
    calc 256 = 2 ^ 8 := rfl
      _ ≤ _ := Nat.pow_le_pow_right (by omega) (by omega)
  have h2 : ((2 : Int) ^ (8 * r.bytes)) = ((2 ^ (8 * r.bytes) : Nat) : Int) := by norm_cast
  rw [h2, ← Int.natCast_emod, Int.toNat_natCast, Nat.mod_eq_of_lt (by omega)]

theorem reprBytes_pos (r : Repr) : 0 < r.bytes := by
  cases r with
  | int k => cases k <;> decide
  | _ => decide

/-- The octets of values are ordered as the values, whatever is behind them. -/
def SortsOn {α : Type} (w : α → List UInt8) (f : α → α → Ordering) : Prop :=
  ∀ a b r s, octetwise (w a ++ r) (w b ++ s) = (f a b).then (octetwise r s)

theorem SortsOn.items {α : Type} {w : α → List UInt8} {f : α → α → Ordering} (h : SortsOn w f) :
    ∀ (l m : List α), l.length = m.length → ∀ r s,
      octetwise (l.flatMap w ++ r) (m.flatMap w ++ s) = (itemwise f l m).then (octetwise r s)
  | [], [], _, _, _ => rfl
  | [], _ :: _, h, _, _ => nomatch h
  | _ :: _, [], h, _, _ => nomatch h
  | a :: l, b :: m, e, r, s => by
    rw [List.flatMap_cons, List.flatMap_cons, List.append_assoc, List.append_assoc, h,
      SortsOn.items h l m (by simpa using e) r s]
    exact (then_assoc' _ _ _).symm

/-- Lists of one item at most, with their lengths. -/
theorem SortsOn.short {α : Type} {w : α → List UInt8} {f : α → α → Ordering} (h : SortsOn w f) :
    ∀ (l m : List α), l.length ≤ 1 → m.length ≤ 1 → ∀ r s,
      octetwise (leBytes 2 l.length ++ l.flatMap w ++ r) (leBytes 2 m.length ++ m.flatMap w ++ s) =
        (itemwise f l m).then (octetwise r s)
  | [], [], _, _, _, _ => octetwise_same _ _ _
  | [], [a], _, _, r, s => by
    rw [List.append_assoc, List.append_assoc]
    show octetwise (leBytes 2 0 ++ _) (leBytes 2 1 ++ _) = _
    rw [octetwise_small 2 (by omega) 0 1 (by omega) (by omega)]
    have : compare (0 : Nat) 1 = .lt := by decide
    rw [this]
    rfl
  | [a], [], _, _, r, s => by
    rw [List.append_assoc, List.append_assoc]
    show octetwise (leBytes 2 1 ++ _) (leBytes 2 0 ++ _) = _
    rw [octetwise_small 2 (by omega) 1 0 (by omega) (by omega)]
    have : compare (1 : Nat) 0 = .gt := by decide
    rw [this]
    rfl
  | [a], [b], _, _, r, s => by
    rw [List.append_assoc, List.append_assoc]
    show octetwise (leBytes 2 1 ++ _) (leBytes 2 1 ++ _) = _
    rw [octetwise_same]
    exact SortsOn.items h [a] [b] rfl r s
  | _ :: _ :: _, _, h, _, _, _ => absurd h (by simp)
  | _, _ :: _ :: _, _, h, _, _ => absurd h (by simp)

/-- The number of the variant is one of those that there are. -/
theorem variantOf_lt : (vs : Variants) → (j : Nat) → (v : vs.Val) →
    j ≤ variantOf vs j v ∧ variantOf vs j v < j + variantCount vs
  | .nil, _, v => nomatch v
  | .cons _ _ vs, j, .inl v => ⟨Nat.le_refl _, by show j < j + (variantCount vs + 1); omega⟩
  | .cons _ _ vs, j, .inr v => by
    have := variantOf_lt vs (j + 1) v
    show j ≤ variantOf vs (j + 1) v ∧ variantOf vs (j + 1) v < j + (variantCount vs + 1)
    omega

/-- The octets of an enumeration begin with those of the discriminant. -/
theorem wireVariants_eq (r : Repr) (ex : List (Option Nat)) : (vs : Variants) → (j : Nat) → (v : vs.Val) →
    ∃ w, wireVariants r ex vs j v = reprWire r (discOf ex (variantOf vs j v)) ++ w
  | .nil, _, v => nomatch v
  | .cons _ _ vs, j, .inl v => ⟨_, rfl⟩
  | .cons _ _ vs, j, .inr v => wireVariants_eq r ex vs (j + 1) v

theorem octetwise_discs (r : Repr) {d e : Nat} (hd : d < 256) (he : e < 256) (x y : List UInt8) :
    octetwise (reprWire r d ++ x) (reprWire r e ++ y) = (compare d e).then (octetwise x y) := by
  rw [reprWire_small r d hd, reprWire_small r e he, octetwise_small _ (reprBytes_pos r) d e hd he]

theorem then_of_ne {d e : Nat} (h : d ≠ e) (o : Ordering) : (compare d e).then o = compare d e := by
  cases hc : compare d e with
  | eq => exact absurd (Nat.compare_eq_eq.mp hc) h
  | lt => rfl
  | gt => rfl

theorem nodup_map_range {f : Nat → Nat} {n i j : Nat} (h : ((List.range n).map f).Nodup) (hi : i < n) (hj : j < n)
    (e : f i = f j) : i = j := by
  refine Nat.le_antisymm (Nat.not_lt.mp fun hlt => ?_) (Nat.not_lt.mp fun hlt => ?_)
  · have := List.pairwise_iff_getElem.mp h j i (by simpa using hj) (by simpa using hi) hlt
    exact this (by simpa using e.symm)
  · have := List.pairwise_iff_getElem.mp h i j (by simpa using hi) (by simpa using hj) hlt
    exact this (by simpa using e)

theorem compare_cast (a b : Nat) : compare a b = compare (a : Int) (b : Int) := by
  rcases Nat.lt_trichotomy a b with h | h | h
  · rw [Nat.compare_eq_lt.mpr h]
    symm
    show compareOfLessAndEq (a : Int) b = _
    unfold compareOfLessAndEq
    rw [if_pos (by omega)]
  · subst h
    rw [Nat.compare_eq_eq.mpr rfl]
    symm
    show compareOfLessAndEq (a : Int) a = _
    unfold compareOfLessAndEq
    rw [if_neg (by omega), if_pos rfl]
  · rw [Nat.compare_eq_gt.mpr h]
    symm
    show compareOfLessAndEq (a : Int) b = _
    unfold compareOfLessAndEq
    rw [if_neg (by omega), if_neg (by omega)]

theorem sortsOn_num (k : NumKind) (h : Sortable (.num k)) : SortsOn (wire (.num k)) (valueOrder (.num k)) := by
  cases k with
  | int k =>
    cases k with
    | u8 => exact fun a b r s =>
        octetwise_small 1 (by omega) _ _ (BitVec.isLt (w := 8) a) (BitVec.isLt (w := 8) b) r s
    | _ => exact h.elim
  | f32 => exact h.elim
  | f64 => exact h.elim

theorem sortsOn_nonZero_u8 : SortsOn (wire (.nonZero (.int .u8))) (valueOrder (.nonZero (.int .u8))) :=
  fun a b r s => by
    obtain ⟨a, ⟨ha1, ha2⟩, ha3⟩ := a
    obtain ⟨b, ⟨hb1, hb2⟩, hb3⟩ := b
    obtain ⟨a, rfl⟩ := Int.eq_ofNat_of_zero_le ha1
    obtain ⟨b, rfl⟩ := Int.eq_ofNat_of_zero_le hb1
    have ha : a < 256 := by
      have : (a : Int) < 256 := ha2
      omega
    have hb : b < 256 := by
      have : (b : Int) < 256 := hb2
      omega
    show octetwise (reprWire (.int .u8) (a : Int) ++ r) (reprWire (.int .u8) (b : Int) ++ s) = _
    rw [octetwise_discs _ ha hb]
    congr 1
    show compare a b = compare (a : Int) (b : Int)
    exact compare_cast a b

theorem sortsOn_nonZero (k : Repr) (h : Sortable (.nonZero k)) :
    SortsOn (wire (.nonZero k)) (valueOrder (.nonZero k)) := by
  cases k with
  | int k =>
    cases k with
    | u8 => exact sortsOn_nonZero_u8
    | _ => exact h.elim
  | usize => exact h.elim
  | isize => exact h.elim

theorem sortsOn_unit (k : UnitKind) (h : Sortable (.unit k)) : SortsOn (wire (.unit k)) (valueOrder (.unit k)) :=
  fun a b r s => rfl

mutual

theorem sortsOn : (t : Ty) → t.WF → Sortable t → SortsOn (wire t) (valueOrder t)
  | .num k, _, h => sortsOn_num k h
  | .bool, _, _ => fun a b r s => match a, b with
    | false, false => rfl
    | false, true => rfl
    | true, false => rfl
    | true, true => rfl
  | .nonZero r, _, h => sortsOn_nonZero r h
  | .unit k, _, h => sortsOn_unit k h
  | .char, _, h => (h : False).elim
  | .usize, _, h => (h : False).elim
  | .isize, _, h => (h : False).elim
  | .seq _ _, _, h => (h : False).elim
  | .hashMap _ _, _, h => (h : False).elim
  | .hashSet _, _, h => (h : False).elim
  | .bound _, _, h => (h : False).elim
  | .range _, _, h => (h : False).elim
  | .rangeInclusive _, _, h => (h : False).elim
  | .lock _ _, _, h => (h : False).elim
  | .duration, _, h => (h : False).elim
  | .systemTime _, _, h => (h : False).elim
  | .ipv4, _, h => (h : False).elim
  | .ipv6, _, h => (h : False).elim
  | .ipAddr, _, h => (h : False).elim
  | .socketAddrV4, _, h => (h : False).elim
  | .socketAddrV6, _, h => (h : False).elim
  | .socketAddr, _, h => (h : False).elim
  | .str _, _, h => (h : False).elim
  | .cStr _, _, h => (h : False).elim
  | .infallible, _, _ => fun a => nomatch a
  | .wrap _ t, hw, hs => sortsOn t hw hs.2
  | .array t _, hw, hs => fun a b r s =>
    SortsOn.items (sortsOn t hw hs) a.val b.val (a.property.trans b.property.symm) r s
  | .option t, hw, hs => fun a b r s => match a, b with
    | none, none => rfl
    | none, some _ => rfl
    | some _, none => rfl
    | some a, some b => sortsOn t hw hs a b r s
  | .result t e, hw, hs => fun a b r s => match a, b with
    | .ok a, .ok b => sortsOn t hw.1 hs.1 a b r s
    | .ok _, .err _ => rfl
    | .err _, .ok _ => rfl
    | .err a, .err b => sortsOn e hw.2 hs.2 a b r s
  | .refCell t, hw, hs => fun a b r s => sortsOn t hw hs a.val b.val r s
  | .sizedStr n, _, hs => fun a b r s => by
    have h : SortsOn (fun x : UInt8 => [x]) (fun x y => compare x.toNat y.toNat) := fun _ _ _ _ => rfl
    have := h.short a.val b.val (Nat.le_trans a.property.2 hs) (Nat.le_trans b.property.2 hs) r s
    have e : ∀ l : List UInt8, l.flatMap (fun x => [x]) = l := fun l => by simp
    rw [e, e] at this
    exact this
  | .sizedSlice t n, hw, hs => fun a b r s =>
    (sortsOn t hw hs.2).short a.val b.val (Nat.le_trans a.property hs.1) (Nat.le_trans b.property hs.1) r s
  | .tuple fs, hw, hs => sortsOnFields fs hw hs
  | .struct fs, hw, hs => sortsOnFields fs hw hs
  | .enum r vs, hw, hs => by
    have hd := discs_eq_discOf vs
    refine sortsOnVariants r (explicitDiscs vs) (variantCount vs) vs 0 hw.2.2 hs.2 (by omega) hs.1 ?_
    intro i j hi hj h
    have hn := hw.1
    rw [hd] at hn
    exact nodup_map_range hn hi hj h

theorem sortsOnFields : (fs : Fields) → fs.WF → SortableFields fs → SortsOn (wireFields fs) (fieldOrder fs)
  | .nil, _, _ => fun a b r s => rfl
  | .cons t fs, hw, hs => fun a b r s => by
    show octetwise (wire t a.1 ++ wireFields fs a.2 ++ r) (wire t b.1 ++ wireFields fs b.2 ++ s) =
      ((valueOrder t a.1 b.1).then (fieldOrder fs a.2 b.2)).then _
    rw [List.append_assoc, List.append_assoc, sortsOn t hw.1 hs.1, sortsOnFields fs hw.2 hs.2, then_assoc']

theorem sortsOnVariants (r : Repr) (ex : List (Option Nat)) (n : Nat) : (vs : Variants) → (j : Nat) → vs.WF →
    SortableVariants vs → j + variantCount vs ≤ n → (∀ i < n, discOf ex i < 256) →
    (∀ i k, i < n → k < n → discOf ex i = discOf ex k → i = k) →
    SortsOn (wireVariants r ex vs j) (variantOrder ex vs j)
  | .nil, _, _, _, _, _, _ => fun a => nomatch a
  | .cons _ fs vs, j, hw, hs, hn, hd, hi => fun a b x y => by
    have hn : j + (variantCount vs + 1) ≤ n := hn
    match a, b with
    | .inl a, .inl b =>
      show octetwise (reprWire r (discOf ex j) ++ wireFields fs a ++ x) (reprWire r (discOf ex j) ++ wireFields fs b ++ y) =
        (fieldOrder fs a b).then _
      rw [List.append_assoc, List.append_assoc, octetwise_same, sortsOnFields fs hw.1 hs.1]
    | .inl a, .inr b =>
      obtain ⟨w, e⟩ := wireVariants_eq r ex vs (j + 1) b
      have hv := variantOf_lt vs (j + 1) b
      show octetwise (reprWire r (discOf ex j) ++ wireFields fs a ++ x) (wireVariants r ex vs (j + 1) b ++ y) =
        (compare (discOf ex j) (discOf ex (variantOf vs (j + 1) b))).then _
      have hne : discOf ex j ≠ discOf ex (variantOf vs (j + 1) b) := fun h => by
        have := hi _ _ (by omega) (by omega) h
        omega
      rw [e, List.append_assoc, List.append_assoc, octetwise_discs r (hd _ (by omega)) (hd _ (by omega)),
        then_of_ne hne, then_of_ne hne]
    | .inr a, .inl b =>
      obtain ⟨w, e⟩ := wireVariants_eq r ex vs (j + 1) a
      have hv := variantOf_lt vs (j + 1) a
      show octetwise (wireVariants r ex vs (j + 1) a ++ x) (reprWire r (discOf ex j) ++ wireFields fs b ++ y) =
        (compare (discOf ex (variantOf vs (j + 1) a)) (discOf ex j)).then _
      have hne : discOf ex (variantOf vs (j + 1) a) ≠ discOf ex j := fun h => by
        have := hi _ _ (by omega) (by omega) h
        omega
      rw [e, List.append_assoc, List.append_assoc, octetwise_discs r (hd _ (by omega)) (hd _ (by omega)),
        then_of_ne hne, then_of_ne hne]
    | .inr a, .inr b => exact sortsOnVariants r ex n vs (j + 1) hw.2 hs.2 (by omega) hd hi a b x y

end

theorem itemwise_refl {α : Type} {f : α → α → Ordering} : ∀ l : List α, (∀ x ∈ l, f x x = .eq) → itemwise f l l = .eq
  | [], _ => rfl
  | a :: l, h => by
    show (f a a).then (itemwise f l l) = .eq
    rw [h a List.mem_cons_self, itemwise_refl l fun x hx => h x (List.mem_cons_of_mem _ hx)]
    rfl

theorem octetwise_refl (l : List UInt8) : octetwise l l = .eq :=
  itemwise_refl l fun _ _ => Nat.compare_eq_eq.mpr rfl

theorem octetwise_eq : ∀ (l m : List UInt8), octetwise l m = .eq → l = m
  | [], [], _ => rfl
  | [], _ :: _, h => nomatch h
  | _ :: _, [], h => nomatch h
  | a :: l, b :: m, h => by
    rw [octetwise_cons] at h
    cases hc : compare a.toNat b.toNat with
    | eq =>
      rw [hc] at h
      rw [octetwise_eq l m h, UInt8.toNat.inj (Nat.compare_eq_eq.mp hc)]
    | lt => rw [hc] at h; exact nomatch h
    | gt => rw [hc] at h; exact nomatch h

theorem compareInt_refl (a : Int) : compare a a = .eq := by
  show compareOfLessAndEq a a = _
  unfold compareOfLessAndEq
  rw [if_neg (by omega), if_pos rfl]

theorem compareNat_refl (a : Nat) : compare a a = .eq := Nat.compare_eq_eq.mpr rfl

theorem valueOrder_num_refl (k : NumKind) (a : (Ty.num k).Val) : valueOrder (.num k) a a = .eq := by
  cases k with
  | int k =>
    show (if k.signed = true then _ else _) = _
    split
    · exact compareInt_refl _
    · exact compareNat_refl _
  | f32 => rfl
  | f64 => rfl

mutual

theorem valueOrder_refl : (t : Ty) → (a : t.Val) → valueOrder t a a = .eq
  | .num k, a => valueOrder_num_refl k a
  | .bool, a => compareNat_refl _
  | .char, a => compareNat_refl _
  | .usize, a => compareNat_refl _
  | .isize, a => compareInt_refl _
  | .nonZero _, a => compareInt_refl _
  | .unit _, _ => rfl
  | .infallible, a => nomatch a
  | .wrap _ t, a => valueOrder_refl t a
  | .array t _, a => itemwise_refl _ fun x _ => valueOrder_refl t x
  | .seq _ t, a => itemwise_refl _ fun x _ => valueOrder_refl t x
  | .hashMap _ _, _ => rfl
  | .hashSet _, _ => rfl
  | .option t, a => match a with
    | none => rfl
    | some a => valueOrder_refl t a
  | .result t e, a => match a with
    | .ok a => valueOrder_refl t a
    | .err a => valueOrder_refl e a
  | .bound _, _ => rfl
  | .range _, _ => rfl
  | .rangeInclusive _, _ => rfl
  | .lock _ _, _ => rfl
  | .refCell t, a => valueOrder_refl t a.val
  | .duration, a => by
    show (compare a.secs.toNat a.secs.toNat).then (compare a.nanos a.nanos) = _
    rw [compareNat_refl, compareNat_refl]
    rfl
  | .systemTime _, a => compareInt_refl _
  | .ipv4, a => octetwise_refl _
  | .ipv6, a => octetwise_refl _
  | .ipAddr, a => match a with
    | .v4 a => octetwise_refl _
    | .v6 a => octetwise_refl _
  | .socketAddrV4, a => by
    show (octetwise a.ip.val a.ip.val).then (compare a.port.toNat a.port.toNat) = _
    rw [compareNat_refl, octetwise_refl]
    rfl
  | .socketAddrV6, a => by
    show (octetwise a.ip.val a.ip.val).then ((compare a.port.toNat a.port.toNat).then
      ((compare a.flowinfo.toNat a.flowinfo.toNat).then (compare a.scopeId.toNat a.scopeId.toNat))) = _
    rw [compareNat_refl, compareNat_refl, compareNat_refl, octetwise_refl]
    rfl
  | .socketAddr, a => match a with
    | .v4 a => by
      show (octetwise a.ip.val a.ip.val).then (compare a.port.toNat a.port.toNat) = _
      rw [compareNat_refl, octetwise_refl]
      rfl
    | .v6 a => by
      show (octetwise a.ip.val a.ip.val).then ((compare a.port.toNat a.port.toNat).then
        ((compare a.flowinfo.toNat a.flowinfo.toNat).then (compare a.scopeId.toNat a.scopeId.toNat))) = _
      rw [compareNat_refl, compareNat_refl, compareNat_refl, octetwise_refl]
      rfl
  | .str _, a => octetwise_refl _
  | .cStr _, a => octetwise_refl _
  | .sizedStr _, a => octetwise_refl _
  | .sizedSlice t _, a => itemwise_refl _ fun x _ => valueOrder_refl t x
  | .tuple fs, a => fieldOrder_refl fs a
  | .struct fs, a => fieldOrder_refl fs a
  | .enum _ vs, a => variantOrder_refl (explicitDiscs vs) vs 0 a

theorem fieldOrder_refl : (fs : Fields) → (a : fs.Val) → fieldOrder fs a a = .eq
  | .nil, _ => rfl
  | .cons t fs, a => by
    show (valueOrder t a.1 a.1).then (fieldOrder fs a.2 a.2) = .eq
    rw [valueOrder_refl t a.1, fieldOrder_refl fs a.2]
    rfl

theorem variantOrder_refl (ex : List (Option Nat)) : (vs : Variants) → (j : Nat) → (a : vs.Val) →
    variantOrder ex vs j a a = .eq
  | .nil, _, a => nomatch a
  | .cons _ fs vs, j, a => match a with
    | .inl a => fieldOrder_refl fs a
    | .inr a => variantOrder_refl ex vs (j + 1) a

end

/-- A list is before those that begin with it. -/
theorem itemwise_longer {α : Type} {f : α → α → Ordering} : ∀ (l : List α) (a : α) (m : List α), (∀ x ∈ l, f x x = .eq) →
    itemwise f l (l ++ a :: m) = .lt
  | [], _, _, _ => rfl
  | b :: l, a, m, h => by
    show (f b b).then (itemwise f l (l ++ a :: m)) = .lt
    rw [h b List.mem_cons_self, itemwise_longer l a m fun x hx => h x (List.mem_cons_of_mem _ hx)]
    rfl

theorem cmpSlice_itemwise {α : Type} (f : α → α → Ordering) : ∀ l m : List α,
    SizedSlice.cmpSlice (fun x y => some (f x y)) l m = some (itemwise f l m)
  | [], [] => rfl
  | [], _ :: _ => rfl
  | _ :: _, [] => rfl
  | a :: l, b :: m => by
    have ih := cmpSlice_itemwise f l m
    unfold SizedSlice.cmpSlice
    show _ = some ((f a b).then (itemwise f l m))
    cases h : f a b with
    | eq => simp only; exact ih
    | lt => rfl
    | gt => rfl

end Oct
