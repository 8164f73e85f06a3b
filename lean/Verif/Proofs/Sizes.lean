import Verif.Proofs.MaxSize
/- Bounds and fixed sizes, from the format alone. -/
namespace Oct
open Spec
set_option linter.unusedVariables false

mutual

theorem wire_length_le_bound : (t : Ty) → t.HasSized → (v : t.Val) →
    (wire t v).length ≤ sizeBound t
  | .num k, _, v => by simp [wire, sizeBound, leBytes_length]
  | .bool, _, v => by simp [wire, sizeBound]
  | .char, _, v => by simp [wire, sizeBound, leBytes_length]
  | .usize, _, v => Nat.le_of_eq (leBytes_length 2 v)
  | .isize, _, v => Nat.le_of_eq (leBytesInt_length 2 v)
  | .nonZero r, _, v => by simp [wire, sizeBound, reprWire_length]
  | .unit _, _, v => by simp [wire]
  | .infallible, _, v => nomatch v
  | .wrap _ t, h, v => wire_length_le_bound t h v
  | .array t n, h, v => by
    have := flatMap_length_le v.val (fun x _ => wire_length_le_bound t h x)
    rw [v.property] at this
    exact this
  | .seq _ _, h, _ => nomatch h
  | .hashMap _ _, h, _ => nomatch h
  | .hashSet _, h, _ => nomatch h
  | .option t, h, none => by simp [wire, sizeBound]
  | .option t, h, some v => by
    have := wire_length_le_bound t h v
    simp only [wire, sizeBound, List.length_cons]; omega
  | .result t e, h, .ok v => by
    have := wire_length_le_bound t h.1 v
    simp only [wire, sizeBound, List.length_cons]; omega
  | .result t e, h, .err v => by
    have := wire_length_le_bound e h.2 v
    simp only [wire, sizeBound, List.length_cons]; omega
  | .bound t, h, .included v => by
    have := wire_length_le_bound t h v
    simp only [wire, sizeBound, List.length_cons]; omega
  | .bound t, h, .excluded v => by
    have := wire_length_le_bound t h v
    simp only [wire, sizeBound, List.length_cons]; omega
  | .bound t, h, .unbounded => by simp [wire, sizeBound]
  | .range t, h, v => by
    have := wire_length_le_bound t h v.start
    have := wire_length_le_bound t h v.stop
    simp only [wire, sizeBound, List.length_append]; omega
  | .rangeInclusive t, h, v => by
    have := wire_length_le_bound t h v.start
    have := wire_length_le_bound t h v.stop
    simp only [wire, sizeBound, List.length_append]; omega
  | .lock _ t, h, v => wire_length_le_bound t h v.val
  | .refCell t, h, v => wire_length_le_bound t h v.val
  | .duration, _, v => by simp [wire, sizeBound, leBytes_length]
  | .systemTime p, _, v => by simp [wire, sizeBound, leBytesInt_length]
  | .ipv4, _, v => by simp [wire, sizeBound, v.property]
  | .ipv6, _, v => by simp [wire, sizeBound, v.property]
  | .ipAddr, _, .v4 a => by simp [wire, sizeBound, a.property]
  | .ipAddr, _, .v6 a => by simp [wire, sizeBound, a.property]
  | .socketAddrV4, _, v => by simp [wire, sizeBound, leBytes_length, v.ip.property]
  | .socketAddrV6, _, v => by simp [wire, sizeBound, leBytes_length, v.ip.property]
  | .socketAddr, _, .v4 a => by simp [wire, sizeBound, leBytes_length, a.ip.property]
  | .socketAddr, _, .v6 a => by simp [wire, sizeBound, leBytes_length, a.ip.property]
  | .str _, h, _ => nomatch h
  | .cStr _, h, _ => nomatch h
  | .sizedStr n, _, v => by
    have := v.property.2
    simp only [wire, sizeBound, List.length_append, leBytes_length]; omega
  | .sizedSlice t n, h, v => by
    have := flatMap_length_le v.val (fun x _ => wire_length_le_bound t h x)
    have := Nat.mul_le_mul_left (sizeBound t) v.property
    simp only [wire, sizeBound, List.length_append, leBytes_length]; omega
  | .tuple fs, h, v => wireFields_length_le_bound fs h v
  | .struct fs, h, v => wireFields_length_le_bound fs h v
  | .enum r vs, h, v => wireVariants_length_le_bound vs h r _ 0 v

theorem wireFields_length_le_bound : (fs : Fields) → fs.HasSized → (v : fs.Val) →
    (wireFields fs v).length ≤ sizeBoundFields fs
  | .nil, _, _ => by simp [wireFields]
  | .cons t fs, h, v => by
    have := wire_length_le_bound t h.1 v.1
    have := wireFields_length_le_bound fs h.2 v.2
    simp only [wireFields, sizeBoundFields, List.length_append]; omega

theorem wireVariants_length_le_bound : (vs : Variants) → vs.HasSized → (r : Repr) →
    (ex : List (Option Nat)) → (j : Nat) →
    (v : vs.Val) → (wireVariants r ex vs j v).length ≤ sizeBoundVariants r vs
  | .nil, _, _, _, _, v => nomatch v
  | .cons d fs vs, h, r, ex, j, .inl v => by
    have := wireFields_length_le_bound fs h.1 v
    show (reprWire r (discOf ex j) ++ wireFields fs v).length ≤ max _ _
    rw [List.length_append, reprWire_length]; omega
  | .cons d fs vs, h, r, ex, j, .inr v => by
    have := wireVariants_length_le_bound vs h.2 r ex (j + 1) v
    show (wireVariants r ex vs (j + 1) v).length ≤ max _ _
    omega

end

/-- Neither a `Result` nor a sized slice. -/
def NoBadMax : Ty → Prop
  | .result _ _ => False
  | .sizedSlice _ _ => False
  | _ => True

variable (sizeOf : Ty → Nat)

mutual

theorem maxSize_eq_bound : (t : Ty) → Everywhere NoBadMax t → t.maxSize sizeOf = sizeBound t
  | .num k, _ => rfl
  | .bool, _ => rfl
  | .char, _ => rfl
  | .usize, _ => rfl
  | .isize, _ => rfl
  | .nonZero r, _ => rfl
  | .unit _, _ => rfl
  | .infallible, _ => rfl
  | .wrap _ t, h => maxSize_eq_bound t h.2
  | .array t n, h => by simp only [Ty.maxSize, sizeBound, maxSize_eq_bound t h.2]
  | .seq _ _, _ => rfl
  | .hashMap _ _, _ => rfl
  | .hashSet _, _ => rfl
  | .option t, h => by simp only [Ty.maxSize, sizeBound, maxSize_eq_bound t h.2]
  | .result t e, h => nomatch h.1
  | .bound t, h => by simp only [Ty.maxSize, sizeBound, maxSize_eq_bound t h.2]
  | .range t, h => by simp only [Ty.maxSize, sizeBound, maxSize_eq_bound t h.2]
  | .rangeInclusive t, h => by simp only [Ty.maxSize, sizeBound, maxSize_eq_bound t h.2]
  | .lock _ t, h => maxSize_eq_bound t h.2
  | .refCell t, h => maxSize_eq_bound t h.2
  | .duration, _ => rfl
  | .systemTime p, _ => rfl
  | .ipv4, _ => rfl
  | .ipv6, _ => rfl
  | .ipAddr, _ => rfl
  | .socketAddrV4, _ => rfl
  | .socketAddrV6, _ => rfl
  | .socketAddr, _ => rfl
  | .str _, _ => rfl
  | .cStr _, _ => rfl
  | .sizedStr n, _ => by simp only [Ty.maxSize, sizeBound, Nat.one_mul]
  | .sizedSlice t n, h => nomatch h.1
  | .tuple fs, h => fieldsMaxSize_eq_bound fs h.2
  | .struct fs, h => fieldsMaxSize_eq_bound fs h.2
  | .enum r vs, h => variantsMaxSize_eq_bound vs h.2 r

theorem fieldsMaxSize_eq_bound : (fs : Fields) → EverywhereFields NoBadMax fs →
    fs.maxSize sizeOf = sizeBoundFields fs
  | .nil, _ => rfl
  | .cons t fs, h => by
    simp only [Fields.maxSize, sizeBoundFields, maxSize_eq_bound t h.1, fieldsMaxSize_eq_bound fs h.2]

theorem variantsMaxSize_eq_bound : (vs : Variants) → EverywhereVariants NoBadMax vs → (r : Repr) →
    vs.maxSize sizeOf r = sizeBoundVariants r vs
  | .nil, _, _ => rfl
  | .cons d fs vs, h, r => by
    simp only [Variants.maxSize, sizeBoundVariants, fieldsMaxSize_eq_bound fs h.1,
      variantsMaxSize_eq_bound vs h.2 r, Nat.add_comm]

end

theorem flatMap_length_eq {α : Type} {w : α → List Byte} {k : Nat} (l : List α)
    (h : ∀ x ∈ l, (w x).length = k) : (l.flatMap w).length = l.length * k := by
  induction l with
  | nil => simp
  | cons a l ih =>
    rw [List.flatMap_cons, List.length_append, h a (by simp), ih (fun x hx => h x (by simp [hx])),
      List.length_cons, Nat.add_mul]
    omega

mutual

/-- Types of fixed size have encodings of that length, declare it as their maximum, and none of them
is a `Result` or sized slice. -/
theorem fixedSize_spec : (t : Ty) → (n : Nat) → fixedSize t = some n →
    (∀ v : t.Val, (wire t v).length = n) ∧ t.maxSize sizeOf = n
  | .num k, n, h => by cases h; exact ⟨fun v => leBytes_length _ _, rfl⟩
  | .bool, n, h => by cases h; exact ⟨fun v => rfl, rfl⟩
  | .char, n, h => by cases h; exact ⟨fun v => leBytes_length _ _, rfl⟩
  | .usize, n, h => by cases h; exact ⟨fun v => leBytes_length _ _, rfl⟩
  | .isize, n, h => by cases h; exact ⟨fun v => leBytesInt_length _ _, rfl⟩
  | .nonZero r, n, h => by cases h; exact ⟨fun v => reprWire_length _ _, rfl⟩
  | .unit _, n, h => by cases h; exact ⟨fun v => rfl, rfl⟩
  | .wrap _ t, n, h => fixedSize_spec t n h
  | .array t m, n, h => by
    have h' : (fixedSize t).map (m * ·) = some n := h
    generalize hf : fixedSize t = f at h'
    cases f with
    | none => cases h'
    | some k =>
      cases h'
      have := fixedSize_spec t k hf
      refine ⟨fun v => ?_, ?_⟩
      · have hl := flatMap_length_eq v.val (fun x _ => this.1 x)
        rw [v.property] at hl
        exact hl
      · show t.maxSize sizeOf * m = m * k
        rw [this.2, Nat.mul_comm]
  | .range t, n, h => by
    have h' : (fixedSize t).map (2 * ·) = some n := h
    generalize hf : fixedSize t = f at h'
    cases f with
    | none => cases h'
    | some k =>
      cases h'
      have := fixedSize_spec t k hf
      refine ⟨fun v => ?_, ?_⟩
      · show (wire t v.start ++ wire t v.stop).length = 2 * k
        rw [List.length_append, this.1, this.1]; omega
      · show t.maxSize sizeOf * 2 = 2 * k
        rw [this.2, Nat.mul_comm]
  | .rangeInclusive t, n, h => by
    have h' : (fixedSize t).map (2 * ·) = some n := h
    generalize hf : fixedSize t = f at h'
    cases f with
    | none => cases h'
    | some k =>
      cases h'
      have := fixedSize_spec t k hf
      refine ⟨fun v => ?_, ?_⟩
      · show (wire t v.start ++ wire t v.stop).length = 2 * k
        rw [List.length_append, this.1, this.1]; omega
      · show t.maxSize sizeOf * 2 = 2 * k
        rw [this.2, Nat.mul_comm]
  | .lock _ t, n, h => ⟨fun v => (fixedSize_spec t n h).1 v.val, (fixedSize_spec t n h).2⟩
  | .refCell t, n, h => ⟨fun v => (fixedSize_spec t n h).1 v.val, (fixedSize_spec t n h).2⟩
  | .duration, n, h => by cases h; exact ⟨fun v => by simp [wire, leBytes_length], rfl⟩
  | .systemTime _, n, h => by cases h; exact ⟨fun v => leBytesInt_length _ _, rfl⟩
  | .ipv4, n, h => by cases h; exact ⟨fun v => by simp [wire, v.property], rfl⟩
  | .ipv6, n, h => by cases h; exact ⟨fun v => by simp [wire, v.property], rfl⟩
  | .socketAddrV4, n, h => by
    cases h; exact ⟨fun v => by simp [wire, leBytes_length, v.ip.property], rfl⟩
  | .socketAddrV6, n, h => by
    cases h; exact ⟨fun v => by simp [wire, leBytes_length, v.ip.property], rfl⟩
  | .tuple fs, n, h => fixedSizeFields_spec fs n h
  | .struct fs, n, h => fixedSizeFields_spec fs n h
  | .infallible, _, h => nomatch h
  | .seq _ _, _, h => nomatch h
  | .hashMap _ _, _, h => nomatch h
  | .hashSet _, _, h => nomatch h
  | .option _, _, h => nomatch h
  | .result _ _, _, h => nomatch h
  | .bound _, _, h => nomatch h
  | .ipAddr, _, h => nomatch h
  | .socketAddr, _, h => nomatch h
  | .str _, _, h => nomatch h
  | .cStr _, _, h => nomatch h
  | .sizedStr _, _, h => nomatch h
  | .sizedSlice _ _, _, h => nomatch h
  | .enum _ _, _, h => nomatch h

theorem fixedSizeFields_spec : (fs : Fields) → (n : Nat) → fixedSizeFields fs = some n →
    (∀ v : fs.Val, (wireFields fs v).length = n) ∧ fs.maxSize sizeOf = n
  | .nil, n, h => by cases h; exact ⟨fun v => rfl, rfl⟩
  | .cons t fs, n, h => by
    unfold fixedSizeFields at h
    generalize hf : fixedSize t = f at h
    generalize hg : fixedSizeFields fs = g at h
    cases f with
    | none => cases h
    | some a =>
      cases g with
      | none => cases h
      | some b =>
        cases h
        have h1 := fixedSize_spec t a hf
        have h2 := fixedSizeFields_spec fs b hg
        refine ⟨fun v => ?_, ?_⟩
        · show (wire t v.1 ++ wireFields fs v.2).length = a + b
          rw [List.length_append, h1.1, h2.1]
        · show t.maxSize sizeOf + fs.maxSize sizeOf = a + b
          rw [h1.2, h2.2]

end

end Oct
