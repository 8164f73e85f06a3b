import Verif.Model.SizedEncode
import Verif.Spec.Sizes
import Verif.Proofs.Ends
/- `MAX_ENCODED_SIZE` against the length of encodings and the number of octets decoded. -/
namespace Oct
open Spec
set_option linter.unusedVariables false
set_option linter.unusedSectionVars false

theorem flatMap_length_le {α : Type} {w : α → List Byte} {k : Nat} (l : List α)
    (h : ∀ x ∈ l, (w x).length ≤ k) : (l.flatMap w).length ≤ k * l.length := by
  induction l with
  | nil => simp
  | cons a l ih =>
    have h1 := h a (by simp)
    have h2 := ih (fun x hx => h x (by simp [hx]))
    rw [List.flatMap_cons, List.length_append, List.length_cons, Nat.mul_succ]
    omega

theorem leBytesInt_length (n : Nat) (x : Int) : (leBytesInt n x).length = n := leBytes_length _ _

theorem reprWire_length (r : Repr) (x : Int) : (reprWire r x).length = r.bytes :=
  leBytesInt_length _ _

theorem resultMax (a b : Nat) : (if a > b then a else b) = max a b := by
  split <;> omega

variable (sizeOf : Ty → Nat)

mutual

theorem wire_length_le : (t : Ty) → t.HasSized → Everywhere (SizeOk sizeOf) t → (v : t.Val) →
    (wire t v).length ≤ t.maxSize sizeOf
  | .num k, _, _, v => by simp [wire, Ty.maxSize, leBytes_length]
  | .bool, _, _, v => by simp [wire, Ty.maxSize]
  | .char, _, _, v => by simp [wire, Ty.maxSize, leBytes_length]
  | .usize, _, _, v => Nat.le_of_eq (leBytes_length 2 v)
  | .isize, _, _, v => Nat.le_of_eq (leBytesInt_length 2 v)
  | .nonZero r, _, _, v => by simp [wire, Ty.maxSize, reprWire_length]
  | .unit _, _, _, v => by simp [wire]
  | .infallible, _, _, v => nomatch v
  | .wrap _ t, h, hs, v => wire_length_le t h hs.2 v
  | .array t n, h, hs, v => by
    have := flatMap_length_le v.val (fun x _ => wire_length_le t h hs.2 x)
    rw [v.property] at this
    exact this
  | .seq _ _, h, _, _ => nomatch h
  | .hashMap _ _, h, _, _ => nomatch h
  | .hashSet _, h, _, _ => nomatch h
  | .option t, h, hs, none => by simp [wire, Ty.maxSize]
  | .option t, h, hs, some v => by
    have := wire_length_le t h hs.2 v
    simp only [wire, Ty.maxSize, List.length_cons]; omega
  | .result t e, h, hs, .ok v => by
    have := wire_length_le t h.1 hs.2.1 v
    have := hs.1.1
    simp only [wire, Ty.maxSize, List.length_cons, resultMax]; omega
  | .result t e, h, hs, .err v => by
    have := wire_length_le e h.2 hs.2.2 v
    have := hs.1.2
    simp only [wire, Ty.maxSize, List.length_cons, resultMax]; omega
  | .bound t, h, hs, .included v => by
    have := wire_length_le t h hs.2 v
    simp only [wire, Ty.maxSize, List.length_cons]; omega
  | .bound t, h, hs, .excluded v => by
    have := wire_length_le t h hs.2 v
    simp only [wire, Ty.maxSize, List.length_cons]; omega
  | .bound t, h, hs, .unbounded => by simp [wire, Ty.maxSize]
  | .range t, h, hs, v => by
    have := wire_length_le t h hs.2 v.start
    have := wire_length_le t h hs.2 v.stop
    simp only [wire, Ty.maxSize, List.length_append]; omega
  | .rangeInclusive t, h, hs, v => by
    have := wire_length_le t h hs.2 v.start
    have := wire_length_le t h hs.2 v.stop
    simp only [wire, Ty.maxSize, List.length_append]; omega
  | .lock _ t, h, hs, v => wire_length_le t h hs.2 v.val
  | .refCell t, h, hs, v => wire_length_le t h hs.2 v.val
  | .duration, _, _, v => by simp [wire, Ty.maxSize, leBytes_length]
  | .systemTime p, _, _, v => by simp [wire, Ty.maxSize, leBytesInt_length]
  | .ipv4, _, _, v => by simp [wire, Ty.maxSize, v.property]
  | .ipv6, _, _, v => by simp [wire, Ty.maxSize, v.property]
  | .ipAddr, _, _, .v4 a => by simp [wire, Ty.maxSize, a.property]
  | .ipAddr, _, _, .v6 a => by simp [wire, Ty.maxSize, a.property]
  | .socketAddrV4, _, _, v => by simp [wire, Ty.maxSize, leBytes_length, v.ip.property]
  | .socketAddrV6, _, _, v => by simp [wire, Ty.maxSize, leBytes_length, v.ip.property]
  | .socketAddr, _, _, .v4 a => by simp [wire, Ty.maxSize, leBytes_length, a.ip.property]
  | .socketAddr, _, _, .v6 a => by simp [wire, Ty.maxSize, leBytes_length, a.ip.property]
  | .str _, h, _, _ => nomatch h
  | .cStr _, h, _, _ => nomatch h
  | .sizedStr n, _, _, v => by
    have := v.property.2
    simp only [wire, Ty.maxSize, List.length_append, leBytes_length]; omega
  | .sizedSlice _ _, _, hs, _ => nomatch hs.1
  | .tuple fs, h, hs, v => wireFields_length_le fs h hs.2 v
  | .struct fs, h, hs, v => wireFields_length_le fs h hs.2 v
  | .enum r vs, h, hs, v => wireVariants_length_le vs h hs.2 r _ 0 v

theorem wireFields_length_le : (fs : Fields) → fs.HasSized →
    EverywhereFields (SizeOk sizeOf) fs → (v : fs.Val) →
    (wireFields fs v).length ≤ fs.maxSize sizeOf
  | .nil, _, _, _ => by simp [wireFields]
  | .cons t fs, h, hs, v => by
    have := wire_length_le t h.1 hs.1 v.1
    have := wireFields_length_le fs h.2 hs.2 v.2
    simp only [wireFields, Fields.maxSize, List.length_append]; omega

theorem wireVariants_length_le : (vs : Variants) → vs.HasSized →
    EverywhereVariants (SizeOk sizeOf) vs → (r : Repr) → (ex : List (Option Nat)) → (j : Nat) →
    (v : vs.Val) → (wireVariants r ex vs j v).length ≤ vs.maxSize sizeOf r
  | .nil, _, _, _, _, _, v => nomatch v
  | .cons d fs vs, h, hs, r, ex, j, .inl v => by
    have := wireFields_length_le fs h.1 hs.1 v
    show (reprWire r (discOf ex j) ++ wireFields fs v).length ≤ max _ _
    rw [List.length_append, reprWire_length]; omega
  | .cons d fs vs, h, hs, r, ex, j, .inr v => by
    have := wireVariants_length_le vs h.2 hs.2 r ex (j + 1) v
    show (wireVariants r ex vs (j + 1) v).length ≤ max _ _
    omega

end

/-- From any input, `m` advances by at most `k` octets; if `all` is not set, this is said of
successful outcomes only. -/
def Consumes {α : Type} (all : Bool) (m : Dec α) (k : Nat) : Prop :=
  ∀ i : Input, (all = true ∨ ∃ a, (m i).1 = .ok a) → (m i).2.pos ≤ i.pos + k

namespace Consumes
variable {α β : Type} {all : Bool}

theorem const (r : Res DecErr α) (k : Nat) : Consumes all (fun i => (r, i)) k :=
  fun i _ => Nat.le_add_right i.pos k
theorem pure (a : α) (k : Nat) : Consumes all (Pure.pure a : Dec α) k := const _ k
theorem fail (e : DecErr) (k : Nat) : Consumes all (Dec.fail e : Dec α) k := const _ k
theorem panic (p : Panic) (k : Nat) : Consumes all (Dec.panic p : Dec α) k := const _ k
theorem ub (u : Ub) (k : Nat) : Consumes all (Dec.ub u : Dec α) k := const _ k

theorem mono {m : Dec α} {k k' : Nat} (h : Consumes all m k) (hk : k ≤ k') : Consumes all m k' :=
  fun i hi => Nat.le_trans (h i hi) (by omega)

theorem bind {m : Dec α} {f : α → Dec β} {k k' : Nat} (hm : Consumes all m k)
    (hf : ∀ a, Consumes all (f a) k') : Consumes all (m >>= f) (k + k') := by
  intro i hi
  have h := hm i
  change all = true ∨ ∃ a, (Dec.bind m f i).1 = .ok a at hi
  show (Dec.bind m f i).2.pos ≤ _
  unfold Dec.bind at hi ⊢
  generalize m i = x at h hi ⊢
  obtain ⟨r, i'⟩ := x
  cases r with
  | ok a =>
    have h1 := h (.inr ⟨a, rfl⟩)
    have h2 := hf a i' hi
    simp only at h1 ⊢
    omega
  | err e =>
    have := h (by simpa using hi)
    simp only at this ⊢; omega
  | panic e =>
    have := h (by simpa using hi)
    simp only at this ⊢; omega
  | ub e =>
    have := h (by simpa using hi)
    simp only at this ⊢; omega

/-- The last part of a decoder. -/
theorem bind_pure {m : Dec α} {f : α → β} {k : Nat} (hm : Consumes all m k) :
    Consumes all (m >>= fun a => Pure.pure (f a)) k := by
  have := hm.bind (f := fun a => (Pure.pure (f a) : Dec β)) (k' := 0) (fun a => pure _ 0)
  exact this

theorem mapErr {m : Dec α} {k : Nat} (g : DecErr → DecErr) (hm : Consumes all m k) :
    Consumes all (m.mapErr g) k := by
  intro i hi
  apply hm i
  rcases hi with hi | ⟨a, ha⟩
  · exact .inl hi
  · right
    refine ⟨a, ?_⟩
    unfold Dec.mapErr at ha
    generalize m i = x at ha ⊢
    obtain ⟨r, i'⟩ := x
    cases r <;> simp_all

theorem ite {c : Prop} [Decidable c] {m m' : Dec α} {k : Nat} (h : c → Consumes all m k)
    (h' : ¬ c → Consumes all m' k) : Consumes all (if c then m else m') k := by
  split
  · exact h ‹_›
  · exact h' ‹_›

theorem dite {c : Prop} [Decidable c] {m : c → Dec α} {m' : ¬ c → Dec α} {k : Nat}
    (h : ∀ x, Consumes all (m x) k) (h' : ∀ x, Consumes all (m' x) k) :
    Consumes all (if x : c then m x else m' x) k := by
  split
  · exact h _
  · exact h' _

theorem read (k : Nat) : Consumes all (Dec.read k) k := by
  intro i _
  unfold Dec.read Input.read
  by_cases h : i.buf.length - i.pos < k
  · simp only [h, if_true]; omega
  · simp only [h, if_false]; omega

theorem readInto (k : Nat) : Consumes all (Dec.readInto k) k := by
  rw [readInto_eq_read]; exact read k

end Consumes

section
variable {all : Bool}
open Consumes

theorem decNum_consumes (n : Nat) : Consumes all (decNum n) n := bind_pure (readInto n)
theorem decU8_consumes : Consumes all decU8 1 := decNum_consumes 1
theorem decUsize_consumes : Consumes all decUsize 2 := decNum_consumes 2
theorem decIsize_consumes : Consumes all decIsize 2 := bind_pure (decNum_consumes 2)

theorem decRepr_consumes (r : Repr) : Consumes all (decRepr r) r.bytes := by
  cases r with
  | int k => exact bind_pure (decNum_consumes k.bytes)
  | usize => exact bind_pure decUsize_consumes
  | isize => exact decIsize_consumes

theorem decBool_consumes : Consumes all decBool 1 := bind_pure decU8_consumes

theorem decChar_consumes : Consumes all decChar 4 :=
  bind (k' := 0) (decNum_consumes 4) fun _ => Consumes.ite
    (fun _ => Consumes.dite (fun _ => Consumes.pure _ _) (fun _ => Consumes.ub _ _))
    (fun _ => Consumes.fail _ _)

theorem decNonZero_consumes (r : Repr) : Consumes all (decNonZero r) r.bytes :=
  bind (k' := 0) (decRepr_consumes r) fun _ => Consumes.ite (fun _ => Consumes.fail _ _)
    (fun _ => Consumes.dite (fun _ => Consumes.pure _ _) (fun _ => Consumes.panic _ _))

theorem decItems_consumes {α : Type} {dec : Dec α} {k : Nat} (h : Consumes all dec k) (n i : Nat) :
    Consumes all (decItems dec n i) (k * n) := by
  induction n generalizing i with
  | zero => exact Consumes.pure _ _
  | succ n ih =>
    refine (bind (h.mapErr _) fun v => bind_pure (ih (i + 1))).mono ?_
    rw [Nat.mul_succ]; omega

theorem decDuration_consumes : Consumes all decDuration (8 + 4) :=
  bind (decNum_consumes 8) fun _ => bind (k' := 0) (decNum_consumes 4) fun _ => by
    split
    · exact Consumes.pure _ _
    · exact Consumes.panic _ _

theorem decSystemTime_consumes (p : TimePlatform) : Consumes all (decSystemTime p) 8 :=
  bind (k' := 0) (decNum_consumes 8) fun _ =>
    Consumes.dite (fun _ => Consumes.dite (fun _ => Consumes.pure _ _) (fun _ => Consumes.fail _ _))
      (fun _ => Consumes.dite (fun _ => Consumes.pure _ _) (fun _ => Consumes.fail _ _))

theorem decIpv4_consumes : Consumes all decIpv4 4 := bind_pure (decNum_consumes 4)
theorem decIpv6_consumes : Consumes all decIpv6 16 := bind_pure (decNum_consumes 16)

theorem decIpAddr_consumes : Consumes all decIpAddr (1 + 16) :=
  bind decU8_consumes fun _ =>
    Consumes.ite (fun _ => (bind_pure decIpv4_consumes).mono (by omega))
      (fun _ => Consumes.ite (fun _ => bind_pure decIpv6_consumes) (fun _ => Consumes.fail _ _))

theorem decSocketAddrV4_consumes : Consumes all decSocketAddrV4 (4 + 2) :=
  bind decIpv4_consumes fun _ => bind_pure (decNum_consumes 2)

theorem decSocketAddrV6_consumes : Consumes all decSocketAddrV6 (16 + 2 + 4 + 4) :=
  (bind decIpv6_consumes fun _ => bind (decNum_consumes 2) fun _ =>
    bind (decNum_consumes 4) fun _ => bind_pure (decNum_consumes 4)).mono (by omega)

theorem decSocketAddr_consumes : Consumes all decSocketAddr (1 + (16 + 2 + 4 + 4)) :=
  bind decU8_consumes fun _ =>
    Consumes.ite (fun _ => (bind_pure decSocketAddrV4_consumes).mono (by omega))
      (fun _ => Consumes.ite (fun _ => bind_pure decSocketAddrV6_consumes)
        (fun _ => Consumes.fail _ _))

/-- Successful decoding of a sized string stays within its capacity. -/
theorem decSizedStr_consumes (n : Nat) (h : all = false) :
    Consumes all (decSizedStr n) (2 + 1 * n) := by
  intro i hi
  rcases hi with hi | ⟨a, ha⟩
  · simp [h] at hi
  · have h1 : decSizedStr n i = (.ok a, (decSizedStr n i).2) := by rw [← ha]
    have h2 := decUsize_consumes (all := true) i (.inl rfl)
    unfold decSizedStr at h1 ⊢
    change (Dec.bind decUsize _ i) = (_, (Dec.bind decUsize _ i).2) at h1
    show (Dec.bind decUsize _ i).2.pos ≤ _
    unfold Dec.bind at h1 ⊢
    generalize decUsize i = x at h1 h2 ⊢
    obtain ⟨r, i'⟩ := x
    cases r with
    | ok len =>
      simp only at h1 h2 ⊢
      change (Dec.bind (Dec.read len) _ i') = (_, (Dec.bind (Dec.read len) _ i').2) at h1
      show (Dec.bind (Dec.read len) _ i').2.pos ≤ _
      unfold Dec.bind at h1 ⊢
      have h3 := Ends.read (Pn := fun _ => True) (U := fun _ => True) True.intro len i'
      have h4 := Consumes.read (all := true) len i' (.inl rfl)
      generalize Dec.read len i' = y at h1 h3 h4 ⊢
      obtain ⟨r, i''⟩ := y
      cases r with
      | ok d =>
        simp only at h1 h4 ⊢
        change d.length = len at h3
        generalize hq : sizedStrFromUtf8 n d = q at h1 ⊢
        match q, h1 with
        | some (.ok s), h1 =>
          have h5 : s.val = d := sizedStrFromUtf8_val n d s hq
          have h6 := s.property.2
          rw [h5] at h6
          show i''.pos ≤ _
          omega
        | some (.error e), h1 => exact nomatch (congrArg Prod.fst h1)
        | none, h1 => exact nomatch (congrArg Prod.fst h1)
      | err e => exact nomatch (congrArg Prod.fst h1)
      | panic e => exact nomatch (congrArg Prod.fst h1)
      | ub e => exact nomatch (congrArg Prod.fst h1)
    | err e => exact nomatch (congrArg Prod.fst h1)
    | panic e => exact nomatch (congrArg Prod.fst h1)
    | ub e => exact nomatch (congrArg Prod.fst h1)

end

variable {all : Bool}
open Consumes

mutual

theorem Ty.decode_consumes : (t : Ty) → t.HasSized → Everywhere (DecodeSizeOk sizeOf all) t →
    Consumes all t.decode (t.maxSize sizeOf)
  | .num k, _, _ => bind_pure (decNum_consumes _)
  | .bool, _, _ => decBool_consumes
  | .char, _, _ => decChar_consumes
  | .usize, _, _ => decUsize_consumes
  | .isize, _, _ => decIsize_consumes
  | .nonZero r, _, _ => decNonZero_consumes r
  | .unit _, _, _ => Consumes.pure _ _
  | .infallible, _, _ => Consumes.panic _ _
  | .wrap _ t, h, hs => Ty.decode_consumes t h hs.2
  | .array t n, h, hs => decItems_consumes (Ty.decode_consumes t h hs.2) n 0
  | .seq _ _, h, _ => nomatch h
  | .hashMap _ _, h, _ => nomatch h
  | .hashSet _, h, _ => nomatch h
  | .option t, h, hs => bind decBool_consumes fun b =>
      Consumes.ite (fun _ => bind_pure (Ty.decode_consumes t h hs.2)) (fun _ => Consumes.pure _ _)
  | .result t e, h, hs => bind decBool_consumes fun b => by
      have h1 := hs.1.1.1
      have h2 := hs.1.1.2
      rw [resultMax]
      exact Consumes.ite
        (fun _ => (bind_pure ((Ty.decode_consumes e h.2 hs.2.2).mapErr _)).mono (by omega))
        (fun _ => (bind_pure ((Ty.decode_consumes t h.1 hs.2.1).mapErr _)).mono (by omega))
  | .bound t, h, hs => bind decU8_consumes fun b =>
      Consumes.ite (fun _ => bind_pure ((Ty.decode_consumes t h hs.2).mapErr _))
        (fun _ => Consumes.ite (fun _ => bind_pure ((Ty.decode_consumes t h hs.2).mapErr _))
          (fun _ => Consumes.ite (fun _ => Consumes.pure _ _) (fun _ => Consumes.fail _ _)))
  | .range t, h, hs => (bind (Ty.decode_consumes t h hs.2) fun _ =>
      bind_pure (Ty.decode_consumes t h hs.2)).mono (by simp only [Ty.maxSize]; omega)
  | .rangeInclusive t, h, hs => (bind (Ty.decode_consumes t h hs.2) fun _ =>
      bind_pure (Ty.decode_consumes t h hs.2)).mono (by simp only [Ty.maxSize]; omega)
  | .lock _ t, h, hs => bind_pure (Ty.decode_consumes t h hs.2)
  | .refCell t, h, hs => bind_pure (Ty.decode_consumes t h hs.2)
  | .duration, _, _ => decDuration_consumes
  | .systemTime p, _, _ => decSystemTime_consumes p
  | .ipv4, _, _ => decIpv4_consumes
  | .ipv6, _, _ => decIpv6_consumes
  | .ipAddr, _, _ => decIpAddr_consumes
  | .socketAddrV4, _, _ => decSocketAddrV4_consumes
  | .socketAddrV6, _, _ => decSocketAddrV6_consumes
  | .socketAddr, _, _ => decSocketAddr_consumes
  | .str _, h, _ => nomatch h
  | .cStr _, h, _ => nomatch h
  | .sizedStr n, _, hs => decSizedStr_consumes n hs.2
  | .sizedSlice _ _, _, hs => nomatch hs.1.1
  | .tuple fs, h, hs => Fields.decode_consumes fs h hs.2 _
  | .struct fs, h, hs => Fields.decode_consumes fs h hs.2 _
  | .enum r .nil, h, hs => nomatch hs.1.2 rfl
  | .enum r (.cons d fs vs), h, hs => by
    refine (bind (k' := Variants.maxSize sizeOf (.cons d fs vs) r - r.bytes) (decRepr_consumes r)
      fun x => (Variants.decode_consumes (.cons d fs vs) h hs.2 r none x)).mono ?_
    simp only [Ty.maxSize, Variants.maxSize]; omega

theorem Fields.decode_consumes : (fs : Fields) → fs.HasSized →
    EverywhereFields (DecodeSizeOk sizeOf all) fs → (g : DecErr → DecErr) →
    Consumes all (fs.decode g) (fs.maxSize sizeOf)
  | .nil, _, _, _ => Consumes.pure _ _
  | .cons t fs, h, hs, g => bind ((Ty.decode_consumes t h.1 hs.1).mapErr g) fun _ =>
      bind_pure (Fields.decode_consumes fs h.2 hs.2 g)

theorem Variants.decode_consumes : (vs : Variants) → vs.HasSized →
    EverywhereVariants (DecodeSizeOk sizeOf all) vs → (r : Repr) → (prev : Option Nat) →
    (x : Int) → Consumes all (vs.decode prev x) (vs.maxSize sizeOf r - r.bytes)
  | .nil, _, _, _, _, _ => Consumes.fail _ _
  | .cons d fs vs, h, hs, r, prev, x => by
    refine Consumes.ite (fun _ => ?_) (fun _ => ?_)
    · refine (bind_pure (Fields.decode_consumes fs h.1 hs.1 _)).mono ?_
      simp only [Variants.maxSize]; omega
    · refine (bind_pure (Variants.decode_consumes vs h.2 hs.2 r _ x)).mono ?_
      simp only [Variants.maxSize]; omega

end

end Oct
