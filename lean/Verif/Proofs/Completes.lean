import Verif.Proofs.Local
/-
An input that is too short can be completed.
-/
namespace Oct

/-- Looks only at what is consumed; and where there is too little, there is something that can follow with
which there is enough. -/
def Completes {α : Type} (m : Dec α) : Prop :=
  Local m ∧ ∀ bs : List Byte, ∃ more, (m ⟨bs ++ more, 0⟩).1 ≠ .panic .shortInput

namespace Completes
variable {α β : Type}

theorem const (r : Res DecErr α) (h : r ≠ .panic .shortInput) : Completes (fun i => (r, i)) :=
  ⟨Local.const r, fun _ => ⟨[], h⟩⟩

theorem pure' (a : α) : Completes (Pure.pure a : Dec α) := const _ (by simp)
theorem fail (e : DecErr) : Completes (Dec.fail e : Dec α) := const _ (by simp)
theorem panic (p : Panic) (h : p ≠ .shortInput) : Completes (Dec.panic p : Dec α) :=
  const _ fun h' => h (Res.panic.inj h')
theorem ub (u : Ub) : Completes (Dec.ub u : Dec α) := const _ (by simp)

theorem read (k : Nat) : Completes (Dec.read k) := by
  refine ⟨Local.read k, fun bs => ⟨List.replicate k 0, ?_⟩⟩
  unfold Dec.read Input.read
  have h : ¬ ((bs ++ List.replicate k (0 : Byte)).length - 0 < k) := by
    rw [List.length_append, List.length_replicate]; omega
  simp only [h, if_false]
  simp

theorem readInto (k : Nat) : Completes (Dec.readInto k) := by
  rw [readInto_eq_read]
  exact read k

theorem bind' {m : Dec α} {f : α → Dec β} (hm : Completes m) (hf : ∀ a, Completes (f a)) :
    Completes (m >>= f) := by
  refine ⟨Local.bind' hm.1 fun a => (hf a).1, fun bs => ?_⟩
  obtain ⟨more, hmore⟩ := hm.2 bs
  obtain ⟨r, n, hn, h1, h2⟩ := hm.1 (bs ++ more)
  have e1 : m ⟨bs ++ more, 0⟩ = (r, ⟨bs ++ more, 0 + n⟩) := h1 []
  rw [e1] at hmore
  have ext : ∀ post, m ⟨bs ++ (more ++ post), 0⟩ = (r, ⟨bs ++ (more ++ post), 0 + n⟩) := by
    intro post
    have := h2 hmore [] ((bs ++ more).drop n ++ post)
    rw [← List.append_assoc ((bs ++ more).take n), List.take_append_drop, List.append_assoc] at this
    exact this
  have run : ∀ post, (m >>= f) ⟨bs ++ (more ++ post), 0⟩ = Dec.bind m f ⟨bs ++ (more ++ post), 0⟩ :=
    fun _ => rfl
  cases r with
  | ok a =>
    obtain ⟨more', h'⟩ := (hf a).2 ((bs ++ more).drop n)
    refine ⟨more ++ more', ?_⟩
    rw [run]
    unfold Dec.bind
    rw [ext more']
    obtain ⟨r', n', hn', h1', _⟩ := (hf a).1 ((bs ++ more).drop n ++ more')
    have e2 := h1' []
    have e3 := h1' ((bs ++ more).take n)
    rw [show (⟨[] ++ ((bs ++ more).drop n ++ more'), ([] : List Byte).length⟩ : Input)
      = ⟨(bs ++ more).drop n ++ more', 0⟩ from rfl] at e2
    rw [e2] at h'
    rw [← List.append_assoc, List.take_append_drop, List.length_take, Nat.min_eq_left hn,
      List.append_assoc] at e3
    rw [Nat.zero_add]
    show (f a ⟨bs ++ (more ++ more'), n⟩).1 ≠ _
    rw [e3]
    exact h'
  | err e =>
    refine ⟨more ++ [], ?_⟩
    rw [run]
    unfold Dec.bind
    rw [ext []]
    simp
  | panic p =>
    refine ⟨more ++ [], ?_⟩
    rw [run]
    unfold Dec.bind
    rw [ext []]
    intro h
    exact hmore (congrArg Res.panic (Res.panic.inj h))
  | ub u =>
    refine ⟨more ++ [], ?_⟩
    rw [run]
    unfold Dec.bind
    rw [ext []]
    simp

theorem mapErr {m : Dec α} (g : DecErr → DecErr) (hm : Completes m) : Completes (m.mapErr g) := by
  refine ⟨hm.1.mapErr g, fun bs => ?_⟩
  obtain ⟨more, h⟩ := hm.2 bs
  refine ⟨more, ?_⟩
  unfold Dec.mapErr
  generalize m ⟨bs ++ more, 0⟩ = q at h
  obtain ⟨r, i⟩ := q
  intro h'
  cases r with
  | panic p => exact h h'
  | _ => cases h'

theorem ite {c : Prop} [Decidable c] {m m' : Dec α} (h : c → Completes m) (h' : ¬ c → Completes m') :
    Completes (if c then m else m') := by
  split
  · exact h ‹_›
  · exact h' ‹_›

theorem dite {c : Prop} [Decidable c] {m : c → Dec α} {m' : ¬ c → Dec α} (h : ∀ x, Completes (m x))
    (h' : ∀ x, Completes (m' x)) : Completes (if x : c then m x else m' x) := by
  split
  · exact h _
  · exact h' _

end Completes

open Completes

theorem decNum_completes (n : Nat) : Completes (decNum n) := bind' (readInto n) fun _ => pure' _
theorem decU8_completes : Completes decU8 := decNum_completes 1
theorem decUsize_completes : Completes decUsize := decNum_completes 2
theorem decIsize_completes : Completes decIsize := bind' (decNum_completes 2) fun _ => pure' _

theorem decRepr_completes (r : Repr) : Completes (decRepr r) := by
  cases r with
  | int k => exact bind' (decNum_completes _) fun _ => pure' _
  | usize => exact bind' decUsize_completes fun _ => pure' _
  | isize => exact decIsize_completes

theorem decBool_completes : Completes decBool := bind' decU8_completes fun _ => pure' _

theorem decChar_completes : Completes decChar :=
  bind' (decNum_completes 4) fun _ => ite (fun _ => dite (fun _ => pure' _) (fun _ => Completes.ub _))
    (fun _ => Completes.fail _)

theorem decNonZero_completes (r : Repr) : Completes (decNonZero r) :=
  bind' (decRepr_completes r) fun _ => ite (fun _ => Completes.fail _)
    (fun _ => dite (fun _ => pure' _) (fun _ => Completes.panic _ (by simp)))

variable {α β : Type}

theorem decItems_completes {dec : Dec α} (h : Completes dec) (n i : Nat) : Completes (decItems dec n i) := by
  induction n generalizing i with
  | zero => exact pure' _
  | succ n ih => exact bind' (h.mapErr _) fun _ => bind' (ih _) fun _ => pure' _

theorem decSeq_completes {dec : Dec α} (h : Completes dec) : Completes (decSeq dec) :=
  bind' decUsize_completes fun _ => bind' (decItems_completes h _ _) fun _ => pure' _

theorem decSizedSlice_completes {dec : Dec α} (h : Completes dec) (n : Nat) :
    Completes (decSizedSlice dec n) :=
  bind' decUsize_completes fun _ => ite (fun _ => Completes.fail _)
    (fun _ => bind' (decItems_completes h _ _) fun _ => pure' _)

theorem decMapLoop_completes [DecidableEq α] {dk : Dec α} {dv : Dec β} (hk : Completes dk) (hv : Completes dv)
    (n i : Nat) (m : MapVal α β) : Completes (decMapLoop dk dv n i m) := by
  induction n generalizing i m with
  | zero => exact pure' _
  | succ n ih => exact bind' (hk.mapErr _) fun _ => bind' (hv.mapErr _) fun _ => ih _ _

theorem decHashMap_completes [DecidableEq α] {dk : Dec α} {dv : Dec β} (hk : Completes dk) (hv : Completes dv) :
    Completes (decHashMap dk dv) :=
  bind' decUsize_completes fun _ => decMapLoop_completes hk hv _ _ _

theorem decSetLoop_completes [DecidableEq α] {dk : Dec α} (hk : Completes dk)
    (n i : Nat) (m : SetVal α) : Completes (decSetLoop dk n i m) := by
  induction n generalizing i m with
  | zero => exact pure' _
  | succ n ih => exact bind' (hk.mapErr _) fun _ => ih _ _

theorem decHashSet_completes [DecidableEq α] {dk : Dec α} (hk : Completes dk) : Completes (decHashSet dk) :=
  bind' decUsize_completes fun _ => decSetLoop_completes hk _ _ _

theorem decOption_completes {dec : Dec α} (h : Completes dec) : Completes (decOption dec) :=
  bind' decBool_completes fun _ => ite (fun _ => bind' h fun _ => pure' _) (fun _ => pure' _)

theorem decResult_completes {dt : Dec α} {de : Dec β} (ht : Completes dt) (he : Completes de) :
    Completes (decResult dt de) :=
  bind' decBool_completes fun _ => ite (fun _ => bind' (he.mapErr _) fun _ => pure' _)
    (fun _ => bind' (ht.mapErr _) fun _ => pure' _)

theorem decBound_completes {dec : Dec α} (h : Completes dec) : Completes (decBound dec) :=
  bind' decU8_completes fun _ => ite (fun _ => bind' (h.mapErr _) fun _ => pure' _) fun _ =>
    ite (fun _ => bind' (h.mapErr _) fun _ => pure' _) fun _ =>
      ite (fun _ => pure' _) fun _ => Completes.fail _

theorem decDuration_completes : Completes decDuration :=
  bind' (decNum_completes 8) fun _ => bind' (decNum_completes 4) fun _ => by
    split
    · exact pure' _
    · exact Completes.panic _ (by simp)

theorem decSystemTime_completes (p : TimePlatform) : Completes (decSystemTime p) :=
  bind' (decNum_completes 8) fun _ => dite (fun _ => dite (fun _ => pure' _) (fun _ => Completes.fail _))
    (fun _ => dite (fun _ => pure' _) (fun _ => Completes.fail _))

theorem decIpv4_completes : Completes decIpv4 := bind' (decNum_completes 4) fun _ => pure' _
theorem decIpv6_completes : Completes decIpv6 := bind' (decNum_completes 16) fun _ => pure' _

theorem decIpAddr_completes : Completes decIpAddr :=
  bind' decU8_completes fun _ => ite (fun _ => bind' decIpv4_completes fun _ => pure' _) fun _ =>
    ite (fun _ => bind' decIpv6_completes fun _ => pure' _) fun _ => Completes.fail _

theorem decSocketAddrV4_completes : Completes decSocketAddrV4 :=
  bind' decIpv4_completes fun _ => bind' (decNum_completes 2) fun _ => pure' _

theorem decSocketAddrV6_completes : Completes decSocketAddrV6 :=
  bind' decIpv6_completes fun _ => bind' (decNum_completes 2) fun _ => bind' (decNum_completes 4) fun _ =>
    bind' (decNum_completes 4) fun _ => pure' _

theorem decSocketAddr_completes : Completes decSocketAddr :=
  bind' decU8_completes fun _ => ite (fun _ => bind' decSocketAddrV4_completes fun _ => pure' _) fun _ =>
    ite (fun _ => bind' decSocketAddrV6_completes fun _ => pure' _) fun _ => Completes.fail _

theorem decString_completes : Completes decString :=
  bind' decUsize_completes fun _ => bind' (Completes.read _) fun _ => by
    split
    · exact pure' _
    · split
      · exact Completes.fail _
      · exact Completes.panic _ (by simp)

theorem decCString_completes : Completes decCString :=
  bind' decUsize_completes fun _ => bind' (Completes.read _) fun _ =>
    dite (fun _ => pure' _) (fun _ => Completes.fail _)

theorem decSizedStr_completes (n : Nat) : Completes (decSizedStr n) :=
  bind' decUsize_completes fun _ => bind' (Completes.read _) fun _ => by
    split
    · exact pure' _
    · exact Completes.fail _
    · exact Completes.panic _ (by simp)

mutual

theorem Ty.decode_completes : (t : Ty) → Completes t.decode
  | .num k => bind' (decNum_completes _) fun _ => pure' _
  | .bool => decBool_completes
  | .char => decChar_completes
  | .usize => decUsize_completes
  | .isize => decIsize_completes
  | .nonZero r => decNonZero_completes r
  | .unit _ => pure' _
  | .infallible => Completes.panic _ (by simp)
  | .wrap _ t => t.decode_completes
  | .array t n => decItems_completes t.decode_completes n 0
  | .seq _ t => decSeq_completes t.decode_completes
  | .hashMap k v => @decHashMap_completes _ _ k.decEq _ _ k.decode_completes v.decode_completes
  | .hashSet k => @decHashSet_completes _ k.decEq _ k.decode_completes
  | .option t => decOption_completes t.decode_completes
  | .result t e => decResult_completes t.decode_completes e.decode_completes
  | .bound t => decBound_completes t.decode_completes
  | .range t => bind' t.decode_completes fun _ => bind' t.decode_completes fun _ => pure' _
  | .rangeInclusive t => bind' t.decode_completes fun _ => bind' t.decode_completes fun _ => pure' _
  | .lock _ t => bind' t.decode_completes fun _ => pure' _
  | .refCell t => bind' t.decode_completes fun _ => pure' _
  | .duration => decDuration_completes
  | .systemTime p => decSystemTime_completes p
  | .ipv4 => decIpv4_completes
  | .ipv6 => decIpv6_completes
  | .ipAddr => decIpAddr_completes
  | .socketAddrV4 => decSocketAddrV4_completes
  | .socketAddrV6 => decSocketAddrV6_completes
  | .socketAddr => decSocketAddr_completes
  | .str _ => decString_completes
  | .cStr _ => decCString_completes
  | .sizedStr n => decSizedStr_completes n
  | .sizedSlice t n => decSizedSlice_completes t.decode_completes n
  | .tuple fs => fs.decode_completes _
  | .struct fs => fs.decode_completes _
  | .enum r vs => bind' (decRepr_completes r) fun _ => vs.decode_completes _ _

theorem Fields.decode_completes : (fs : Fields) → (g : DecErr → DecErr) → Completes (fs.decode g)
  | .nil, _ => pure' _
  | .cons t fs, g => bind' (t.decode_completes.mapErr g) fun _ => bind' (fs.decode_completes g) fun _ => pure' _

theorem Variants.decode_completes : (vs : Variants) → (prev : Option Nat) → (x : Int) →
    Completes (vs.decode prev x)
  | .nil, _, _ => Completes.fail _
  | .cons _ fs vs, _, _ =>
    ite (fun _ => bind' (fs.decode_completes _) fun _ => pure' _)
      (fun _ => bind' (vs.decode_completes _ _) fun _ => pure' _)

end

end Oct
