import Verif.Proofs.Prim
/- Decoders look only at the octets they consume. -/
namespace Oct
set_option linter.unusedVariables false

/-- From octets `bs`, `m` has a fixed outcome `r` and consumes `n` octets, whatever precedes them.
Unless it stops for lack of input, the `n` octets determine this. -/
def Local {α : Type} (m : Dec α) : Prop :=
  ∀ bs : List Byte, ∃ (r : Res DecErr α) (n : Nat), n ≤ bs.length ∧
    (∀ pre, m ⟨pre ++ bs, pre.length⟩ = (r, ⟨pre ++ bs, pre.length + n⟩)) ∧
    (r ≠ .panic .shortInput → ∀ pre post,
      m ⟨pre ++ (bs.take n ++ post), pre.length⟩
        = (r, ⟨pre ++ (bs.take n ++ post), pre.length + n⟩))

/-- The two ways of reading are the same. -/
theorem readInto_eq_read (k : Nat) : Dec.readInto k = Dec.read k := by
  funext i
  unfold Dec.readInto Dec.read Input.readInto Input.read Input.remaining Input.capacity
    Input.position
  simp only [List.length_replicate]
  by_cases h : i.buf.length - i.pos < k
  · simp only [h, if_true]
  · simp only [h, if_false]

namespace Local
variable {α β : Type}

theorem const (r : Res DecErr α) : Local (fun i => (r, i)) := by
  intro bs
  exact ⟨r, 0, by simp, by simp, by simp⟩

theorem pure (a : α) : Local (Dec.pure a) := const _
theorem pure' (a : α) : Local (Pure.pure a : Dec α) := const _
theorem fail (e : DecErr) : Local (Dec.fail e : Dec α) := const _
theorem panic (p : Panic) : Local (Dec.panic p : Dec α) := const _
theorem ub (u : Ub) : Local (Dec.ub u : Dec α) := const _

theorem read (k : Nat) : Local (Dec.read k) := by
  intro bs
  by_cases h : k ≤ bs.length
  · refine ⟨.ok (bs.take k), k, h, ?_, ?_⟩
    · intro pre
      unfold Dec.read Input.read
      simp only [List.length_append, Nat.add_sub_cancel_left, Nat.not_lt.mpr h, if_false,
        List.drop_left]
    · intro _ pre post
      unfold Dec.read Input.read
      have h1 : (bs.take k).length = k := by simp; omega
      have h2 : ¬ (pre.length + ((bs.take k).length + post.length) - pre.length < k) := by omega
      simp only [List.length_append, h2, if_false, List.drop_left]
      rw [List.take_append_of_le_length (by omega), List.take_of_length_le (by omega)]
  · refine ⟨.panic .shortInput, 0, by omega, ?_, ?_⟩
    · intro pre
      unfold Dec.read Input.read
      simp only [List.length_append, Nat.add_sub_cancel_left, Nat.lt_of_not_le h, if_true,
        Nat.add_zero]
    · intro h; exact absurd rfl h

theorem readInto (k : Nat) : Local (Dec.readInto k) := by
  rw [readInto_eq_read]
  exact read k

theorem bind {m : Dec α} {f : α → Dec β} (hm : Local m) (hf : ∀ a, Local (f a)) :
    Local (m.bind f) := by
  intro bs
  obtain ⟨r, n, hn, h1, h2⟩ := hm bs
  cases r with
  | ok a =>
    obtain ⟨r', n', hn', h1', h2'⟩ := hf a (bs.drop n)
    rw [List.length_drop] at hn'
    refine ⟨r', n + n', by omega, ?_, ?_⟩
    · intro pre
      unfold Dec.bind
      rw [h1]
      have := h1' (pre ++ bs.take n)
      rw [List.append_assoc, List.take_append_drop, List.length_append, List.length_take,
        Nat.min_eq_left hn] at this
      simp only [this, Nat.add_assoc]
    · intro hr pre post
      unfold Dec.bind
      have e : bs.take (n + n') ++ post = bs.take n ++ ((bs.drop n).take n' ++ post) := by
        rw [List.take_add, List.append_assoc]
      rw [e, h2 (by simp)]
      have := h2' hr (pre ++ bs.take n) post
      rw [List.append_assoc, List.length_append, List.length_take, Nat.min_eq_left hn] at this
      simp only [this, Nat.add_assoc]
  | err e =>
    refine ⟨.err e, n, hn, fun pre => ?_, fun _ pre post => ?_⟩
    · unfold Dec.bind; rw [h1]
    · unfold Dec.bind; rw [h2 (by simp)]
  | panic p =>
    refine ⟨.panic p, n, hn, fun pre => ?_, fun hp pre post => ?_⟩
    · unfold Dec.bind; rw [h1]
    · unfold Dec.bind; rw [h2 (by intro h; apply hp; cases h; rfl)]
  | ub u =>
    refine ⟨.ub u, n, hn, fun pre => ?_, fun _ pre post => ?_⟩
    · unfold Dec.bind; rw [h1]
    · unfold Dec.bind; rw [h2 (by simp)]

theorem bind' {m : Dec α} {f : α → Dec β} (hm : Local m) (hf : ∀ a, Local (f a)) :
    Local (m >>= f) := bind hm hf

theorem mapErr {m : Dec α} (g : DecErr → DecErr) (hm : Local m) : Local (m.mapErr g) := by
  intro bs
  obtain ⟨r, n, hn, h1, h2⟩ := hm bs
  refine ⟨r.mapErr g, n, hn, ?_, ?_⟩
  · intro pre; unfold Dec.mapErr; rw [h1]
  · intro hr pre post
    unfold Dec.mapErr
    rw [h2]
    intro h; subst h; exact hr rfl

theorem ite {c : Prop} [Decidable c] {m m' : Dec α} (h : c → Local m) (h' : ¬ c → Local m') :
    Local (if c then m else m') := by
  split
  · exact h ‹_›
  · exact h' ‹_›

theorem dite {c : Prop} [Decidable c] {m : c → Dec α} {m' : ¬ c → Dec α} (h : ∀ x, Local (m x))
    (h' : ∀ x, Local (m' x)) : Local (if x : c then m x else m' x) := by
  split
  · exact h _
  · exact h' _

end Local

open Local

theorem decNum_local (n : Nat) : Local (decNum n) := bind' (readInto n) fun _ => pure' _
theorem decU8_local : Local decU8 := decNum_local 1
theorem decUsize_local : Local decUsize := decNum_local 2
theorem decIsize_local : Local decIsize := bind' (decNum_local 2) fun _ => pure' _

theorem decRepr_local (r : Repr) : Local (decRepr r) := by
  cases r with
  | int k => exact bind' (decNum_local _) fun _ => pure' _
  | usize => exact bind' decUsize_local fun _ => pure' _
  | isize => exact decIsize_local

theorem decBool_local : Local decBool := bind' decU8_local fun _ => pure' _

theorem decChar_local : Local decChar :=
  bind' (decNum_local 4) fun _ => ite (fun _ => dite (fun _ => pure' _) (fun _ => Local.ub _))
    (fun _ => Local.fail _)

theorem decNonZero_local (r : Repr) : Local (decNonZero r) :=
  bind' (decRepr_local r) fun _ => ite (fun _ => Local.fail _)
    (fun _ => dite (fun _ => pure' _) (fun _ => Local.panic _))

variable {α β : Type}

theorem decItems_local {dec : Dec α} (h : Local dec) (n i : Nat) : Local (decItems dec n i) := by
  induction n generalizing i with
  | zero => exact pure' _
  | succ n ih => exact bind' (h.mapErr _) fun _ => bind' (ih _) fun _ => pure' _

theorem decSeq_local {dec : Dec α} (h : Local dec) : Local (decSeq dec) :=
  bind' decUsize_local fun _ => bind' (decItems_local h _ _) fun _ => pure' _

theorem decSizedSlice_local {dec : Dec α} (h : Local dec) (n : Nat) :
    Local (decSizedSlice dec n) :=
  bind' decUsize_local fun _ => ite (fun _ => Local.fail _)
    (fun _ => bind' (decItems_local h _ _) fun _ => pure' _)

theorem decMapLoop_local [DecidableEq α] {dk : Dec α} {dv : Dec β} (hk : Local dk) (hv : Local dv)
    (n i : Nat) (m : MapVal α β) : Local (decMapLoop dk dv n i m) := by
  induction n generalizing i m with
  | zero => exact pure' _
  | succ n ih => exact bind' (hk.mapErr _) fun _ => bind' (hv.mapErr _) fun _ => ih _ _

theorem decHashMap_local [DecidableEq α] {dk : Dec α} {dv : Dec β} (hk : Local dk) (hv : Local dv) :
    Local (decHashMap dk dv) :=
  bind' decUsize_local fun _ => decMapLoop_local hk hv _ _ _

theorem decSetLoop_local [DecidableEq α] {dk : Dec α} (hk : Local dk)
    (n i : Nat) (m : SetVal α) : Local (decSetLoop dk n i m) := by
  induction n generalizing i m with
  | zero => exact pure' _
  | succ n ih => exact bind' (hk.mapErr _) fun _ => ih _ _

theorem decHashSet_local [DecidableEq α] {dk : Dec α} (hk : Local dk) : Local (decHashSet dk) :=
  bind' decUsize_local fun _ => decSetLoop_local hk _ _ _

theorem decOption_local {dec : Dec α} (h : Local dec) : Local (decOption dec) :=
  bind' decBool_local fun _ => ite (fun _ => bind' h fun _ => pure' _) (fun _ => pure' _)

theorem decResult_local {dt : Dec α} {de : Dec β} (ht : Local dt) (he : Local de) :
    Local (decResult dt de) :=
  bind' decBool_local fun _ => ite (fun _ => bind' (he.mapErr _) fun _ => pure' _)
    (fun _ => bind' (ht.mapErr _) fun _ => pure' _)

theorem decBound_local {dec : Dec α} (h : Local dec) : Local (decBound dec) :=
  bind' decU8_local fun _ => ite (fun _ => bind' (h.mapErr _) fun _ => pure' _) fun _ =>
    ite (fun _ => bind' (h.mapErr _) fun _ => pure' _) fun _ =>
      ite (fun _ => pure' _) fun _ => Local.fail _

theorem decDuration_local : Local decDuration :=
  bind' (decNum_local 8) fun _ => bind' (decNum_local 4) fun _ => by
    split
    · exact pure' _
    · exact Local.panic _

theorem decSystemTime_local (p : TimePlatform) : Local (decSystemTime p) :=
  bind' (decNum_local 8) fun _ => dite (fun _ => dite (fun _ => pure' _) (fun _ => Local.fail _))
    (fun _ => dite (fun _ => pure' _) (fun _ => Local.fail _))

theorem decIpv4_local : Local decIpv4 := bind' (decNum_local 4) fun _ => pure' _
theorem decIpv6_local : Local decIpv6 := bind' (decNum_local 16) fun _ => pure' _

theorem decIpAddr_local : Local decIpAddr :=
  bind' decU8_local fun _ => ite (fun _ => bind' decIpv4_local fun _ => pure' _) fun _ =>
    ite (fun _ => bind' decIpv6_local fun _ => pure' _) fun _ => Local.fail _

theorem decSocketAddrV4_local : Local decSocketAddrV4 :=
  bind' decIpv4_local fun _ => bind' (decNum_local 2) fun _ => pure' _

theorem decSocketAddrV6_local : Local decSocketAddrV6 :=
  bind' decIpv6_local fun _ => bind' (decNum_local 2) fun _ => bind' (decNum_local 4) fun _ =>
    bind' (decNum_local 4) fun _ => pure' _

theorem decSocketAddr_local : Local decSocketAddr :=
  bind' decU8_local fun _ => ite (fun _ => bind' decSocketAddrV4_local fun _ => pure' _) fun _ =>
    ite (fun _ => bind' decSocketAddrV6_local fun _ => pure' _) fun _ => Local.fail _

theorem decString_local : Local decString :=
  bind' decUsize_local fun _ => bind' (Local.read _) fun _ => by
    split
    · exact pure' _
    · split
      · exact Local.fail _
      · exact Local.panic _

theorem decCString_local : Local decCString :=
  bind' decUsize_local fun _ => bind' (Local.read _) fun _ =>
    dite (fun _ => pure' _) (fun _ => Local.fail _)

theorem decSizedStr_local (n : Nat) : Local (decSizedStr n) :=
  bind' decUsize_local fun _ => bind' (Local.read _) fun _ => by
    split
    · exact pure' _
    · exact Local.fail _
    · exact Local.panic _

mutual

theorem Ty.decode_local : (t : Ty) → Local t.decode
  | .num k => bind' (decNum_local _) fun _ => pure' _
  | .bool => decBool_local
  | .char => decChar_local
  | .usize => decUsize_local
  | .isize => decIsize_local
  | .nonZero r => decNonZero_local r
  | .unit _ => pure' _
  | .infallible => Local.panic _
  | .wrap _ t => t.decode_local
  | .array t n => decItems_local t.decode_local n 0
  | .seq _ t => decSeq_local t.decode_local
  | .hashMap k v => @decHashMap_local _ _ k.decEq _ _ k.decode_local v.decode_local
  | .hashSet k => @decHashSet_local _ k.decEq _ k.decode_local
  | .option t => decOption_local t.decode_local
  | .result t e => decResult_local t.decode_local e.decode_local
  | .bound t => decBound_local t.decode_local
  | .range t => bind' t.decode_local fun _ => bind' t.decode_local fun _ => pure' _
  | .rangeInclusive t => bind' t.decode_local fun _ => bind' t.decode_local fun _ => pure' _
  | .lock _ t => bind' t.decode_local fun _ => pure' _
  | .refCell t => bind' t.decode_local fun _ => pure' _
  | .duration => decDuration_local
  | .systemTime p => decSystemTime_local p
  | .ipv4 => decIpv4_local
  | .ipv6 => decIpv6_local
  | .ipAddr => decIpAddr_local
  | .socketAddrV4 => decSocketAddrV4_local
  | .socketAddrV6 => decSocketAddrV6_local
  | .socketAddr => decSocketAddr_local
  | .str _ => decString_local
  | .cStr _ => decCString_local
  | .sizedStr n => decSizedStr_local n
  | .sizedSlice t n => decSizedSlice_local t.decode_local n
  | .tuple fs => fs.decode_local _
  | .struct fs => fs.decode_local _
  | .enum r vs => bind' (decRepr_local r) fun _ => vs.decode_local _ _

theorem Fields.decode_local : (fs : Fields) → (g : DecErr → DecErr) → Local (fs.decode g)
  | .nil, _ => pure' _
  | .cons t fs, g => bind' (t.decode_local.mapErr g) fun _ => bind' (fs.decode_local g) fun _ => pure' _

theorem Variants.decode_local : (vs : Variants) → (prev : Option Nat) → (x : Int) →
    Local (vs.decode prev x)
  | .nil, _, _ => Local.fail _
  | .cons d fs vs, prev, x =>
    ite (fun _ => bind' (fs.decode_local _) fun _ => pure' _)
      (fun _ => bind' (vs.decode_local _ _) fun _ => pure' _)

end

end Oct
