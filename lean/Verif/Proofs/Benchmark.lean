import Verif.Spec.Benchmark
import Verif.Proofs.Outcome
/-
The loops of the benchmarks.
-/
namespace Oct
open Spec

theorem benchEncodeLoop_fills (t : Ty) (n : Nat) (l : List t.Val) :
    (∀ v ∈ l, Encodable t v ∧ (wire t v).length = n) → ∀ o : Output, o.position ≤ o.capacity →
      n * l.length ≤ o.remaining →
      benchEncodeLoop t l o = (.finished, o.put (l.flatMap (wire t))) := by
  induction l with
  | nil => intro _ o ho _; exact Prod.ext rfl (Output.put_nil ho).symm
  | cons v l ih =>
    intro h o ho hr
    have hv := h v (by simp)
    have hlen : (wire t v).length ≤ o.remaining := by
      rw [hv.2]
      rw [List.length_cons, Nat.mul_add, Nat.mul_one] at hr
      omega
    have he := ((Ty.encode_encodes t v).emits hv.1 o ho).1 hlen
    unfold benchEncodeLoop
    rw [he]
    show benchEncodeLoop t l (o.put (wire t v)) = _
    rw [ih (fun w hw => h w (by simp [hw])) _ (Output.WF.put ho hlen) ?_]
    · rw [List.flatMap_cons, Output.put_put ho hlen]
    · rw [Output.remaining_put ho hlen, hv.2]
      rw [List.length_cons, Nat.mul_add, Nat.mul_one] at hr
      omega

theorem flatMap_wire_length (t : Ty) (n : Nat) (l : List t.Val)
    (h : ∀ v ∈ l, (wire t v).length = n) : (l.flatMap (wire t)).length = n * l.length := by
  induction l with
  | nil => rfl
  | cons w l ih =>
    rw [List.flatMap_cons, List.length_append, List.length_cons, h w (by simp),
      ih fun x hx => h x (by simp [hx]), Nat.mul_add, Nat.mul_one, Nat.add_comm]

/-- A block fills its buffer if each value takes as many octets as the block says. -/
theorem benchEncode_fills (t : Ty) (n : Nat) (l : List t.Val)
    (h : ∀ v ∈ l, Encodable t v ∧ (wire t v).length = n) :
    Fills (benchEncode t n l) (l.flatMap (wire t)) := by
  have hl := flatMap_wire_length t n l fun v hv => (h v hv).2
  unfold benchEncode
  rw [benchEncodeLoop_fills t n l h _ (Nat.zero_le _) (by
    show _ ≤ (List.replicate (n * l.length) (0 : Byte)).length - 0
    rw [List.length_replicate]
    exact Nat.le_refl _)]
  refine ⟨rfl, ?_, ?_⟩
  · show List.take 0 _ ++ l.flatMap (wire t) ++ List.drop (0 + (l.flatMap (wire t)).length) _ = _
    rw [hl, List.drop_of_length_le (by
      show (List.replicate (n * l.length) (0 : Byte)).length ≤ _
      rw [List.length_replicate]; omega)]
    simp
  · show 0 + _ = _
    exact Nat.zero_add _

theorem benchDecodeLoop_drains (t : Ty) (ht : t.WF) (l : List t.Val) :
    (∀ v ∈ l, Supported t v ∧ Encodable t v ∧ carried t v = v) → ∀ pre : List Byte,
      benchDecodeLoop t l.length ⟨pre ++ l.flatMap (wire t), pre.length⟩
        = (.finished, l, ⟨pre ++ l.flatMap (wire t), (pre ++ l.flatMap (wire t)).length⟩) := by
  induction l with
  | nil => intro _ pre; simp [benchDecodeLoop]
  | cons v l ih =>
    intro h pre
    have hv := h v (by simp)
    have hd := Ty.decode_decodes t ht v hv.1 hv.2.1 pre (l.flatMap (wire t))
    have hi := ih (fun w hw => h w (by simp [hw])) (pre ++ wire t v)
    rw [List.length_append, List.append_assoc] at hi
    rw [List.flatMap_cons, List.length_cons]
    unfold benchDecodeLoop
    rw [hd]
    dsimp only
    rw [hi, hv.2.2]

/-- A block decodes what was drawn if the octets of each value are its encoding. -/
theorem benchDecode_drains (t : Ty) (ht : t.WF) (f : Nat → t.Val)
    (h : ∀ v : t.Val, Supported t v ∧ Encodable t v ∧ carried t v = v) (draw : Nat → List Byte)
    (hd : ∀ i, draw i = wire t (f i)) (n : Nat) :
    Drains (benchDecode t draw 1 n) ((List.range n).map f) := by
  have h0 := benchDecodeLoop_drains t ht ((List.range n).map f) (fun v _ => h v) []
  have hg : generateRandomData draw 1 n = ((List.range n).map f).flatMap (wire t) := by
    unfold generateRandomData
    rw [Nat.one_mul, List.flatMap_map]
    exact congrArg (fun g => List.flatMap g (List.range n)) (funext hd)
  rw [List.length_map, List.length_range] at h0
  unfold benchDecode
  rw [hg]
  exact (congrArg (fun r => Drains r _) h0).mpr ⟨rfl, rfl, rfl⟩

theorem namedOctets_eq (v : BitVec 64) : namedOctets v
    = [v.setWidth 8, (v >>> 8).setWidth 8 <<< 6, 0, 0, 0, 0, 0, 0] := by
  unfold namedOctets
  simp only [List.cons.injEq, and_true]
  refine ⟨?_, ?_, ?_, ?_, ?_, ?_, ?_, ?_⟩ <;>
  · apply BitVec.eq_of_getLsbD_eq
    intro i hi
    have : i = 0 ∨ i = 1 ∨ i = 2 ∨ i = 3 ∨ i = 4 ∨ i = 5 ∨ i = 6 ∨ i = 7 := by omega
    rcases this with rfl | rfl | rfl | rfl | rfl | rfl | rfl | rfl <;> simp

theorem namedOctets_nat (v : BitVec 64) : (namedOctets v).map BitVec.toNat
    = [v.toNat % 256, v.toNat / 256 % 4 * 64, 0, 0, 0, 0, 0, 0] := by
  rw [namedOctets_eq]
  simp only [List.map_cons, List.map_nil, BitVec.toNat_setWidth, BitVec.toNat_shiftLeft,
    BitVec.toNat_ushiftRight, Nat.shiftRight_eq_div_pow, Nat.shiftLeft_eq]
  simp
  omega

end Oct
