import Verif.Model.Decode
import Verif.Spec.Format
/- Lemmas about integers and octets. -/
namespace Oct

theorem byte_toNat_lt (b : UInt8) : b.toNat < 256 := b.toNat_lt

theorem ofNat_mod_toNat (x : Nat) : (UInt8.ofNat (x % 256)).toNat = x % 256 := by
  rw [UInt8.toNat_ofNat_of_lt']; simp [UInt8.size]; omega

theorem toLe_eq_leBytes (n x : Nat) : toLe n x = Spec.leBytes n x := by
  unfold Spec.leBytes
  induction n generalizing x with
  | zero => rfl
  | succ n ih =>
    rw [toLe, ih, List.range_succ_eq_map, List.map_cons, List.map_map]
    simp only [Nat.pow_zero, Nat.div_one]
    congr 1
    apply List.map_congr_left
    intro i _
    simp only [Function.comp_apply]
    rw [Nat.pow_succ, Nat.mul_comm (256 ^ i), ← Nat.div_div_eq_div_mul]

theorem leBytes_length (n x : Nat) : (Spec.leBytes n x).length = n := by
  simp [Spec.leBytes]

theorem fromLe_toLe (n x : Nat) : fromLe (toLe n x) = x % 256 ^ n := by
  induction n generalizing x with
  | zero => simp [toLe, fromLe, Nat.mod_one]
  | succ n ih =>
    rw [toLe, fromLe, ih, ofNat_mod_toNat, Nat.pow_succ, Nat.mul_comm (256 ^ n) 256, Nat.mod_mul]

theorem fromLe_lt (l : List UInt8) : fromLe l < 256 ^ l.length := by
  induction l with
  | nil => simp [fromLe]
  | cons b l ih =>
    have := b.toNat_lt
    rw [fromLe, List.length_cons, Nat.pow_succ]
    omega

theorem toLe_fromLe (l : List UInt8) : toLe l.length (fromLe l) = l := by
  induction l with
  | nil => rfl
  | cons b l ih =>
    have := b.toNat_lt
    rw [List.length_cons, toLe, fromLe]
    have h1 : (b.toNat + 256 * fromLe l) % 256 = b.toNat := by omega
    have h2 : (b.toNat + 256 * fromLe l) / 256 = fromLe l := by omega
    rw [h1, h2, ih]
    simp

theorem fromBe_eq (l : List UInt8) : fromBe l = fromLe l.reverse := by
  unfold fromBe
  have key : ∀ (l : List UInt8) (acc : Nat),
      l.foldl (fun acc b => acc * 256 + b.toNat) acc = fromLe l.reverse + acc * 256 ^ l.length := by
    intro l
    induction l with
    | nil => intro acc; simp [fromLe]
    | cons b l ih =>
      intro acc
      rw [List.foldl_cons, ih, List.reverse_cons]
      have happ : ∀ (l : List UInt8), fromLe (l ++ [b]) = fromLe l + b.toNat * 256 ^ l.length := by
        intro l
        induction l with
        | nil => simp [fromLe]
        | cons c l ih =>
          rw [List.cons_append, fromLe, fromLe, ih, List.length_cons, Nat.pow_succ, Nat.mul_add]
          rw [Nat.add_assoc]
          congr 2
          rw [← Nat.mul_assoc, Nat.mul_comm 256, Nat.mul_assoc, Nat.mul_comm 256]
          
      rw [happ, List.length_reverse, List.length_cons, Nat.pow_succ, Nat.add_mul]
      have : acc * 256 * 256 ^ l.length = acc * (256 ^ l.length * 256) := by
        rw [Nat.mul_assoc, Nat.mul_comm 256]
      omega
  rw [key]; simp

theorem toLe_fromBe (l : List UInt8) : toLe l.length (fromBe l) = l.reverse := by
  rw [fromBe_eq]
  have := toLe_fromLe l.reverse
  rwa [List.length_reverse] at this

theorem toBe_fromLe (l : List UInt8) : toBe l.length (fromLe l) = l.reverse := by
  rw [toBe, toLe_fromLe]

end Oct
