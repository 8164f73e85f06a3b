import Verif.Proofs.CostTy
/-
How great the rates are.
-/
namespace Oct
open Spec

/-- What one of everything costs. -/
def Weights.total (w : Weights) : Nat := w.call + w.alloc + w.cell

/-- The predicate of `Frugal`. -/
def FrugalAt : Ty → Prop
  | .seq _ t => Eats t
  | .hashMap k v => Eats k ∨ Eats v
  | .hashSet k => Eats k
  | _ => True

theorem pow_mono {a b : Nat} (h : a ≤ b) : 2 ^ a ≤ 2 ^ b := Nat.pow_le_pow_right (by omega) h

/-- The rate of a part is within what it may be. -/
abbrev RateLe (W r d p : Nat) : Prop := r ≤ W * (2 ^ d * p)

namespace RateLe
variable {W r r' d d' e p p' c : Nat}

theorem deeper (h : RateLe W r d p) (hd : d ≤ e) : RateLe W r e p :=
  Nat.le_trans h (Nat.mul_le_mul_left _ (Nat.mul_le_mul_right _ (pow_mono hd)))

theorem more (h : RateLe W r d p) (hp : p ≤ p') : RateLe W r d p' :=
  Nat.le_trans h (Nat.mul_le_mul_left _ (Nat.mul_le_mul_left _ hp))

theorem leaf (hc : c ≤ W) : RateLe W c d 1 := by
  unfold RateLe
  rw [Nat.mul_one]
  have : W * 1 ≤ W * 2 ^ d := Nat.mul_le_mul_left W (pow_mono (Nat.zero_le d))
  omega

theorem add (h : RateLe W r d p) (h' : RateLe W r' d p') : RateLe W (r + r') d (p + p') := by
  unfold RateLe
  rw [Nat.mul_add, Nat.mul_add]
  exact Nat.add_le_add h h'

theorem plus (h : RateLe W r d p) (hc : c ≤ W) : RateLe W (c + r) d (1 + p) := (leaf hc).add h

theorem times (n : Nat) (h : RateLe W r d p) : RateLe W (n * r) d (n * p) := by
  unfold RateLe
  have := Nat.mul_le_mul_left n h
  have e : n * (W * (2 ^ d * p)) = W * (2 ^ d * (n * p)) := by
    rw [Nat.mul_left_comm, Nat.mul_left_comm n]
  omega

theorem twice (h : RateLe W r d p) (hc : c ≤ 2 * W) : RateLe W (c + 2 * r) (1 + d) (1 + p) := by
  unfold RateLe
  have e : W * (2 ^ (1 + d) * (1 + p)) = 2 * (W * 2 ^ d) + 2 * (W * (2 ^ d * p)) := by
    rw [Nat.pow_add, Nat.pow_one, Nat.mul_add, Nat.mul_one, Nat.mul_add, Nat.mul_assoc,
      Nat.mul_left_comm W 2, Nat.mul_left_comm W 2]
  have e' : W * 1 ≤ W * 2 ^ d := Nat.mul_le_mul_left W (pow_mono (Nat.zero_le d))
  have h : r ≤ W * (2 ^ d * p) := h
  omega

end RateLe

mutual

theorem rate_le (w : Weights) : (t : Ty) → Everywhere FrugalAt t →
    RateLe w.total (rate w t) (nest t) (parts t)
  | .num k, _ | .bool, _ | .char, _ | .usize, _ | .isize, _ | .nonZero r, _ | .unit _, _
  | .infallible, _ | .duration, _ | .systemTime _, _ | .ipv4, _ | .ipv6, _ | .ipAddr, _
  | .socketAddrV4, _ | .socketAddrV6, _ | .socketAddr, _ | .sizedStr _, _ => by
    simp only [rate, nest, parts]
    exact .leaf (by unfold Weights.total; omega)
  | .str _, _ | .cStr _, _ => by
    simp only [rate, nest, parts]
    exact .leaf (by unfold Weights.total; omega)
  | .wrap k t, h => by
    have ih := rate_le w t h.2
    cases k <;> (simp only [rate, nest, parts]; exact ih.plus (by unfold Weights.total; omega))
  | .array t n, h => by
    simp only [rate, nest, parts]
    exact ((rate_le w t h.2).times n).plus (by unfold Weights.total; omega)
  | .sizedSlice t n, h => by
    simp only [rate, nest, parts]
    exact ((rate_le w t h.2).times n).plus (by unfold Weights.total; omega)
  | .seq .linkedList t, h => by
    simp only [rate, nest, parts, perOctet, if_pos (show Eats t from h.1)]
    rw [Nat.mul_add, ← Nat.add_assoc]
    exact (rate_le w t h.2).twice (by unfold Weights.total; omega)
  | .seq .vec t, h => by
    simp only [rate, nest, parts, perOctet, if_pos (show Eats t from h.1)]
    rw [Nat.mul_add, ← Nat.add_assoc]
    exact (rate_le w t h.2).twice (by unfold Weights.total; omega)
  | .seq .slice t, h => by
    simp only [rate, nest, parts, perOctet, if_pos (show Eats t from h.1)]
    rw [Nat.mul_add, ← Nat.add_assoc]
    exact (rate_le w t h.2).twice (by unfold Weights.total; omega)
  | .hashMap k v, h => by
    simp only [rate, nest, parts, perOctet, if_pos (show Eats k ∨ Eats v from h.1)]
    rw [Nat.mul_add, ← Nat.add_assoc]
    exact (((rate_le w k h.2.1).deeper (Nat.le_max_left _ _)).add
      ((rate_le w v h.2.2).deeper (Nat.le_max_right _ _))).twice (by unfold Weights.total; omega)
  | .hashSet k, h => by
    simp only [rate, nest, parts, perOctet, if_pos (show Eats k from h.1)]
    rw [Nat.mul_add, ← Nat.add_assoc]
    exact (rate_le w k h.2).twice (by unfold Weights.total; omega)
  | .option t, h => by
    simp only [rate, nest, parts]
    exact (rate_le w t h.2).plus (by unfold Weights.total; omega)
  | .bound t, h => by
    simp only [rate, nest, parts]
    exact (rate_le w t h.2).plus (by unfold Weights.total; omega)
  | .lock _ t, h => by
    simp only [rate, nest, parts]
    exact (rate_le w t h.2).plus (by unfold Weights.total; omega)
  | .refCell t, h => by
    simp only [rate, nest, parts]
    exact (rate_le w t h.2).plus (by unfold Weights.total; omega)
  | .range t, h => by
    simp only [rate, nest, parts]
    exact ((rate_le w t h.2).add (rate_le w t h.2)).plus (by unfold Weights.total; omega)
  | .rangeInclusive t, h => by
    simp only [rate, nest, parts]
    exact ((rate_le w t h.2).add (rate_le w t h.2)).plus (by unfold Weights.total; omega)
  | .result t e, h => by
    simp only [rate, nest, parts]
    refine RateLe.plus ?_ (by unfold Weights.total; omega)
    have h1 := (rate_le w t h.2.1).deeper (Nat.le_max_left (nest t) (nest e))
    have h2 := (rate_le w e h.2.2).deeper (Nat.le_max_right (nest t) (nest e))
    exact Nat.max_le.mpr ⟨h1.more (Nat.le_add_right _ _), h2.more (Nat.le_add_left _ _)⟩
  | .tuple fs, h => by
    simp only [rate, nest, parts]
    exact (rateFields_le w fs h.2).plus (by unfold Weights.total; omega)
  | .struct fs, h => by
    simp only [rate, nest, parts]
    exact (rateFields_le w fs h.2).plus (by unfold Weights.total; omega)
  | .enum _ vs, h => by
    simp only [rate, nest, parts]
    exact (rateVariants_le w vs h.2).plus (by unfold Weights.total; omega)

theorem rateFields_le (w : Weights) : (fs : Fields) → EverywhereFields FrugalAt fs →
    RateLe w.total (rateFields w fs) (nestFields fs) (partsFields fs)
  | .nil, _ => Nat.zero_le _
  | .cons t fs, h => ((rate_le w t h.1).deeper (Nat.le_max_left _ _)).add
      ((rateFields_le w fs h.2).deeper (Nat.le_max_right _ _))

theorem rateVariants_le (w : Weights) : (vs : Variants) → EverywhereVariants FrugalAt vs →
    RateLe w.total (rateVariants w vs) (nestVariants vs) (partsVariants vs)
  | .nil, _ => Nat.zero_le _
  | .cons _ fs vs, h => by
    simp only [rateVariants, nestVariants, partsVariants]
    have h1 := (rateFields_le w fs h.1).deeper (Nat.le_max_left (nestFields fs) (nestVariants vs))
    have h2 := (rateVariants_le w vs h.2).deeper (Nat.le_max_right (nestFields fs) (nestVariants vs))
    exact Nat.max_le.mpr ⟨h1.more (Nat.le_add_right _ _), h2.more (Nat.le_add_left _ _)⟩

end

mutual

theorem pending_le (w : Weights) : (t : Ty) → pending w t ≤ 65535 * w.cell * nest t
  | .num k | .bool | .char | .usize | .isize | .nonZero r | .unit _ | .infallible | .duration
  | .systemTime _ | .ipv4 | .ipv6 | .ipAddr | .socketAddrV4 | .socketAddrV6 | .socketAddr | .sizedStr _
  | .str _ | .cStr _ => Nat.zero_le _
  | .wrap _ t => pending_le w t
  | .array t n => pending_le w t
  | .sizedSlice t n => pending_le w t
  | .seq .linkedList t => by
    have := pending_le w t
    simp only [pending, nest, Nat.mul_add]
    omega
  | .seq .vec t => by
    have := pending_le w t
    simp only [pending, nest, Nat.mul_add, Nat.mul_one]
    omega
  | .seq .slice t => by
    have := pending_le w t
    simp only [pending, nest, Nat.mul_add, Nat.mul_one]
    omega
  | .hashMap k v => by
    simp only [pending, nest, Nat.mul_add, Nat.mul_one]
    refine Nat.add_le_add_left (Nat.max_le.mpr ⟨?_, ?_⟩) _
    · exact Nat.le_trans (pending_le w k) (Nat.mul_le_mul_left _ (Nat.le_max_left _ _))
    · exact Nat.le_trans (pending_le w v) (Nat.mul_le_mul_left _ (Nat.le_max_right _ _))
  | .hashSet k => by
    have := pending_le w k
    simp only [pending, nest, Nat.mul_add, Nat.mul_one]
    omega
  | .option t => pending_le w t
  | .bound t => pending_le w t
  | .lock _ t => pending_le w t
  | .refCell t => pending_le w t
  | .range t => pending_le w t
  | .rangeInclusive t => pending_le w t
  | .result t e => by
    simp only [pending, nest]
    refine Nat.max_le.mpr ⟨?_, ?_⟩
    · exact Nat.le_trans (pending_le w t) (Nat.mul_le_mul_left _ (Nat.le_max_left _ _))
    · exact Nat.le_trans (pending_le w e) (Nat.mul_le_mul_left _ (Nat.le_max_right _ _))
  | .tuple fs => pendingFields_le w fs
  | .struct fs => pendingFields_le w fs
  | .enum _ vs => pendingVariants_le w vs

theorem pendingFields_le (w : Weights) :
    (fs : Fields) → pendingFields w fs ≤ 65535 * w.cell * nestFields fs
  | .nil => Nat.zero_le _
  | .cons t fs => by
    simp only [pendingFields, nestFields]
    refine Nat.max_le.mpr ⟨?_, ?_⟩
    · exact Nat.le_trans (pending_le w t) (Nat.mul_le_mul_left _ (Nat.le_max_left _ _))
    · exact Nat.le_trans (pendingFields_le w fs) (Nat.mul_le_mul_left _ (Nat.le_max_right _ _))

theorem pendingVariants_le (w : Weights) :
    (vs : Variants) → pendingVariants w vs ≤ 65535 * w.cell * nestVariants vs
  | .nil => Nat.zero_le _
  | .cons _ fs vs => by
    simp only [pendingVariants, nestVariants]
    refine Nat.max_le.mpr ⟨?_, ?_⟩
    · exact Nat.le_trans (pendingFields_le w fs) (Nat.mul_le_mul_left _ (Nat.le_max_left _ _))
    · exact Nat.le_trans (pendingVariants_le w vs) (Nat.mul_le_mul_left _ (Nat.le_max_right _ _))

end

theorem Cost.bind_ok {α β : Type} {m : Cost α} {f : α → Cost β} {I I' : Input} {a : α} {c : Nat}
    (h : m I = ((.ok a, I'), c)) : m.bind f I = ((f a I').1, c + (f a I').2) := by
  unfold Cost.bind
  rw [h]

/-- A loop over items that need no input runs as often as the length says. -/
theorem costItems_idle {α : Type} {m : Cost α} {a : α} {c : Nat} (h : ∀ I, m I = ((.ok a, I), c))
    (node : Nat) : ∀ n i (I : Input), ∃ vs, costItems node m n i I = ((.ok vs, I), n * (c + node))
  | 0, _, I => ⟨_, by rw [Nat.zero_mul]; rfl⟩
  | n + 1, i, I => by
    obtain ⟨vs, hv⟩ := costItems_idle h node n (i + 1) I
    refine ⟨⟨a :: vs.val, by simp [vs.property]⟩, ?_⟩
    have e : ∀ (f : Items α n → Items α (n + 1)),
        ((costItems node m n (i + 1)).map f) I = ((.ok (f vs), I), n * (c + node)) := by
      intro f
      unfold Cost.map Cost.bind
      rw [hv]
      rfl
    have e1 : (m.mapErr fun e => .badItem (.item i e)) I = ((.ok a, I), c) := by
      unfold Cost.mapErr
      rw [h I]
      rfl
    unfold costItems
    rw [Cost.bind_ok e1, Cost.bind_ok (show Cost.tick node I = ((.ok (), I), node) from rfl), e,
      Nat.succ_mul]
    simp only
    rw [show c + (node + n * (c + node)) = n * (c + node) + (c + node) by omega]

theorem costVec_idle {α : Type} {m : Cost α} {a : α} {c len : Nat} {I I' : Input} (w : Weights)
    (h : ∀ I, m I = ((.ok a, I), c)) (hu : decUsize I = (.ok len, I')) :
    ∃ l, costVec w m I = ((.ok l, I'), w.call + (w.buffer len + len * c)) := by
  obtain ⟨vs, hv⟩ := costItems_idle h 0 len 0 I'
  refine ⟨vs.val, ?_⟩
  unfold costVec
  have e : Cost.of w.call decUsize I = ((.ok len, I'), w.call) := by
    unfold Cost.of
    rw [hu]
  rw [Cost.bind_ok e, Cost.bind_ok (show Cost.tick _ I' = ((.ok (), I'), _) from rfl)]
  unfold Cost.map
  rw [Cost.bind_ok hv]
  rfl

theorem costList_idle {α : Type} {m : Cost α} {a : α} {c len : Nat} {I I' : Input} (w : Weights)
    (h : ∀ I, m I = ((.ok a, I), c)) (hu : decUsize I = (.ok len, I')) :
    ∃ l, costList w m I = ((.ok l, I'), w.call + len * (c + w.alloc)) := by
  obtain ⟨vs, hv⟩ := costItems_idle h w.alloc len 0 I'
  refine ⟨vs.val, ?_⟩
  unfold costList
  have e : Cost.of w.call decUsize I = ((.ok len, I'), w.call) := by
    unfold Cost.of
    rw [hu]
  rw [Cost.bind_ok e]
  unfold Cost.map
  rw [Cost.bind_ok hv]
  rfl

/-- If the first item is lacking, the buffer has been made all the same. -/
theorem costVec_lacking {α : Type} {m : Cost α} {c len : Nat} {I I' I'' : Input} (w : Weights) {p : Panic}
    (h : m I' = ((.panic p, I''), c)) (hu : decUsize I = (.ok (len + 1), I')) :
    costVec w m I = ((.panic p, I''), w.call + (w.buffer (len + 1) + c)) := by
  unfold costVec
  have e : Cost.of w.call decUsize I = ((.ok (len + 1), I'), w.call) := by
    unfold Cost.of
    rw [hu]
  rw [Cost.bind_ok e, Cost.bind_ok (show Cost.tick _ I' = ((.ok (), I'), _) from rfl)]
  have e1 : costItems 0 m (len + 1) 0 I' = ((.panic p, I''), c) := by
    unfold costItems Cost.bind Cost.mapErr
    simp only [h]
    rfl
  unfold Cost.map
  have e2 : ∀ f : Items α (len + 1) → Cost (List α),
      (costItems 0 m (len + 1) 0).bind f I' = ((.panic p, I''), c) := by
    intro f
    show Cost.bind _ f I' = _
    unfold Cost.bind
    rw [e1]
  rw [e2]

end Oct
