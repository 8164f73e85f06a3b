import Verif.Proofs.Cost
/-
What decoding costs, for each type.
-/
namespace Oct
open Spec
set_option linter.unusedVariables false
variable {α β γ : Type}

theorem decUsize_le {x : Nat} {i i' : Input} (h : decUsize i = (.ok x, i')) : x ≤ 65535 := by
  obtain ⟨b0, b1, rest, -, hx, -⟩ := decUsize_ok h
  have := b0.toNat_lt
  have := b1.toNat_lt
  omega

/-- A length is at most 65535. -/
theorem Fits.bindLen {B Q c : Nat} {f : Nat → Cost β} (hf : ∀ n, n ≤ 65535 → Fits B Q (f n)) :
    Fits (c + B) Q ((Cost.of c decUsize).bind f) := by
  have e : (Cost.of c decUsize).bind f = (Cost.of c decUsize).bind fun n => f (min n 65535) := by
    funext I
    unfold Cost.bind Cost.of
    rcases hq : decUsize I with ⟨r, I1⟩
    cases r with
    | ok n =>
      have := decUsize_le hq
      simp only
      rw [Nat.min_eq_left this]
    | err e => rfl
    | panic p => rfl
    | ub u => rfl
  rw [e]
  exact ((Fits.of decUsize_local c).bind fun n => hf _ (by omega)).mono (Nat.le_refl _) (by simp)

theorem Fits.less {A P c c' : Nat} {m : Cost α} (h : Fits A P ((Cost.tick c).bind fun _ => m))
    (hc : c' ≤ c) : Fits A P ((Cost.tick c').bind fun _ => m) := by
  intro I hI
  obtain ⟨w, p, l⟩ := h I hI
  refine ⟨w, p, Nat.le_trans (?_ : c' + (m I).2 ≤ c + (m I).2) l⟩
  omega

theorem Weights.buffer_le (w : Weights) (n : Nat) : w.buffer n ≤ w.alloc + w.cell * n := by
  unfold Weights.buffer
  split
  · exact Nat.zero_le _
  · exact Nat.le_refl _

theorem Cost.tick_tick (a b : Nat) (m : Cost α) :
    ((Cost.tick (a + b)).bind fun _ => m) = (Cost.tick a).bind fun _ => (Cost.tick b).bind fun _ => m := by
  funext I
  show ((m I).1, a + b + (m I).2) = ((m I).1, a + (b + (m I).2))
  rw [Nat.add_assoc]

/-- A loop whose rounds are counted by a length, after a buffer has been made for the items. -/
theorem LoopFits.buffered {eats : Prop} [Decidable eats] {n A P : Nat} {m : Cost α} (w : Weights)
    (hn : n ≤ 65535) (h : LoopFits (decide eats) n A P m) :
    Fits (w.alloc + perOctet eats * (w.cell + A)) (65535 * w.cell + P)
      ((Cost.tick (w.buffer n)).bind fun _ => m) := by
  refine Fits.less ?_ (w.buffer_le n)
  rw [Cost.tick_tick]
  exact (h.counted hn).after _

/-- A loop whose rounds are counted by a length. -/
theorem LoopFits.listed {eats : Prop} [Decidable eats] {n A P : Nat} {m : Cost α}
    (hn : n ≤ 65535) (h : LoopFits (decide eats) n A P m) : Fits (perOctet eats * A) P m := by
  have := h.counted (cell := 0) hn
  rw [Nat.zero_add, Nat.mul_zero, Nat.zero_add, Nat.zero_mul] at this
  intro I hI
  obtain ⟨w, p, l⟩ := this I hI
  refine ⟨w, p, Nat.le_trans (?_ : (m I).2 ≤ 0 + (m I).2) l⟩
  omega

theorem costFixed_fits {A P : Nat} {m : Cost α} (h : Fits A P m) (n i : Nat) :
    Fits (n * A) P (costItems 0 m n i) := by
  have h1 := costItems_fits h false (fun h => by cases h) 0 n i
  rw [Nat.zero_add] at h1
  rcases h1.fixed with h2 | h2
  · exact h2
  · subst h2
    rw [Nat.zero_mul]
    exact (Fits.of (Local.pure' _) 0).mono (Nat.le_refl _) (Nat.zero_le _)

theorem costVec_fits {A P : Nat} {m : Cost α} (w : Weights) (eats : Prop) [Decidable eats]
    (h : Fits A P m) (hE : eats → EatsC m) :
    Fits (w.call + w.alloc + perOctet eats * (w.cell + A)) (65535 * w.cell + P) (costVec w m) := by
  rw [Nat.add_assoc]
  refine Fits.bindLen fun n hn => LoopFits.buffered w hn (LoopFits.map ?_ _)
  have := costItems_fits h (decide eats) (fun he => hE (of_decide_eq_true he)) 0 n 0
  rwa [Nat.zero_add] at this

theorem costList_fits {A P : Nat} {m : Cost α} (w : Weights) (eats : Prop) [Decidable eats]
    (h : Fits A P m) (hE : eats → EatsC m) :
    Fits (w.call + perOctet eats * (w.alloc + A)) P (costList w m) :=
  Fits.bindLen fun n hn => LoopFits.listed hn
    ((costItems_fits h (decide eats) (fun he => hE (of_decide_eq_true he)) w.alloc n 0).map _)

theorem costHashMap_fits [DecidableEq α] {A P B Q : Nat} {mK : Cost α} {mV : Cost β} (w : Weights)
    (eats : Prop) [Decidable eats] (hK : Fits A P mK) (hV : Fits B Q mV)
    (hE : eats → EatsC mK ∨ EatsC mV) :
    Fits (w.call + w.alloc + perOctet eats * (w.cell + (A + B))) (65535 * w.cell + max P Q)
      (costHashMap w mK mV) := by
  rw [Nat.add_assoc]
  exact Fits.bindLen fun n hn => LoopFits.buffered w hn
    (costMapLoop_fits hK hV (decide eats) (fun he => hE (of_decide_eq_true he)) n 0 _)

theorem costHashSet_fits [DecidableEq α] {A P : Nat} {mK : Cost α} (w : Weights)
    (eats : Prop) [Decidable eats] (hK : Fits A P mK) (hE : eats → EatsC mK) :
    Fits (w.call + w.alloc + perOctet eats * (w.cell + A)) (65535 * w.cell + P)
      (costHashSet w mK) := by
  rw [Nat.add_assoc]
  exact Fits.bindLen fun n hn => LoopFits.buffered w hn
    (costSetLoop_fits hK (decide eats) (fun he => hE (of_decide_eq_true he)) n 0 _)

theorem costSized_fits {A P : Nat} {m : Cost α} (w : Weights) (h : Fits A P m) (n : Nat) :
    Fits (w.call + n * A) P (costSized w m n) :=
  Fits.bindLen fun len _ => Fits.ite
    ((Fits.of (Local.fail _) 0).mono (Nat.zero_le _) (Nat.zero_le _)) ((costFixed_fits h n 0).map _)

theorem decString_len {s : {bs : List Byte // Utf8.valid bs = true}} {I I' : Input}
    (h : decString I = (.ok s, I')) : I'.pos = I.pos + 2 + s.val.length := by
  rw [decString_eq] at h
  obtain ⟨n, I1, h1, h2⟩ := Dec.bind_ok h
  obtain ⟨d, I2, h3, h4⟩ := Dec.bind_ok h2
  obtain ⟨-, -, -, -, -, e1⟩ := decUsize_ok h1
  obtain ⟨-, e2, e3⟩ := Dec.read_ok h3
  have : s.val = d ∧ I2 = I' := by
    cases hv : Utf8.check d with
    | none =>
      rw [strOf_valid d (by unfold Utf8.valid; rw [hv]; rfl)] at h4
      obtain ⟨e, e'⟩ := Dec.pure_ok h4
      exact ⟨by rw [← e], e'⟩
    | some j =>
      obtain ⟨c, -, h5⟩ := strOf_invalid d j hv
      rw [h5] at h4
      cases h4
  rw [← this.2, this.1, e2, e1, e3]

theorem decCString_len {s : {bs : List Byte // 0 ∉ bs}} {I I' : Input}
    (h : decCString I = (.ok s, I')) : I'.pos = I.pos + 2 + s.val.length := by
  obtain ⟨n, I1, h1, h2⟩ := Dec.bind_ok h
  obtain ⟨d, I2, h3, h4⟩ := Dec.bind_ok h2
  obtain ⟨-, -, -, -, -, e1⟩ := decUsize_ok h1
  obtain ⟨-, e2, e3⟩ := Dec.read_ok h3
  have : s.val = d ∧ I2 = I' := by
    split at h4
    · obtain ⟨e, e'⟩ := Dec.pure_ok h4
      exact ⟨by rw [← e], e'⟩
    · cases h4
  rw [← this.2, this.1, e2, e1, e3]

/-- A text, and a buffer for it. -/
theorem costText_fits {d : Dec α} (w : Weights) (hl : Local d) (len : α → Nat) (extra : Nat)
    (he : extra ≤ 1) (h : ∀ a I I', d I = (.ok a, I') → I'.pos = I.pos + 2 + len a) :
    Fits (w.call + (w.alloc + w.cell)) 0
      ((Cost.of w.call d).bind fun a => Cost.of (w.buffer (len a + extra)) (pure a)) := by
  intro I hI
  have h0 := Fits.of hl w.call I hI
  unfold Cost.bind
  have e : Cost.of w.call d I = (d I, w.call) := rfl
  rw [e] at h0 ⊢
  have h := fun a => h a I
  generalize d I = q at h0 h ⊢
  obtain ⟨r, I1⟩ := q
  obtain ⟨w1, p1, l1⟩ := h0
  simp only at w1 p1 l1
  cases r with
  | ok a =>
    refine ⟨w1, p1, ?_⟩
    have h := h a I1 rfl
    show w.call + w.buffer (len a + extra) ≤ (w.call + (w.alloc + w.cell)) * (1 + (I1.pos - I.pos)) + 0
    have h1 := w.buffer_le (len a + extra)
    have h2 : w.cell * (len a + extra) ≤ w.cell * (1 + (I1.pos - I.pos)) :=
      Nat.mul_le_mul_left _ (by omega)
    have h3 : (w.call + w.alloc) * 1 ≤ (w.call + w.alloc) * (1 + (I1.pos - I.pos)) :=
      Nat.mul_le_mul_left _ (by omega)
    rw [← Nat.add_assoc, Nat.add_mul _ w.cell]
    omega
  | err e =>
    exact ⟨w1, p1, Nat.le_trans l1 (Nat.add_le_add_right (Nat.mul_le_mul_right _ (by omega)) _)⟩
  | panic e =>
    exact ⟨w1, p1, Nat.le_trans l1 (Nat.add_le_add_right (Nat.mul_le_mul_right _ (by omega)) _)⟩
  | ub e =>
    exact ⟨w1, p1, Nat.le_trans l1 (Nat.add_le_add_right (Nat.mul_le_mul_right _ (by omega)) _)⟩

theorem Local.advances {m : Dec α} (h : Local m) (I : Input) (hI : I.WF) :
    (m I).2.buf = I.buf ∧ I.pos ≤ (m I).2.pos := by
  obtain ⟨buf, pos⟩ := I
  have hp : pos ≤ buf.length := hI
  obtain ⟨r, n, hn, h1, _⟩ := h (buf.drop pos)
  have := h1 (buf.take pos)
  rw [List.take_append_drop, List.length_take, Nat.min_eq_left hp] at this
  rw [this]
  exact ⟨rfl, Nat.le_add_right _ _⟩

theorem Ty.cost_eats (w : Weights) (t : Ty) (h : Eats t) : EatsC (t.cost w) := by
  intro I hI hc
  rw [t.cost_same w I] at hc ⊢
  have h1 := t.decode_eats h I hI
  have h2 := t.decode_local.advances I hI
  generalize t.decode I = q at hc h1 h2 ⊢
  obtain ⟨r, I1⟩ := q
  cases r with
  | ok a =>
    have h1 : I1.buf.length - I1.pos < I.buf.length - I.pos := h1 a I1 rfl
    have h2 : I1.buf = I.buf := h2.1
    rw [h2] at h1
    show I.pos < I1.pos
    omega
  | err e => cases hc
  | panic p => cases hc
  | ub u => cases hc

mutual

theorem Ty.cost_fits (w : Weights) : (t : Ty) → Fits (rate w t) (pending w t) (t.cost w)
  | .num k => Fits.of (Ty.num k).decode_local _
  | .bool => Fits.of decBool_local _
  | .char => Fits.of decChar_local _
  | .usize => Fits.of decUsize_local _
  | .isize => Fits.of decIsize_local _
  | .nonZero r => Fits.of (decNonZero_local r) _
  | .unit _ => Fits.of (Local.pure' _) _
  | .infallible => Fits.of (Local.panic _) _
  | .wrap k t => by
    have h := ((t.cost_fits w).bind fun v => Fits.of (Local.pure' v) (k.cost w)).after w.call
    refine h.mono ?_ (by simp [pending])
    cases k <;> (simp only [rate, Wrap.cost]; omega)
  | .array t n => (costFixed_fits (t.cost_fits w) n 0).after _
  | .seq .linkedList t => costList_fits w (Eats t) (t.cost_fits w) (t.cost_eats w)
  | .seq .vec t => costVec_fits w (Eats t) (t.cost_fits w) (t.cost_eats w)
  | .seq .slice t => costVec_fits w (Eats t) (t.cost_fits w) (t.cost_eats w)
  | .hashMap k v => @costHashMap_fits _ _ k.decEq _ _ _ _ _ _ w (Eats k ∨ Eats v) _ (k.cost_fits w)
      (v.cost_fits w) (Or.imp (k.cost_eats w) (v.cost_eats w))
  | .hashSet k => @costHashSet_fits _ k.decEq _ _ _ w (Eats k) _ (k.cost_fits w) (k.cost_eats w)
  | .option t => by
    refine ((Fits.of decBool_local w.call).bind fun _ => Fits.ite ((t.cost_fits w).map _)
      ((Fits.of (Local.pure' _) 0).mono (Nat.zero_le _) (Nat.zero_le _))).mono ?_ ?_
    · exact Nat.le_refl _
    · simp [pending]
  | .result t e => by
    refine ((Fits.of decBool_local w.call).bind fun _ => Fits.ite
      ((((e.cost_fits w).mapErr _).map _).mono (Nat.le_max_right (rate w t) _)
        (Nat.le_max_right (pending w t) _))
      ((((t.cost_fits w).mapErr _).map _).mono (Nat.le_max_left _ _) (Nat.le_max_left _ _))).mono ?_ ?_
    · exact Nat.le_refl _
    · simp only [pending, Nat.zero_max, Nat.le_refl]
  | .bound t => by
    refine ((Fits.of decU8_local w.call).bind fun _ => Fits.ite (((t.cost_fits w).mapErr _).map _)
      (Fits.ite (((t.cost_fits w).mapErr _).map _) (Fits.ite
        ((Fits.of (Local.pure' _) 0).mono (Nat.zero_le _) (Nat.zero_le _))
        ((Fits.of (Local.fail _) 0).mono (Nat.zero_le _) (Nat.zero_le _))))).mono ?_ ?_
    · exact Nat.le_refl _
    · simp [pending]
  | .range t => by
    refine (((t.cost_fits w).bind fun _ => (t.cost_fits w).map _).after _).mono ?_ ?_
    · exact Nat.le_refl _
    · simp [pending]
  | .rangeInclusive t => by
    refine (((t.cost_fits w).bind fun _ => (t.cost_fits w).map _).after _).mono ?_ ?_
    · exact Nat.le_refl _
    · simp [pending]
  | .lock _ t => ((t.cost_fits w).map _).after _
  | .refCell t => ((t.cost_fits w).map _).after _
  | .duration => Fits.of Ty.duration.decode_local _
  | .systemTime p => Fits.of (Ty.systemTime p).decode_local _
  | .ipv4 => Fits.of Ty.ipv4.decode_local _
  | .ipv6 => Fits.of Ty.ipv6.decode_local _
  | .ipAddr => Fits.of Ty.ipAddr.decode_local _
  | .socketAddrV4 => Fits.of Ty.socketAddrV4.decode_local _
  | .socketAddrV6 => Fits.of Ty.socketAddrV6.decode_local _
  | .socketAddr => Fits.of Ty.socketAddr.decode_local _
  | .str _ => costText_fits w decString_local (fun s => s.val.length) 0 (by omega)
      fun _ _ _ h => decString_len h
  | .cStr _ => costText_fits w decCString_local (fun s => s.val.length) 1 (by omega)
      fun _ _ _ h => decCString_len h
  | .sizedStr n => Fits.of (Ty.sizedStr n).decode_local _
  | .sizedSlice t n => costSized_fits w (t.cost_fits w) n
  | .tuple fs => (fs.cost_fits w _).after _
  | .struct fs => (fs.cost_fits w _).after _
  | .enum r vs => by
    refine ((Fits.of (decRepr_local r) w.call).bind fun x => vs.cost_fits w none x).mono ?_ ?_
    · exact Nat.le_refl _
    · simp [pending]

theorem Fields.cost_fits (w : Weights) :
    (fs : Fields) → ∀ g, Fits (rateFields w fs) (pendingFields w fs) (fs.cost w g)
  | .nil, _ => Fits.of (Local.pure' _) _
  | .cons t fs, g => ((t.cost_fits w).mapErr g).bind fun _ => (fs.cost_fits w g).map _

theorem Variants.cost_fits (w : Weights) :
    (vs : Variants) → ∀ p x, Fits (rateVariants w vs) (pendingVariants w vs) (vs.cost w p x)
  | .nil, _, _ => Fits.of (Local.fail _) _
  | .cons d fs vs, p, x => by
    unfold Variants.cost
    exact Fits.ite (((fs.cost_fits w _).map _).mono (Nat.le_max_left _ _) (Nat.le_max_left _ _))
      (((vs.cost_fits w _ _).map _).mono (Nat.le_max_right _ _) (Nat.le_max_right _ _))

end

end Oct
