import Verif.Proofs.Cost
import Verif.Proofs.Track
/-
The two accounts agree: as many allocations are charged for as the account of the heap has.
-/
namespace Oct
open Spec
set_option linter.unusedVariables false
variable {α β γ : Type}

/-- The two accounts agree. -/
def Agrees (m : Track α) (c : Cost α) : Prop :=
  ∀ I n, (m I n).res = (c I).1.1 ∧ (m I n).rest = (c I).1.2 ∧ (m I n).next = n + (c I).2

namespace Agrees

theorem of (d : Dec α) : Agrees (Track.of d) (Cost.of 0 d) := fun _ _ => ⟨rfl, rfl, rfl⟩

theorem alloc (a : α) : Agrees (Track.alloc a) (Cost.of 1 (pure a)) := fun _ _ => ⟨rfl, rfl, rfl⟩

theorem mapErr {m : Track α} {c : Cost α} (h : Agrees m c) (g : DecErr → DecErr) :
    Agrees (m.mapErr g) (c.mapErr g) := fun I n => by
  unfold Track.mapErr Cost.mapErr
  simp only
  rw [(h I n).1, (h I n).2.1, (h I n).2.2]
  exact ⟨rfl, rfl, rfl⟩

theorem after_next (raw : Bool) (x : Tracked α) (y : Tracked β) :
    (Track.after raw x y).next = y.next := by
  unfold Track.after
  cases h : y.res <;> rfl

theorem bindWith {raw : Bool} {m : Track α} {c : Cost α} {f : α → Track β} {g : α → Cost β}
    (h : Agrees m c) (hf : ∀ a, Agrees (f a) (g a)) : Agrees (Track.bindWith raw m f) (c.bind g) := by
  intro I n
  unfold Track.bindWith Cost.bind
  obtain ⟨h1, h2, h3⟩ := h I n
  simp only
  generalize c I = q at h1 h2 h3 ⊢
  obtain ⟨⟨r, I1⟩, k⟩ := q
  simp only at h1 h2 h3
  cases r with
  | ok a =>
    rw [h1]
    simp only
    rw [(Erases.after_res _ _ _).1, (Erases.after_res _ _ _).2, after_next, h2, h3]
    obtain ⟨e1, e2, e3⟩ := hf a I1 (n + k)
    exact ⟨e1, e2, by rw [e3, Nat.add_assoc]⟩
  | err e => rw [h1]; exact ⟨rfl, h2, h3⟩
  | panic p => rw [h1]; exact ⟨rfl, h2, h3⟩
  | ub u => rw [h1]; exact ⟨rfl, h2, h3⟩

theorem bind {m : Track α} {c : Cost α} {f : α → Track β} {g : α → Cost β}
    (h : Agrees m c) (hf : ∀ a, Agrees (f a) (g a)) : Agrees (Track.bind m f) (c.bind g) :=
  bindWith h hf

theorem map {m : Track α} {c : Cost α} (h : Agrees m c) (f : α → β) : Agrees (m.map f) (c.map f) := by
  intro I n
  unfold Track.map Cost.map Cost.bind
  obtain ⟨h1, h2, h3⟩ := h I n
  simp only
  generalize c I = q at h1 h2 h3 ⊢
  obtain ⟨⟨r, I1⟩, k⟩ := q
  simp only at h1 h2 h3
  rw [h1, h2, h3]
  cases r <;> exact ⟨rfl, rfl, rfl⟩

theorem keep {m : Track α} {c : Cost α} (h : Agrees m c) : Agrees m.keep c := h

theorem ite {p : Prop} [Decidable p] {m m' : Track α} {c c' : Cost α} (h : Agrees m c)
    (h' : Agrees m' c') : Agrees (if p then m else m') (if p then c else c') := by
  split
  · exact h
  · exact h'

/-- Calls are free. -/
theorem free {m : Track α} {c : Cost α} (h : Agrees m c) :
    Agrees m ((Cost.tick 0).bind fun _ => c) := by
  intro I n
  obtain ⟨h1, h2, h3⟩ := h I n
  refine ⟨h1, h2, h3.trans ?_⟩
  show n + (c I).2 = n + (0 + (c I).2)
  rw [Nat.zero_add]

end Agrees

theorem trackItems_agrees {m : Track α} {c : Cost α} (h : Agrees m c) :
    ∀ n i, Agrees (trackItems m n i) (costItems 0 c n i)
  | 0, _ => .of _
  | n + 1, i => (h.mapErr _).bindWith fun v => ((trackItems_agrees h n (i + 1)).map _).free

theorem trackNodes_agrees {m : Track α} {c : Cost α} (h : Agrees m c) :
    ∀ n i, Agrees (trackNodes m n i) (costItems 1 c n i)
  | 0, _ => .of _
  | n + 1, i => (h.mapErr _).bind fun v => (Agrees.alloc ()).bind fun _ =>
      (trackNodes_agrees h n (i + 1)).map _

theorem trackBuffer_agrees (len : Nat) :
    Agrees (trackBuffer len) (Cost.tick (Weights.allocs.buffer len)) := by
  unfold trackBuffer Weights.buffer
  split
  · exact .of _
  · show Agrees _ (Cost.of (1 + 0 * len) (pure ()))
    rw [Nat.zero_mul]
    exact .alloc ()

theorem trackMapLoop_agrees [DecidableEq α] {mK : Track α} {cK : Cost α} {mV : Track β} {cV : Cost β}
    (hK : Agrees mK cK) (hV : Agrees mV cV) : ∀ c i m h,
    Agrees (trackMapLoop mK mV c i m h) (costMapLoop cK cV c i m)
  | 0, _, _, _ => fun _ _ => ⟨rfl, rfl, rfl⟩
  | c + 1, i, m, h => fun I n => by
    unfold trackMapLoop costMapLoop Cost.bind
    obtain ⟨h1, h2, h3⟩ := hK.mapErr (fun e => .badItem (.item i e)) I n
    simp only
    generalize Cost.mapErr (fun e => .badItem (.item i e)) cK I = q at h1 h2 h3 ⊢
    obtain ⟨⟨r, I1⟩, k1⟩ := q
    simp only at h1 h2 h3
    rw [h1]
    cases r with
    | err e => exact ⟨rfl, h2, h3⟩
    | panic p => exact ⟨rfl, h2, h3⟩
    | ub u => exact ⟨rfl, h2, h3⟩
    | ok k =>
      simp only
      rw [h2, h3]
      generalize (Track.mapErr (fun e => .badItem (.item i e)) mK I n) = x
      obtain ⟨h4, h5, h6⟩ := hV.mapErr (fun e => .badItem (.item i e)) I1 (n + k1)
      generalize Cost.mapErr (fun e => .badItem (.item i e)) cV I1 = q at h4 h5 h6 ⊢
      obtain ⟨⟨r, I2⟩, k2⟩ := q
      simp only at h4 h5 h6
      rw [h4]
      cases r with
      | err e => exact ⟨rfl, h5, by rw [← Nat.add_assoc]; exact h6⟩
      | panic p => exact ⟨rfl, h5, by rw [← Nat.add_assoc]; exact h6⟩
      | ub u => exact ⟨rfl, h5, by rw [← Nat.add_assoc]; exact h6⟩
      | ok v =>
        simp only
        rw [h5, h6]
        obtain ⟨e1, e2, e3⟩ := trackMapLoop_agrees hK hV c (i + 1) _ _ I2 (n + k1 + k2)
        exact ⟨e1, e2, e3.trans (by simp only [Nat.add_assoc])⟩

theorem trackSetLoop_agrees [DecidableEq α] {mK : Track α} {cK : Cost α} (hK : Agrees mK cK) :
    ∀ c i s o k, Agrees (trackSetLoop mK c i s o k) (costSetLoop cK c i s)
  | 0, _, _, _, _ => fun _ _ => ⟨rfl, rfl, rfl⟩
  | c + 1, i, s, o, kp => fun I n => by
    unfold trackSetLoop costSetLoop Cost.bind
    obtain ⟨h1, h2, h3⟩ := hK.mapErr (fun e => .badItem (.item i e)) I n
    simp only
    generalize Cost.mapErr (fun e => .badItem (.item i e)) cK I = q at h1 h2 h3 ⊢
    obtain ⟨⟨r, I1⟩, k1⟩ := q
    simp only at h1 h2 h3
    rw [h1]
    cases r with
    | err e => exact ⟨rfl, h2, h3⟩
    | panic p => exact ⟨rfl, h2, h3⟩
    | ub u => exact ⟨rfl, h2, h3⟩
    | ok k =>
      simp only
      rw [h2, h3]
      split
      · obtain ⟨e1, e2, e3⟩ := trackSetLoop_agrees hK c (i + 1)
          ⟨setInsert k s.val, setInsert_nodup k s.val s.property⟩ o kp I1 (n + k1)
        exact ⟨e1, e2, e3.trans (by simp only [Nat.add_assoc])⟩
      · obtain ⟨e1, e2, e3⟩ := trackSetLoop_agrees hK c (i + 1)
          ⟨setInsert k s.val, setInsert_nodup k s.val s.property⟩ _ _ I1 (n + k1)
        exact ⟨e1, e2, e3.trans (by simp only [Nat.add_assoc])⟩

mutual

theorem Ty.track_agrees : (t : Ty) → Agrees t.track (t.cost Weights.allocs)
  | .num k => .of _
  | .bool => .of _
  | .char => .of _
  | .usize => .of _
  | .isize => .of _
  | .nonZero r => .of _
  | .unit _ => .of _
  | .infallible => .of _
  | .wrap w t => by
    refine Agrees.free (t.track_agrees.bind fun v => ?_)
    cases w <;> first | exact .of _ | exact .alloc v
  | .array t n => (trackItems_agrees t.track_agrees n 0).free
  | .seq .linkedList t => (Agrees.of decUsize).bind fun len =>
      (trackNodes_agrees t.track_agrees len 0).map _
  | .seq .vec t => (Agrees.of decUsize).bind fun len => (trackBuffer_agrees len).bind fun _ =>
      (trackItems_agrees t.track_agrees len 0).map _
  | .seq .slice t => (Agrees.of decUsize).bind fun len => (trackBuffer_agrees len).bind fun _ =>
      (trackItems_agrees t.track_agrees len 0).map _
  | .hashMap k v => (Agrees.of decUsize).bind fun len => (trackBuffer_agrees len).bind fun _ =>
      @trackMapLoop_agrees _ _ k.decEq _ _ _ _ k.track_agrees v.track_agrees len 0 _ _
  | .hashSet k => (Agrees.of decUsize).bind fun len => (trackBuffer_agrees len).bind fun _ =>
      @trackSetLoop_agrees _ k.decEq _ _ k.track_agrees len 0 _ _ _
  | .option t => (Agrees.of decBool).bind fun _ => .ite (t.track_agrees.map _) (.of _)
  | .result t e => (Agrees.of decBool).bind fun _ =>
      .ite ((e.track_agrees.mapErr _).map _) ((t.track_agrees.mapErr _).map _)
  | .bound t => (Agrees.of decU8).bind fun _ =>
      .ite ((t.track_agrees.mapErr _).map _) (.ite ((t.track_agrees.mapErr _).map _)
        (.ite (.of _) (.of _)))
  | .range t => (t.track_agrees.bind fun _ => t.track_agrees.map _).free
  | .rangeInclusive t => (t.track_agrees.bind fun _ => t.track_agrees.map _).free
  | .lock _ t => (t.track_agrees.map _).free
  | .refCell t => (t.track_agrees.map _).free
  | .duration => .of _
  | .systemTime p => .of _
  | .ipv4 => .of _
  | .ipv6 => .of _
  | .ipAddr => .of _
  | .socketAddrV4 => .of _
  | .socketAddrV6 => .of _
  | .socketAddr => .of _
  | .str _ => (Agrees.of decString).bind fun s => (trackBuffer_agrees _).map _
  | .cStr _ => (Agrees.of decCString).bind fun s => by
      have e : Weights.allocs.buffer (s.val.length + 1) = 1 := by
        show (if _ then 0 else 1 + 0 * _) = 1
        rw [if_neg (by omega), Nat.zero_mul]
      rw [e]
      exact .alloc s
  | .sizedStr n => .of _
  | .sizedSlice t n => (Agrees.of decUsize).bind fun len =>
      .ite (.of _) ((trackItems_agrees t.track_agrees n 0).keep.map _)
  | .tuple fs => (fs.track_agrees _).free
  | .struct fs => (fs.track_agrees _).free
  | .enum r vs => (Agrees.of (decRepr r)).bind fun x => vs.track_agrees none x

theorem Fields.track_agrees : (fs : Fields) → ∀ g, Agrees (fs.track g) (fs.cost Weights.allocs g)
  | .nil, _ => .of _
  | .cons t fs, g => (t.track_agrees.mapErr g).bind fun _ => (fs.track_agrees g).map _

theorem Variants.track_agrees :
    (vs : Variants) → ∀ p x, Agrees (vs.track p x) (vs.cost Weights.allocs p x)
  | .nil, _, _ => .of _
  | .cons d fs vs, p, x => by
    unfold Variants.track Variants.cost
    split
    · exact (fs.track_agrees _).map _
    · exact (vs.track_agrees _ _).map _

end

end Oct
