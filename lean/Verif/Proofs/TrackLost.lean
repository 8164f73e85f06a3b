import Verif.Proofs.TrackTidy
import Verif.Proofs.Yields
/-
What vectors, arrays and sized slices lose when an item cannot be decoded.
-/
namespace Oct
open Spec

/-- The items after the first `k` do not matter for what is lost of these. -/
theorem items_lost {α : Type} (m : Track α) (k : Nat) : ∀ (i len : Nat) (I : Input) (n : Nat)
    (vs : Items α k), k < len → (trackItems m k i I n).res = .ok vs →
    (∀ v, (m (trackItems m k i I n).rest (trackItems m k i I n).next).res ≠ .ok v) →
    (∀ v, (trackItems m len i I n).res ≠ .ok v) ∧
    ∀ a, (trackItems m len i I n).lost.count a
      = (trackItems m k i I n).lost.count a + (trackItems m k i I n).owned.count a
        + (trackItems m k i I n).kept.count a
        + (m (trackItems m k i I n).rest (trackItems m k i I n).next).lost.count a := by
  induction k with
  | zero =>
    intro i len I n vs hk hvs hf
    obtain ⟨len, rfl⟩ : ∃ l, len = l + 1 := ⟨len - 1, by omega⟩
    have hf' : ∀ v, (m I n).res ≠ .ok v := hf
    have hx : (m.mapErr (fun e => .badItem (.item i e)) I n).lost = (m I n).lost := rfl
    have hr : (m.mapErr (fun e => .badItem (.item i e)) I n).res
        = (m I n).res.mapErr (fun e => .badItem (.item i e)) := rfl
    have hz : ∀ a, (trackItems m 0 i I n).lost.count a + (trackItems m 0 i I n).owned.count a
        + (trackItems m 0 i I n).kept.count a
        + (m (trackItems m 0 i I n).rest (trackItems m 0 i I n).next).lost.count a
        = (m I n).lost.count a := fun a => by
      show 0 + 0 + 0 + (m I n).lost.count a = _
      omega
    simp only [hz]
    unfold trackItems Track.bindWith
    simp only
    rw [hr]
    cases hq : (m I n).res with
    | ok v => exact absurd hq (hf' v)
    | err e => exact ⟨(fun _ h => nomatch h), fun _ => rfl⟩
    | panic e => exact ⟨(fun _ h => nomatch h), fun _ => rfl⟩
    | ub e => exact ⟨(fun _ h => nomatch h), fun _ => rfl⟩
  | succ k ih =>
    intro i len I n vs hk hvs hf
    obtain ⟨len, rfl⟩ : ∃ l, len = l + 1 := ⟨len - 1, by omega⟩
    revert hvs hf
    unfold trackItems Track.bindWith
    simp only
    generalize hx : m.mapErr (fun e => .badItem (.item i e)) I n = x
    cases hq : x.res with
    | err e => intro h; exact nomatch h
    | panic e => intro h; exact nomatch h
    | ub e => intro h; exact nomatch h
    | ok v =>
      simp only
      have ih' := ih (i + 1) len x.rest x.next
      generalize trackItems m k (i + 1) = f at ih'
      generalize trackItems m len (i + 1) = g at ih'
      intro hvs hf
      have hw : ∃ ws, (f x.rest x.next).res = .ok ws := by
        revert hvs
        unfold Track.after Track.map
        simp only
        cases (f x.rest x.next).res with
        | ok ws => exact fun _ => ⟨ws, rfl⟩
        | err e => intro h; exact nomatch h
        | panic e => intro h; exact nomatch h
        | ub e => intro h; exact nomatch h
      obtain ⟨ws, hws⟩ := hw
      have e1 : ∀ F : Items α k → Items α (k + 1), Track.after true x (Track.map F f x.rest x.next)
          = ⟨.ok (F ws), (f x.rest x.next).rest, (f x.rest x.next).next,
              x.owned ++ (f x.rest x.next).owned, x.kept ++ (f x.rest x.next).kept,
              x.freed ++ (f x.rest x.next).freed, x.lost ++ (f x.rest x.next).lost⟩ := by
        intro F
        unfold Track.after Track.map
        simp only
        rw [hws]
        rfl
      rw [e1] at hf ⊢
      obtain ⟨i1, i2⟩ := ih' ws (by omega) hws hf
      constructor
      · intro v
        unfold Track.after Track.map
        simp only
        cases hg : (g x.rest x.next).res with
        | ok us => exact absurd hg (i1 us)
        | err e => exact fun h => nomatch h
        | panic e => exact fun h => nomatch h
        | ub e => exact fun h => nomatch h
      · intro a
        have i3 := i2 a
        unfold Track.after Track.map
        simp only
        cases hg : (g x.rest x.next).res with
        | ok us => exact absurd hg (i1 us)
        | err e => simp only [Res.map, if_true, List.count_append]; omega
        | panic e => simp only [Res.map, if_true, List.count_append]; omega
        | ub e => simp only [Res.map, if_true, List.count_append]; omega

/-- What a vector loses is what its items lose; the buffer is freed. -/
theorem trackVec_lost {α : Type} (m : Track α) (len : Nat) (I I1 : Input) (n : Nat)
    (hu : decUsize I = (.ok len, I1)) (hl : len ≠ 0)
    (hz : ∀ v, (trackItems m len 0 I1 (n + 1)).res ≠ .ok v) :
    (∀ v, (trackVec m I n).res ≠ .ok v) ∧
    (∀ e, (trackItems m len 0 I1 (n + 1)).res = .err e → (trackVec m I n).res = .err e) ∧
    (trackVec m I n).lost = (trackItems m len 0 I1 (n + 1)).lost ∧
    (trackVec m I n).freed = (trackItems m len 0 I1 (n + 1)).freed ++ [n] := by
  have e1 : Track.of decUsize I n = ⟨.ok len, I1, n, [], [], [], []⟩ := by
    unfold Track.of
    rw [hu]
  unfold trackVec Track.bind Track.bindWith
  simp only [e1]
  have e2 : trackBuffer len I1 n = ⟨.ok (), I1, n + 1, [n], [], [], []⟩ := by
    unfold trackBuffer
    rw [if_neg hl]
    rfl
  simp only [e2]
  revert hz
  unfold Track.map
  generalize trackItems m len 0 I1 (n + 1) = z
  obtain ⟨r, J, k, o, kp, fr, lo⟩ := z
  intro hz
  cases r with
  | ok v => exact absurd rfl (hz v)
  | err e => refine ⟨(fun _ h => nomatch h), (fun _ h => by cases h; rfl), ?_, ?_⟩ <;> simp [Track.after, Res.map]
  | panic e => refine ⟨(fun _ h => nomatch h), (fun _ h => nomatch h), ?_, ?_⟩ <;> simp [Track.after, Res.map]
  | ub e => refine ⟨(fun _ h => nomatch h), (fun _ h => nomatch h), ?_, ?_⟩ <;> simp [Track.after, Res.map]

theorem decNonZero_one : Yields (decNonZero (.int .u8)) [1] (.ok ⟨1, by decide⟩) := by
  have h : Yields (decRepr (.int .u8)) [1] (.ok 1) := (decNum_yields [1]).map (Yields.pure _)
  exact h.map (Yields.pure _)

theorem decNonZero_zero : Yields (decNonZero (.int .u8)) [0] (.err .nonZero) := by
  have h : Yields (decRepr (.int .u8)) [0] (.ok 0) := (decNum_yields [0]).map (Yields.pure _)
  exact h.map (Yields.fail _)

/-- A box of a non-zero octet. -/
theorem trackBox_one (pre rest : List Byte) (n : Nat) :
    (Ty.wrap .box (.nonZero (.int .u8))).track ⟨pre ++ ([1] ++ rest), pre.length⟩ n
      = ⟨.ok (⟨1, by decide⟩ : (Ty.nonZero (.int .u8)).Val), ⟨pre ++ ([1] ++ rest), pre.length + 1⟩,
          n + 1, [n], [], [], []⟩ := by
  show Track.bind (Track.of (decNonZero (.int .u8))) (fun v => Track.alloc v) _ _ = _
  unfold Track.bind Track.bindWith Track.of
  simp only
  rw [decNonZero_one pre rest]
  rfl

/-- A box of a zero. -/
theorem trackBox_zero (pre rest : List Byte) (n : Nat) :
    (Ty.wrap .box (.nonZero (.int .u8))).track ⟨pre ++ ([0] ++ rest), pre.length⟩ n
      = ⟨.err .nonZero, ⟨pre ++ ([0] ++ rest), pre.length + 1⟩, n, [], [], [], []⟩ := by
  show Track.bind (Track.of (decNonZero (.int .u8))) (fun v => Track.alloc v) _ _ = _
  unfold Track.bind Track.bindWith Track.of
  simp only
  rw [decNonZero_zero pre rest]
  rfl

/-- Boxes of `1` and then one of `0`: the boxes of `1` are lost. -/
theorem boxes_lost (k : Nat) : ∀ (i n : Nat) (pre : List Byte), ∃ e,
    (trackItems (Ty.wrap .box (.nonZero (.int .u8))).track (k + 1) i
      ⟨pre ++ (List.replicate k 1 ++ [0]), pre.length⟩ n).res = .err e ∧
    (trackItems (Ty.wrap .box (.nonZero (.int .u8))).track (k + 1) i
      ⟨pre ++ (List.replicate k 1 ++ [0]), pre.length⟩ n).lost.length = k := by
  induction k with
  | zero =>
    intro i n pre
    have h := trackBox_zero pre [] n
    unfold trackItems Track.bindWith Track.mapErr
    simp only
    erw [h]
    exact ⟨_, rfl, rfl⟩
  | succ k ih =>
    intro i n pre
    have h := trackBox_one pre (List.replicate k 1 ++ [0]) n
    obtain ⟨e, h1, h2⟩ := ih (i + 1) (n + 1) (pre ++ [1])
    rw [List.append_assoc, List.length_append] at h1 h2
    unfold trackItems Track.bindWith Track.mapErr
    simp only
    erw [h]
    simp only [Res.mapErr]
    unfold Track.after Track.map
    simp only
    erw [h1]
    refine ⟨e, rfl, ?_⟩
    simp only [Res.map, if_true, List.length_append]
    erw [h2]
    simp

end Oct
