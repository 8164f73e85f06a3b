import Verif.Proofs.Track
/-
Each allocation that a decoding makes is in exactly one place afterwards.
-/
namespace Oct
open Spec

/-- Every run is balanced. -/
def Bal {α : Type} (m : Track α) : Prop := ∀ I n, Balanced n (m I n)

theorem split_range {n k l : Nat} (h1 : n ≤ k) (h2 : k ≤ l) (a : Nat) :
    (if n ≤ a ∧ a < l then 1 else 0)
      = (if n ≤ a ∧ a < k then 1 else 0) + if k ≤ a ∧ a < l then 1 else 0 := by
  by_cases h3 : n ≤ a ∧ a < k
  · rw [if_pos h3, if_neg (show ¬ (k ≤ a ∧ a < l) by omega), if_pos (show n ≤ a ∧ a < l by omega)]
  · by_cases h4 : k ≤ a ∧ a < l
    · rw [if_neg h3, if_pos h4, if_pos (show n ≤ a ∧ a < l by omega)]
    · rw [if_neg h3, if_neg h4, if_neg (show ¬ (n ≤ a ∧ a < l) by omega)]

theorem balanced_none {α : Type} (r : Res DecErr α) (I : Input) (n : Nat) :
    Balanced n (⟨r, I, n, [], [], [], []⟩ : Tracked α) := by
  refine ⟨Nat.le_refl _, fun a => ?_, fun _ => ⟨rfl, rfl⟩⟩
  simp only [List.count_nil]
  rw [if_neg (by omega)]

theorem Spec.Balanced.after {α β : Type} {raw : Bool} {n : Nat} {x : Tracked α} {y : Tracked β}
    (hx : Balanced n x) (hy : Balanced x.next y) : Balanced n (Track.after raw x y) := by
  obtain ⟨x1, x2, x3⟩ := hx
  obtain ⟨y1, y2, y3⟩ := hy
  have sum := split_range x1 y1
  have fails : (∀ b, y.res ≠ .ok b) → ∀ a,
      y.owned.count a + y.kept.count a
        + (x.freed ++ y.freed ++ (if raw then [] else x.owned)).count a
        + (x.lost ++ y.lost ++ x.kept ++ (if raw then x.owned else [])).count a
      = if n ≤ a ∧ a < y.next then 1 else 0 := by
    intro _ a
    rw [sum a]
    have h1 := x2 a
    have h2 := y2 a
    cases raw <;> simp only [if_true, if_false, List.count_append, List.count_nil, Bool.false_eq_true] <;>
      omega
  unfold Track.after
  cases hr : y.res with
  | ok b =>
    refine ⟨by simp only; omega, fun a => ?_, fun h => absurd rfl (h b)⟩
    simp only [List.count_append]
    rw [sum a]
    have h1 := x2 a
    have h2 := y2 a
    omega
  | err e =>
    have hn : ∀ b, y.res ≠ .ok b := fun b h => by rw [hr] at h; exact nomatch h
    exact ⟨Nat.le_trans x1 y1, fails hn, fun _ => y3 hn⟩
  | panic e =>
    have hn : ∀ b, y.res ≠ .ok b := fun b h => by rw [hr] at h; exact nomatch h
    exact ⟨Nat.le_trans x1 y1, fails hn, fun _ => y3 hn⟩
  | ub e =>
    have hn : ∀ b, y.res ≠ .ok b := fun b h => by rw [hr] at h; exact nomatch h
    exact ⟨Nat.le_trans x1 y1, fails hn, fun _ => y3 hn⟩

namespace Bal
variable {α β : Type}

theorem of (d : Dec α) : Bal (Track.of d) := fun _ _ => balanced_none _ _ _

theorem alloc (a : α) : Bal (Track.alloc a) := fun I n => by
  refine ⟨Nat.le_succ _, fun b => ?_, fun h => absurd rfl (h a)⟩
  show List.count b [n] + List.count b [] + List.count b [] + List.count b []
    = if n ≤ b ∧ b < n + 1 then 1 else 0
  simp only [List.count_cons, List.count_nil]
  by_cases h : n = b
  · subst h; simp
  · rw [if_neg (show ¬ (n ≤ b ∧ b < n + 1) by omega)]
    simp [h]

theorem mapErr {m : Track α} (h : Bal m) (g : DecErr → DecErr) : Bal (m.mapErr g) := fun I n => by
  obtain ⟨h1, h2, h3⟩ := h I n
  refine ⟨h1, h2, fun hn => h3 fun v hv => ?_⟩
  have : (m.mapErr g I n).res = .ok v := by
    unfold Track.mapErr
    simp only
    rw [hv]
    rfl
  exact hn v this

theorem map {m : Track α} (h : Bal m) (f : α → β) : Bal (m.map f) := fun I n => by
  obtain ⟨h1, h2, h3⟩ := h I n
  refine ⟨h1, h2, fun hn => h3 fun v hv => ?_⟩
  have : (m.map f I n).res = .ok (f v) := by
    unfold Track.map
    simp only
    rw [hv]
    rfl
  exact hn _ this

theorem keep {m : Track α} (h : Bal m) : Bal m.keep := fun I n => by
  obtain ⟨h1, h2, h3⟩ := h I n
  refine ⟨h1, fun a => ?_, fun hn => ⟨rfl, ?_⟩⟩
  · have := h2 a
    show _ = if n ≤ a ∧ a < (m I n).next then 1 else 0
    simp only [Track.keep, List.count_append, List.count_nil]
    omega
  · have := h3 hn
    simp only [Track.keep]
    rw [this.1, this.2]
    rfl

theorem bindWith {raw : Bool} {m : Track α} {f : α → Track β} (h : Bal m) (hf : ∀ a, Bal (f a)) :
    Bal (Track.bindWith raw m f) := fun I n => by
  have hx := h I n
  unfold Track.bindWith
  simp only
  cases hr : (m I n).res with
  | ok a => exact hx.after (hf a _ _)
  | err e => exact ⟨hx.1, hx.2.1, fun _ => hx.2.2 fun v hv => by rw [hr] at hv; exact nomatch hv⟩
  | panic e => exact ⟨hx.1, hx.2.1, fun _ => hx.2.2 fun v hv => by rw [hr] at hv; exact nomatch hv⟩
  | ub e => exact ⟨hx.1, hx.2.1, fun _ => hx.2.2 fun v hv => by rw [hr] at hv; exact nomatch hv⟩

theorem bind {m : Track α} {f : α → Track β} (h : Bal m) (hf : ∀ a, Bal (f a)) :
    Bal (Track.bind m f) := bindWith h hf

theorem ite {c : Prop} [Decidable c] {m m' : Track α} (h : Bal m) (h' : Bal m') :
    Bal (if c then m else m') := by
  split
  · exact h
  · exact h'

end Bal

section
variable {α β : Type}

theorem trackItems_bal {m : Track α} (h : Bal m) : ∀ n i, Bal (trackItems m n i)
  | 0, _ => .of _
  | n + 1, i => (h.mapErr _).bindWith fun _ => (trackItems_bal h n (i + 1)).map _

theorem trackBuffer_bal (len : Nat) : Bal (trackBuffer len) := .ite (.of _) (.alloc _)

theorem trackVec_bal {m : Track α} (h : Bal m) : Bal (trackVec m) :=
  (Bal.of _).bind fun len => (trackBuffer_bal len).bind fun _ => (trackItems_bal h len 0).map _

theorem trackNodes_bal {m : Track α} (h : Bal m) : ∀ n i, Bal (trackNodes m n i)
  | 0, _ => .of _
  | n + 1, i => (h.mapErr _).bind fun _ => (Bal.alloc ()).bind fun _ =>
      (trackNodes_bal h n (i + 1)).map _

theorem trackList_bal {m : Track α} (h : Bal m) : Bal (trackList m) :=
  (Bal.of _).bind fun len => (trackNodes_bal h len 0).map _

theorem trackSized_bal {m : Track α} (h : Bal m) (n : Nat) : Bal (trackSized m n) :=
  (Bal.of _).bind fun _ => .ite (.of _) ((trackItems_bal h n 0).keep.map _)

/-- Balance of a loop that starts with something held. -/
def BalancedFrom (owned kept : List Nat) (n : Nat) (x : Tracked α) : Prop :=
  n ≤ x.next ∧
  (∀ a, x.owned.count a + x.kept.count a + x.freed.count a + x.lost.count a
    = owned.count a + kept.count a + if n ≤ a ∧ a < x.next then 1 else 0) ∧
  ((∀ v, x.res ≠ .ok v) → x.owned = [] ∧ x.kept = [])

theorem Holdings.owned_cons (e : Holding × Holding) (h : Holdings) :
    Holdings.owned (e :: h) = e.1.owned ++ e.2.owned ++ Holdings.owned h := by
  simp [Holdings.owned]

theorem Holdings.kept_cons (e : Holding × Holding) (h : Holdings) :
    Holdings.kept (e :: h) = e.1.kept ++ e.2.kept ++ Holdings.kept h := by
  simp [Holdings.kept]

theorem Holdings.owned_append (h h' : Holdings) :
    Holdings.owned (h ++ h') = Holdings.owned h ++ Holdings.owned h' := by
  simp [Holdings.owned]

theorem Holdings.kept_append (h h' : Holdings) :
    Holdings.kept (h ++ h') = Holdings.kept h ++ Holdings.kept h' := by
  simp [Holdings.kept]

/-- Inserting neither makes nor loses anything. -/
theorem holdInsert_count [DecidableEq α] (k : α) (hk hv : Holding) :
    ∀ (l : List (α × β)) (h : Holdings) (a : Nat),
    let r := holdInsert k hk hv l h
    (Holdings.owned r.1).count a + r.2.owned.count a
      = (Holdings.owned h).count a + hk.owned.count a + hv.owned.count a ∧
    (Holdings.kept r.1).count a + r.2.kept.count a
      = (Holdings.kept h).count a + hk.kept.count a + hv.kept.count a := by
  intro l
  induction l with
  | nil =>
    intro h a
    cases h with
    | nil => simp [holdInsert, Holdings.owned, Holdings.kept]
    | cons e h =>
      simp only [holdInsert, Holdings.owned_append, Holdings.kept_append, Holdings.owned_cons,
        Holdings.kept_cons, List.count_append, List.count_nil]
      simp only [Holdings.owned, Holdings.kept, List.flatMap_nil, List.count_nil]
      omega
  | cons p l ih =>
    obtain ⟨k', v'⟩ := p
    intro h a
    cases h with
    | nil => simp [holdInsert, Holdings.owned, Holdings.kept]
    | cons e h =>
      obtain ⟨hk', hv'⟩ := e
      unfold holdInsert
      by_cases hkk : k' = k
      · simp only [if_pos hkk, Holdings.owned_cons, Holdings.kept_cons, List.count_append]
        omega
      · simp only [if_neg hkk, Holdings.owned_cons, Holdings.kept_cons, List.count_append]
        have := ih h a
        simp only at this
        omega

theorem Tracked.stop_balanced {γ : Type} {n : Nat} {x : Tracked α} (hx : Balanced n x)
    (hn : ∀ v, x.res ≠ .ok v) (r : Res DecErr γ) (owned kept : List Nat) :
    BalancedFrom owned kept n (x.stop r owned kept) := by
  obtain ⟨h1, h2, h3⟩ := hx
  obtain ⟨e1, e2⟩ := h3 hn
  refine ⟨h1, fun a => ?_, fun _ => ⟨rfl, rfl⟩⟩
  have := h2 a
  rw [e1, e2] at this
  show _ = _ + if n ≤ a ∧ a < x.next then 1 else 0
  simp only [Tracked.stop, List.count_append, List.count_nil] at this ⊢
  omega

theorem trackMapLoop_bal [DecidableEq α] {mK : Track α} {mV : Track β} (hK : Bal mK) (hV : Bal mV) :
    ∀ c i m h I n, BalancedFrom (Holdings.owned h) (Holdings.kept h) n
      (trackMapLoop mK mV c i m h I n)
  | 0, _, m, h, I, n => by
    refine ⟨Nat.le_refl _, fun a => ?_, fun hn => absurd rfl (hn m)⟩
    show _ + _ + List.count a [] + List.count a [] = _ + if n ≤ a ∧ a < n then 1 else 0
    rw [if_neg (show ¬ (n ≤ a ∧ a < n) by omega)]
    rfl
  | c + 1, i, m, h, I, n => by
    unfold trackMapLoop
    have hx := hK.mapErr (fun e => .badItem (.item i e)) I n
    simp only
    generalize Track.mapErr (fun e => .badItem (.item i e)) mK I n = x at hx ⊢
    cases hr : x.res with
    | err e => exact Tracked.stop_balanced hx (fun v hv => by rw [hr] at hv; exact nomatch hv) _ _ _
    | panic e => exact Tracked.stop_balanced hx (fun v hv => by rw [hr] at hv; exact nomatch hv) _ _ _
    | ub e => exact Tracked.stop_balanced hx (fun v hv => by rw [hr] at hv; exact nomatch hv) _ _ _
    | ok k =>
      simp only
      have hy := hV.mapErr (fun e => .badItem (.item i e)) x.rest x.next
      generalize Track.mapErr (fun e => .badItem (.item i e)) mV x.rest x.next = y at hy ⊢
      have fails : (∀ v, y.res ≠ .ok v) → ∀ r : Res DecErr (MapVal α β),
          BalancedFrom (Holdings.owned h) (Holdings.kept h) n
            (y.stop r (x.freed ++ x.owned ++ Holdings.owned h) (x.lost ++ x.kept ++ Holdings.kept h)) := by
        intro hn r
        obtain ⟨e1, e2⟩ := hy.2.2 hn
        refine ⟨Nat.le_trans hx.1 hy.1, fun a => ?_, fun _ => ⟨rfl, rfl⟩⟩
        have h1 := hx.2.1 a
        have h2 := hy.2.1 a
        rw [e1, e2] at h2
        show _ = _ + if n ≤ a ∧ a < y.next then 1 else 0
        simp only [Tracked.stop, List.count_append, List.count_nil] at h2 ⊢
        rw [split_range hx.1 hy.1]
        omega
      cases hr2 : y.res with
      | err e => exact fails (fun v hv => by rw [hr2] at hv; exact nomatch hv) _
      | panic e => exact fails (fun v hv => by rw [hr2] at hv; exact nomatch hv) _
      | ub e => exact fails (fun v hv => by rw [hr2] at hv; exact nomatch hv) _
      | ok v =>
        simp only
        have hc := holdInsert_count k ⟨x.owned, x.kept⟩ ⟨y.owned, y.kept⟩ m.val h
        generalize holdInsert k ⟨x.owned, x.kept⟩ ⟨y.owned, y.kept⟩ m.val h = r at hc ⊢
        have hz := trackMapLoop_bal hK hV c (i + 1)
          ⟨mapInsert k v m.val, mapInsert_nodup k v m.val m.property⟩ r.1 y.rest y.next
        generalize trackMapLoop mK mV c (i + 1)
          ⟨mapInsert k v m.val, mapInsert_nodup k v m.val m.property⟩ r.1 y.rest y.next = z at hz ⊢
        refine ⟨Nat.le_trans (Nat.le_trans hx.1 hy.1) hz.1, fun a => ?_, hz.2.2⟩
        have h1 := hx.2.1 a
        have h2 := hy.2.1 a
        have h3 := hz.2.1 a
        have h4 := hc a
        show _ = _ + if n ≤ a ∧ a < z.next then 1 else 0
        simp only [List.count_append] at h4 ⊢
        rw [split_range (Nat.le_trans hx.1 hy.1) hz.1, split_range hx.1 hy.1]
        omega

theorem trackHashMap_bal [DecidableEq α] {mK : Track α} {mV : Track β} (hK : Bal mK) (hV : Bal mV) :
    Bal (trackHashMap mK mV) :=
  (Bal.of _).bind fun len => (trackBuffer_bal len).bind fun _ => fun I n => by
    have := trackMapLoop_bal hK hV len 0 ⟨[], List.nodup_nil⟩ [] I n
    refine ⟨this.1, fun a => ?_, this.2.2⟩
    have := this.2.1 a
    simpa [Holdings.owned, Holdings.kept] using this

theorem trackSetLoop_bal [DecidableEq α] {mK : Track α} (hK : Bal mK) :
    ∀ c i s o k I n, BalancedFrom o k n (trackSetLoop mK c i s o k I n)
  | 0, _, m, o, kp, I, n => by
    refine ⟨Nat.le_refl _, fun a => ?_, fun hn => absurd rfl (hn m)⟩
    show _ + _ + List.count a [] + List.count a [] = _ + if n ≤ a ∧ a < n then 1 else 0
    rw [if_neg (show ¬ (n ≤ a ∧ a < n) by omega)]
    rfl
  | c + 1, i, s, o, kp, I, n => by
    unfold trackSetLoop
    have hx := hK.mapErr (fun e => .badItem (.item i e)) I n
    simp only
    generalize Track.mapErr (fun e => .badItem (.item i e)) mK I n = x at hx ⊢
    cases hr : x.res with
    | err e => exact Tracked.stop_balanced hx (fun v hv => by rw [hr] at hv; exact nomatch hv) _ _ _
    | panic e => exact Tracked.stop_balanced hx (fun v hv => by rw [hr] at hv; exact nomatch hv) _ _ _
    | ub e => exact Tracked.stop_balanced hx (fun v hv => by rw [hr] at hv; exact nomatch hv) _ _ _
    | ok k =>
      simp only
      by_cases hm : k ∈ s.val
      · rw [if_pos hm]
        have hz := trackSetLoop_bal hK c (i + 1)
          ⟨setInsert k s.val, setInsert_nodup k s.val s.property⟩ o kp x.rest x.next
        generalize trackSetLoop mK c (i + 1)
          ⟨setInsert k s.val, setInsert_nodup k s.val s.property⟩ o kp x.rest x.next = z at hz ⊢
        refine ⟨Nat.le_trans hx.1 hz.1, fun a => ?_, hz.2.2⟩
        have h1 := hx.2.1 a
        have h3 := hz.2.1 a
        show _ = _ + if n ≤ a ∧ a < z.next then 1 else 0
        simp only [List.count_append]
        rw [split_range hx.1 hz.1]
        omega
      · rw [if_neg hm]
        have hz := trackSetLoop_bal hK c (i + 1)
          ⟨setInsert k s.val, setInsert_nodup k s.val s.property⟩ (o ++ x.owned) (kp ++ x.kept)
          x.rest x.next
        generalize trackSetLoop mK c (i + 1)
          ⟨setInsert k s.val, setInsert_nodup k s.val s.property⟩ (o ++ x.owned) (kp ++ x.kept)
          x.rest x.next = z at hz ⊢
        refine ⟨Nat.le_trans hx.1 hz.1, fun a => ?_, hz.2.2⟩
        have h1 := hx.2.1 a
        have h3 := hz.2.1 a
        show _ = _ + if n ≤ a ∧ a < z.next then 1 else 0
        simp only [List.count_append] at h3 ⊢
        rw [split_range hx.1 hz.1]
        omega

theorem trackHashSet_bal [DecidableEq α] {mK : Track α} (hK : Bal mK) : Bal (trackHashSet mK) :=
  (Bal.of _).bind fun len => (trackBuffer_bal len).bind fun _ => fun I n => by
    have := trackSetLoop_bal hK len 0 ⟨[], List.nodup_nil⟩ [] [] I n
    refine ⟨this.1, fun a => ?_, this.2.2⟩
    have := this.2.1 a
    simpa using this

theorem trackOption_bal {m : Track α} (h : Bal m) : Bal (trackOption m) :=
  (Bal.of _).bind fun _ => .ite (h.map _) (.of _)

theorem trackResult_bal {m : Track α} {m' : Track β} (h : Bal m) (h' : Bal m') :
    Bal (trackResult m m') :=
  (Bal.of _).bind fun _ => .ite ((h'.mapErr _).map _) ((h.mapErr _).map _)

theorem trackBound_bal {m : Track α} (h : Bal m) : Bal (trackBound m) :=
  (Bal.of _).bind fun _ => .ite ((h.mapErr _).map _) (.ite ((h.mapErr _).map _) (.ite (.of _) (.of _)))

end

mutual

theorem Ty.track_bal : (t : Ty) → Bal t.track
  | .num _ | .bool | .char | .usize | .isize | .nonZero _ | .unit _ | .infallible => .of _
  | .wrap _ t => t.track_bal.bind fun _ => .ite (.alloc _) (.of _)
  | .array t n => trackItems_bal t.track_bal n 0
  | .seq .linkedList t => trackList_bal t.track_bal
  | .seq .vec t => trackVec_bal t.track_bal
  | .seq .slice t => trackVec_bal t.track_bal
  | .hashMap k v => @trackHashMap_bal _ _ k.decEq _ _ k.track_bal v.track_bal
  | .hashSet k => @trackHashSet_bal _ k.decEq _ k.track_bal
  | .option t => trackOption_bal t.track_bal
  | .result t e => trackResult_bal t.track_bal e.track_bal
  | .bound t => trackBound_bal t.track_bal
  | .range t => t.track_bal.bind fun _ => t.track_bal.map _
  | .rangeInclusive t => t.track_bal.bind fun _ => t.track_bal.map _
  | .lock _ t => t.track_bal.map _
  | .refCell t => t.track_bal.map _
  | .duration | .systemTime _ | .ipv4 | .ipv6 | .ipAddr | .socketAddrV4 | .socketAddrV6
  | .socketAddr => .of _
  | .str _ => (Bal.of _).bind fun _ => (trackBuffer_bal _).map _
  | .cStr _ => (Bal.of _).bind fun _ => .alloc _
  | .sizedStr _ => .of _
  | .sizedSlice t n => trackSized_bal t.track_bal n
  | .tuple fs => fs.track_bal _
  | .struct fs => fs.track_bal _
  | .enum _ vs => (Bal.of _).bind fun _ => vs.track_bal none _

theorem Fields.track_bal : (fs : Fields) → ∀ g, Bal (fs.track g)
  | .nil, _ => .of _
  | .cons t fs, g => (t.track_bal.mapErr g).bind fun _ => (fs.track_bal g).map _

theorem Variants.track_bal : (vs : Variants) → ∀ p x, Bal (vs.track p x)
  | .nil, _, _ => .of _
  | .cons _ fs vs, _, _ => .ite ((fs.track_bal _).map _) ((vs.track_bal _ _).map _)

end

end Oct
