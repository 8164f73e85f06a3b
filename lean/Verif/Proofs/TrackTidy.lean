import Verif.Proofs.TrackBalance
/-
Plain types allocate nothing, and tidy ones lose nothing.
-/
namespace Oct
open Spec

/-- Nothing is allocated. -/
def NoAlloc {α : Type} (m : Track α) : Prop :=
  ∀ I n, (m I n).next = n ∧ (m I n).owned = [] ∧ (m I n).kept = [] ∧ (m I n).freed = [] ∧
    (m I n).lost = []

/-- Nothing is lost, or kept where it will be. -/
def Loses0 {α : Type} (m : Track α) : Prop := ∀ I n, (m I n).kept = [] ∧ (m I n).lost = []

namespace NoAlloc
variable {α β : Type}

theorem loses0 {m : Track α} (h : NoAlloc m) : Loses0 m := fun I n => ⟨(h I n).2.2.1, (h I n).2.2.2.2⟩

theorem of (d : Dec α) : NoAlloc (Track.of d) := fun _ _ => ⟨rfl, rfl, rfl, rfl, rfl⟩

theorem mapErr {m : Track α} (h : NoAlloc m) (g : DecErr → DecErr) : NoAlloc (m.mapErr g) := h

theorem map {m : Track α} (h : NoAlloc m) (f : α → β) : NoAlloc (m.map f) := h

theorem keep {m : Track α} (h : NoAlloc m) : NoAlloc m.keep := fun I n => by
  obtain ⟨h1, h2, h3, h4, h5⟩ := h I n
  refine ⟨h1, rfl, ?_, h4, h5⟩
  show (m I n).owned ++ (m I n).kept = []
  rw [h2, h3]; rfl

theorem bindWith {raw : Bool} {m : Track α} {f : α → Track β} (h : NoAlloc m)
    (hf : ∀ a, NoAlloc (f a)) : NoAlloc (Track.bindWith raw m f) := fun I n => by
  have hx := h I n
  unfold Track.bindWith
  simp only
  cases hr : (m I n).res with
  | err e => exact hx
  | panic e => exact hx
  | ub e => exact hx
  | ok a =>
    have hy := hf a (m I n).rest (m I n).next
    simp only
    generalize f a (m I n).rest (m I n).next = y at hy ⊢
    generalize m I n = x at hx hy ⊢
    obtain ⟨x1, x2, x3, x4, x5⟩ := hx
    obtain ⟨y1, y2, y3, y4, y5⟩ := hy
    unfold Track.after
    cases y.res <;> simp [x1, x2, x3, x4, x5, y1, y2, y3, y4, y5]

theorem bind {m : Track α} {f : α → Track β} (h : NoAlloc m) (hf : ∀ a, NoAlloc (f a)) :
    NoAlloc (Track.bind m f) := bindWith h hf

theorem ite {c : Prop} [Decidable c] {m m' : Track α} (h : NoAlloc m) (h' : NoAlloc m') :
    NoAlloc (if c then m else m') := by
  split
  · exact h
  · exact h'

theorem items {m : Track α} (h : NoAlloc m) : ∀ n i, NoAlloc (trackItems m n i)
  | 0, _ => .of _
  | n + 1, i => (h.mapErr _).bindWith fun _ => (items h n (i + 1)).map _

end NoAlloc

namespace Loses0
variable {α β : Type}

theorem of (d : Dec α) : Loses0 (Track.of d) := fun _ _ => ⟨rfl, rfl⟩

theorem alloc (a : α) : Loses0 (Track.alloc a) := fun _ _ => ⟨rfl, rfl⟩

theorem mapErr {m : Track α} (h : Loses0 m) (g : DecErr → DecErr) : Loses0 (m.mapErr g) := h

theorem map {m : Track α} (h : Loses0 m) (f : α → β) : Loses0 (m.map f) := h

theorem bind {m : Track α} {f : α → Track β} (h : Loses0 m) (hf : ∀ a, Loses0 (f a)) :
    Loses0 (Track.bind m f) := fun I n => by
  have hx := h I n
  unfold Track.bind Track.bindWith
  simp only
  cases hr : (m I n).res with
  | err e => exact hx
  | panic e => exact hx
  | ub e => exact hx
  | ok a =>
    have hy := hf a (m I n).rest (m I n).next
    simp only
    generalize f a (m I n).rest (m I n).next = y at hy ⊢
    generalize m I n = x at hx hy ⊢
    unfold Track.after
    cases y.res <;> simp [hx.1, hx.2, hy.1, hy.2]

theorem ite {c : Prop} [Decidable c] {m m' : Track α} (h : Loses0 m) (h' : Loses0 m') :
    Loses0 (if c then m else m') := by
  split
  · exact h
  · exact h'

/-- At most one item: there is nothing before it that could be lost. -/
theorem one {m : Track α} (h : Loses0 m) : ∀ n i, n ≤ 1 → Loses0 (trackItems m n i)
  | 0, _, _ => .of _
  | 1, i, _ => fun I n => by
    have hx := h I n
    unfold trackItems Track.bindWith
    simp only
    cases hr : (m.mapErr (fun e => .badItem (.item i e)) I n).res with
    | err e => exact hx
    | panic e => exact hx
    | ub e => exact hx
    | ok a =>
      show (_ ++ []) = _ ∧ (_ ++ []) = _
      simp only [List.append_nil]
      exact hx
  | n + 2, _, h => absurd h (by omega)

theorem buffer (len : Nat) : Loses0 (trackBuffer len) := .ite (.of _) (.alloc _)

theorem nodes {m : Track α} (h : Loses0 m) : ∀ n i, Loses0 (trackNodes m n i)
  | 0, _ => .of _
  | n + 1, i => (h.mapErr _).bind fun _ => (alloc ()).bind fun _ => (nodes h n (i + 1)).map _

theorem mapLoop [DecidableEq α] {mK : Track α} {mV : Track β} (hK : Loses0 mK) (hV : Loses0 mV) :
    ∀ c i m (h : Holdings), Holdings.kept h = [] → Loses0 (trackMapLoop mK mV c i m h)
  | 0, _, _, _, hh => fun _ _ => ⟨hh, rfl⟩
  | c + 1, i, m, h, hh => fun I n => by
    unfold trackMapLoop
    have hx := (hK.mapErr (fun e => .badItem (.item i e))) I n
    simp only
    generalize Track.mapErr (fun e => .badItem (.item i e)) mK I n = x at hx ⊢
    cases hr : x.res with
    | err e => exact ⟨rfl, by simp [Tracked.stop, hx.2, hh]⟩
    | panic e => exact ⟨rfl, by simp [Tracked.stop, hx.2, hh]⟩
    | ub e => exact ⟨rfl, by simp [Tracked.stop, hx.2, hh]⟩
    | ok k =>
      simp only
      have hy := (hV.mapErr (fun e => .badItem (.item i e))) x.rest x.next
      generalize Track.mapErr (fun e => .badItem (.item i e)) mV x.rest x.next = y at hy ⊢
      cases hr2 : y.res with
      | err e => exact ⟨rfl, by simp [Tracked.stop, hx.1, hx.2, hy.2, hh]⟩
      | panic e => exact ⟨rfl, by simp [Tracked.stop, hx.1, hx.2, hy.2, hh]⟩
      | ub e => exact ⟨rfl, by simp [Tracked.stop, hx.1, hx.2, hy.2, hh]⟩
      | ok v =>
        simp only
        have hc := fun a => (holdInsert_count k ⟨x.owned, x.kept⟩ ⟨y.owned, y.kept⟩ m.val h a).2
        generalize holdInsert k ⟨x.owned, x.kept⟩ ⟨y.owned, y.kept⟩ m.val h = r at hc ⊢
        simp only [hh, hx.1, hy.1, List.count_nil] at hc
        have e1 : Holdings.kept r.1 = [] := List.eq_nil_iff_forall_not_mem.mpr fun a ha => by
          have := List.count_pos_iff.mpr ha
          have := hc a
          omega
        have e2 : r.2.kept = [] := List.eq_nil_iff_forall_not_mem.mpr fun a ha => by
          have := List.count_pos_iff.mpr ha
          have := hc a
          omega
        have hz := mapLoop hK hV c (i + 1)
          ⟨mapInsert k v m.val, mapInsert_nodup k v m.val m.property⟩ r.1 e1 y.rest y.next
        refine ⟨hz.1, ?_⟩
        rw [hx.2, hy.2, e2, hz.2]
        rfl

theorem setLoop [DecidableEq α] {mK : Track α} (hK : Loses0 mK) :
    ∀ c i s o k, k = [] → Loses0 (trackSetLoop mK c i s o k)
  | 0, _, _, _, _, hk => fun _ _ => ⟨hk, rfl⟩
  | c + 1, i, s, o, kp, hk => fun I n => by
    unfold trackSetLoop
    have hx := (hK.mapErr (fun e => .badItem (.item i e))) I n
    simp only
    generalize Track.mapErr (fun e => .badItem (.item i e)) mK I n = x at hx ⊢
    cases hr : x.res with
    | err e => exact ⟨rfl, by simp [Tracked.stop, hx.2, hk]⟩
    | panic e => exact ⟨rfl, by simp [Tracked.stop, hx.2, hk]⟩
    | ub e => exact ⟨rfl, by simp [Tracked.stop, hx.2, hk]⟩
    | ok k =>
      simp only
      split
      · have hz := setLoop hK c (i + 1) ⟨setInsert k s.val, setInsert_nodup k s.val s.property⟩ o kp hk
          x.rest x.next
        refine ⟨hz.1, ?_⟩
        rw [hx.1, hx.2, hz.2]
        rfl
      · have hz := setLoop hK c (i + 1) ⟨setInsert k s.val, setInsert_nodup k s.val s.property⟩
          (o ++ x.owned) (kp ++ x.kept) (by rw [hk, hx.1]; rfl) x.rest x.next
        refine ⟨hz.1, ?_⟩
        rw [hx.2, hz.2]
        rfl

end Loses0

mutual

theorem Ty.track_noAlloc : (t : Ty) → Everywhere NoHeap t → NoAlloc t.track
  | .num _, _ | .bool, _ | .char, _ | .usize, _ | .isize, _ | .nonZero _, _ | .unit _, _
  | .infallible, _ => .of _
  | .wrap w t, h => (Ty.track_noAlloc t h.2).bind fun v => by
      have hw : w.boxes = false := by
        cases w <;> first | rfl | exact h.1.elim
      rw [if_neg (by rw [hw]; simp)]
      exact .of _
  | .array t n, h => (Ty.track_noAlloc t h.2).items n 0
  | .seq _ _, h => h.1.elim
  | .hashMap _ _, h => h.1.elim
  | .hashSet _, h => h.1.elim
  | .option t, h => (NoAlloc.of _).bind fun _ => .ite ((Ty.track_noAlloc t h.2).map _) (.of _)
  | .result t e, h => (NoAlloc.of _).bind fun _ =>
      .ite (((Ty.track_noAlloc e h.2.2).mapErr _).map _) (((Ty.track_noAlloc t h.2.1).mapErr _).map _)
  | .bound t, h => (NoAlloc.of _).bind fun _ =>
      .ite (((Ty.track_noAlloc t h.2).mapErr _).map _) (.ite (((Ty.track_noAlloc t h.2).mapErr _).map _)
        (.ite (.of _) (.of _)))
  | .range t, h => (Ty.track_noAlloc t h.2).bind fun _ => (Ty.track_noAlloc t h.2).map _
  | .rangeInclusive t, h => (Ty.track_noAlloc t h.2).bind fun _ => (Ty.track_noAlloc t h.2).map _
  | .lock _ t, h => (Ty.track_noAlloc t h.2).map _
  | .refCell t, h => (Ty.track_noAlloc t h.2).map _
  | .duration, _ | .systemTime _, _ | .ipv4, _ | .ipv6, _ | .ipAddr, _ | .socketAddrV4, _
  | .socketAddrV6, _ | .socketAddr, _ => .of _
  | .str _, h => h.elim
  | .cStr _, h => h.elim
  | .sizedStr _, _ => .of _
  | .sizedSlice t n, h => (NoAlloc.of _).bind fun _ => .ite (.of _)
      (((Ty.track_noAlloc t h.2).items n 0).keep.map _)
  | .tuple fs, h => Fields.track_noAlloc fs h.2 _
  | .struct fs, h => Fields.track_noAlloc fs h.2 _
  | .enum _ vs, h => (NoAlloc.of _).bind fun _ => Variants.track_noAlloc vs h.2 none _

theorem Fields.track_noAlloc : (fs : Fields) → EverywhereFields NoHeap fs → ∀ g, NoAlloc (fs.track g)
  | .nil, _, _ => .of _
  | .cons t fs, h, g => ((Ty.track_noAlloc t h.1).mapErr g).bind fun _ =>
      (Fields.track_noAlloc fs h.2 g).map _

theorem Variants.track_noAlloc : (vs : Variants) → EverywhereVariants NoHeap vs → ∀ p x,
    NoAlloc (vs.track p x)
  | .nil, _, _, _ => .of _
  | .cons _ fs vs, h, _, _ => .ite ((Fields.track_noAlloc fs h.1 _).map _)
      ((Variants.track_noAlloc vs h.2 _ _).map _)

end

mutual

theorem Ty.track_loses0 : (t : Ty) → Everywhere PlainItems t → Loses0 t.track
  | .num _, _ | .bool, _ | .char, _ | .usize, _ | .isize, _ | .nonZero _, _ | .unit _, _
  | .infallible, _ => .of _
  | .wrap _ t, h => (Ty.track_loses0 t h.2).bind fun _ => .ite (.alloc _) (.of _)
  | .array t n, h => by
    rcases h.1 with h1 | h1
    · exact (Ty.track_loses0 t h.2).one n 0 h1
    · exact ((Ty.track_noAlloc t h1).items n 0).loses0
  | .seq .linkedList t, h => (Loses0.of _).bind fun len => ((Ty.track_loses0 t h.2).nodes len 0).map _
  | .seq .vec t, h => (Loses0.of _).bind fun len => (Loses0.buffer len).bind fun _ =>
      ((Ty.track_noAlloc t h.1).items len 0).loses0.map _
  | .seq .slice t, h => (Loses0.of _).bind fun len => (Loses0.buffer len).bind fun _ =>
      ((Ty.track_noAlloc t h.1).items len 0).loses0.map _
  | .hashMap k v, h => (Loses0.of _).bind fun len => (Loses0.buffer len).bind fun _ =>
      @Loses0.mapLoop _ _ k.decEq _ _ (Ty.track_loses0 k h.2.1) (Ty.track_loses0 v h.2.2) len 0 _ [] rfl
  | .hashSet k, h => (Loses0.of _).bind fun len => (Loses0.buffer len).bind fun _ =>
      @Loses0.setLoop _ k.decEq _ (Ty.track_loses0 k h.2) len 0 _ [] [] rfl
  | .option t, h => (Loses0.of _).bind fun _ => .ite ((Ty.track_loses0 t h.2).map _) (.of _)
  | .result t e, h => (Loses0.of _).bind fun _ =>
      .ite (((Ty.track_loses0 e h.2.2).mapErr _).map _) (((Ty.track_loses0 t h.2.1).mapErr _).map _)
  | .bound t, h => (Loses0.of _).bind fun _ =>
      .ite (((Ty.track_loses0 t h.2).mapErr _).map _) (.ite (((Ty.track_loses0 t h.2).mapErr _).map _)
        (.ite (.of _) (.of _)))
  | .range t, h => (Ty.track_loses0 t h.2).bind fun _ => (Ty.track_loses0 t h.2).map _
  | .rangeInclusive t, h => (Ty.track_loses0 t h.2).bind fun _ => (Ty.track_loses0 t h.2).map _
  | .lock _ t, h => (Ty.track_loses0 t h.2).map _
  | .refCell t, h => (Ty.track_loses0 t h.2).map _
  | .duration, _ | .systemTime _, _ | .ipv4, _ | .ipv6, _ | .ipAddr, _ | .socketAddrV4, _
  | .socketAddrV6, _ | .socketAddr, _ => .of _
  | .str _, _ => (Loses0.of _).bind fun _ => (Loses0.buffer _).map _
  | .cStr _, _ => (Loses0.of _).bind fun _ => .alloc _
  | .sizedStr _, _ => .of _
  | .sizedSlice t n, h => (Loses0.of _).bind fun _ => .ite (.of _)
      (((Ty.track_noAlloc t h.1).items n 0).keep.loses0.map _)
  | .tuple fs, h => Fields.track_loses0 fs h.2 _
  | .struct fs, h => Fields.track_loses0 fs h.2 _
  | .enum _ vs, h => (Loses0.of _).bind fun _ => Variants.track_loses0 vs h.2 none _

theorem Fields.track_loses0 : (fs : Fields) → EverywhereFields PlainItems fs → ∀ g,
    Loses0 (fs.track g)
  | .nil, _, _ => .of _
  | .cons t fs, h, g => ((Ty.track_loses0 t h.1).mapErr g).bind fun _ =>
      (Fields.track_loses0 fs h.2 g).map _

theorem Variants.track_loses0 : (vs : Variants) → EverywhereVariants PlainItems vs → ∀ p x,
    Loses0 (vs.track p x)
  | .nil, _, _, _ => .of _
  | .cons _ fs vs, h, _, _ => .ite ((Fields.track_loses0 fs h.1 _).map _)
      ((Variants.track_loses0 vs h.2 _ _).map _)

end

end Oct
