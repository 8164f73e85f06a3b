import Verif.Proofs.TrackTidy
/-
If only sized slices of plain items occur, decoding a value loses and keeps nothing.
-/
namespace Oct
open Spec

/-- If a value is decoded, nothing is lost, or kept where it will be. -/
def Keeps0 {α : Type} (m : Track α) : Prop :=
  ∀ I n v, (m I n).res = .ok v → (m I n).kept = [] ∧ (m I n).lost = []

theorem Loses0.keeps0 {α : Type} {m : Track α} (h : Loses0 m) : Keeps0 m := fun I n _ _ => h I n

theorem NoAlloc.keeps0 {α : Type} {m : Track α} (h : NoAlloc m) : Keeps0 m := h.loses0.keeps0

namespace Keeps0
variable {α β : Type}

theorem of (d : Dec α) : Keeps0 (Track.of d) := (Loses0.of d).keeps0

theorem alloc (a : α) : Keeps0 (Track.alloc a) := (Loses0.alloc a).keeps0

theorem mapErr {m : Track α} (h : Keeps0 m) (g : DecErr → DecErr) : Keeps0 (m.mapErr g) := by
  intro I n v hv
  unfold Track.mapErr at hv
  simp only at hv
  cases hr : (m I n).res with
  | ok a => exact h I n a hr
  | err e => rw [hr] at hv; exact nomatch hv
  | panic e => rw [hr] at hv; exact nomatch hv
  | ub e => rw [hr] at hv; exact nomatch hv

theorem map {m : Track α} (h : Keeps0 m) (f : α → β) : Keeps0 (m.map f) := by
  intro I n v hv
  unfold Track.map at hv
  simp only at hv
  cases hr : (m I n).res with
  | ok a => exact h I n a hr
  | err e => rw [hr] at hv; exact nomatch hv
  | panic e => rw [hr] at hv; exact nomatch hv
  | ub e => rw [hr] at hv; exact nomatch hv

theorem bindWith {raw : Bool} {m : Track α} {f : α → Track β} (h : Keeps0 m)
    (hf : ∀ a, Keeps0 (f a)) : Keeps0 (Track.bindWith raw m f) := by
  intro I n v
  have hx := h I n
  unfold Track.bindWith
  simp only
  cases hr : (m I n).res with
  | err e => intro hv; exact nomatch hv
  | panic e => intro hv; exact nomatch hv
  | ub e => intro hv; exact nomatch hv
  | ok a =>
    have hy := hf a (m I n).rest (m I n).next
    have hx := hx a hr
    simp only
    generalize f a (m I n).rest (m I n).next = y at hy ⊢
    generalize m I n = x at hx hy ⊢
    unfold Track.after
    cases hq : y.res with
    | ok b =>
      intro _
      have hy := hy b hq
      simp [hx.1, hx.2, hy.1, hy.2]
    | err e => intro hv; exact nomatch hv
    | panic e => intro hv; exact nomatch hv
    | ub e => intro hv; exact nomatch hv

theorem bind {m : Track α} {f : α → Track β} (h : Keeps0 m) (hf : ∀ a, Keeps0 (f a)) :
    Keeps0 (Track.bind m f) := bindWith h hf

theorem ite {c : Prop} [Decidable c] {m m' : Track α} (h : Keeps0 m) (h' : Keeps0 m') :
    Keeps0 (if c then m else m') := by
  split
  · exact h
  · exact h'

theorem items {m : Track α} (h : Keeps0 m) : ∀ n i, Keeps0 (trackItems m n i)
  | 0, _ => .of _
  | n + 1, i => (h.mapErr _).bindWith fun _ => (items h n (i + 1)).map _

theorem buffer (len : Nat) : Keeps0 (trackBuffer len) := (Loses0.buffer len).keeps0

theorem nodes {m : Track α} (h : Keeps0 m) : ∀ n i, Keeps0 (trackNodes m n i)
  | 0, _ => .of _
  | n + 1, i => (h.mapErr _).bind fun _ => (alloc ()).bind fun _ => (nodes h n (i + 1)).map _

theorem mapLoop [DecidableEq α] {mK : Track α} {mV : Track β} (hK : Keeps0 mK) (hV : Keeps0 mV) :
    ∀ c i m (h : Holdings), Holdings.kept h = [] → Keeps0 (trackMapLoop mK mV c i m h)
  | 0, _, _, _, hh => fun _ _ _ _ => ⟨hh, rfl⟩
  | c + 1, i, m, h, hh => fun I n w => by
    unfold trackMapLoop
    have hx := (hK.mapErr (fun e => .badItem (.item i e))) I n
    simp only
    generalize Track.mapErr (fun e => .badItem (.item i e)) mK I n = x at hx ⊢
    cases hr : x.res with
    | err e => intro hv; exact nomatch hv
    | panic e => intro hv; exact nomatch hv
    | ub e => intro hv; exact nomatch hv
    | ok k =>
      replace hx := hx k hr
      simp only
      have hy := (hV.mapErr (fun e => .badItem (.item i e))) x.rest x.next
      generalize Track.mapErr (fun e => .badItem (.item i e)) mV x.rest x.next = y at hy ⊢
      cases hr2 : y.res with
      | err e => intro hv; exact nomatch hv
      | panic e => intro hv; exact nomatch hv
      | ub e => intro hv; exact nomatch hv
      | ok v =>
        replace hy := hy v hr2
        simp only
        intro hw
        have hc := fun a => (holdInsert_count k ⟨x.owned, x.kept⟩ ⟨y.owned, y.kept⟩ m.val h a).2
        generalize holdInsert k ⟨x.owned, x.kept⟩ ⟨y.owned, y.kept⟩ m.val h = r at hc hw ⊢
        simp only [hh, hx.1, hy.1, List.count_nil] at hc
        have e1 : Holdings.kept r.1 = [] := List.eq_nil_iff_forall_not_mem.mpr fun a ha => by
          have := List.count_pos_iff.mpr ha
          have := hc a
          omega
        have e2 : r.2.kept = [] := List.eq_nil_iff_forall_not_mem.mpr fun a ha => by
          have := List.count_pos_iff.mpr ha
          have := hc a
          omega
        have hz := mapLoop hK hV c (i + 1)
          ⟨mapInsert k v m.val, mapInsert_nodup k v m.val m.property⟩ r.1 e1 y.rest y.next w hw
        refine ⟨hz.1, ?_⟩
        rw [hx.2, hy.2, e2, hz.2]
        rfl

theorem setLoop [DecidableEq α] {mK : Track α} (hK : Keeps0 mK) :
    ∀ c i s o k, k = [] → Keeps0 (trackSetLoop mK c i s o k)
  | 0, _, _, _, _, hk => fun _ _ _ _ => ⟨hk, rfl⟩
  | c + 1, i, s, o, kp, hk => fun I n w => by
    unfold trackSetLoop
    have hx := (hK.mapErr (fun e => .badItem (.item i e))) I n
    simp only
    generalize Track.mapErr (fun e => .badItem (.item i e)) mK I n = x at hx ⊢
    cases hr : x.res with
    | err e => intro hv; exact nomatch hv
    | panic e => intro hv; exact nomatch hv
    | ub e => intro hv; exact nomatch hv
    | ok k =>
      replace hx := hx k hr
      simp only
      split
      · intro hw
        have hz := setLoop hK c (i + 1) ⟨setInsert k s.val, setInsert_nodup k s.val s.property⟩ o kp hk
          x.rest x.next w hw
        refine ⟨hz.1, ?_⟩
        rw [hx.1, hx.2, hz.2]
        rfl
      · intro hw
        have hz := setLoop hK c (i + 1) ⟨setInsert k s.val, setInsert_nodup k s.val s.property⟩
          (o ++ x.owned) (kp ++ x.kept) (by rw [hk, hx.1]; rfl) x.rest x.next w hw
        refine ⟨hz.1, ?_⟩
        rw [hx.2, hz.2]
        rfl

end Keeps0

mutual

theorem Ty.track_keeps0 : (t : Ty) → Everywhere PlainSized t → Keeps0 t.track
  | .num _, _ | .bool, _ | .char, _ | .usize, _ | .isize, _ | .nonZero _, _ | .unit _, _
  | .infallible, _ => .of _
  | .wrap _ t, h => (Ty.track_keeps0 t h.2).bind fun _ => .ite (.alloc _) (.of _)
  | .array t n, h => (Ty.track_keeps0 t h.2).items n 0
  | .seq .linkedList t, h => (Keeps0.of _).bind fun len => ((Ty.track_keeps0 t h.2).nodes len 0).map _
  | .seq .vec t, h => (Keeps0.of _).bind fun len => (Keeps0.buffer len).bind fun _ =>
      ((Ty.track_keeps0 t h.2).items len 0).map _
  | .seq .slice t, h => (Keeps0.of _).bind fun len => (Keeps0.buffer len).bind fun _ =>
      ((Ty.track_keeps0 t h.2).items len 0).map _
  | .hashMap k v, h => (Keeps0.of _).bind fun len => (Keeps0.buffer len).bind fun _ =>
      @Keeps0.mapLoop _ _ k.decEq _ _ (Ty.track_keeps0 k h.2.1) (Ty.track_keeps0 v h.2.2) len 0 _ [] rfl
  | .hashSet k, h => (Keeps0.of _).bind fun len => (Keeps0.buffer len).bind fun _ =>
      @Keeps0.setLoop _ k.decEq _ (Ty.track_keeps0 k h.2) len 0 _ [] [] rfl
  | .option t, h => (Keeps0.of _).bind fun _ => .ite ((Ty.track_keeps0 t h.2).map _) (.of _)
  | .result t e, h => (Keeps0.of _).bind fun _ =>
      .ite (((Ty.track_keeps0 e h.2.2).mapErr _).map _) (((Ty.track_keeps0 t h.2.1).mapErr _).map _)
  | .bound t, h => (Keeps0.of _).bind fun _ =>
      .ite (((Ty.track_keeps0 t h.2).mapErr _).map _) (.ite (((Ty.track_keeps0 t h.2).mapErr _).map _)
        (.ite (.of _) (.of _)))
  | .range t, h => (Ty.track_keeps0 t h.2).bind fun _ => (Ty.track_keeps0 t h.2).map _
  | .rangeInclusive t, h => (Ty.track_keeps0 t h.2).bind fun _ => (Ty.track_keeps0 t h.2).map _
  | .lock _ t, h => (Ty.track_keeps0 t h.2).map _
  | .refCell t, h => (Ty.track_keeps0 t h.2).map _
  | .duration, _ | .systemTime _, _ | .ipv4, _ | .ipv6, _ | .ipAddr, _ | .socketAddrV4, _
  | .socketAddrV6, _ | .socketAddr, _ => .of _
  | .str _, _ => (Keeps0.of _).bind fun _ => (Keeps0.buffer _).map _
  | .cStr _, _ => (Keeps0.of _).bind fun _ => .alloc _
  | .sizedStr _, _ => .of _
  | .sizedSlice t n, h => (Keeps0.of _).bind fun _ => .ite (.of _)
      (((Ty.track_noAlloc t h.1).items n 0).keep.keeps0.map _)
  | .tuple fs, h => Fields.track_keeps0 fs h.2 _
  | .struct fs, h => Fields.track_keeps0 fs h.2 _
  | .enum _ vs, h => (Keeps0.of _).bind fun _ => Variants.track_keeps0 vs h.2 none _

theorem Fields.track_keeps0 : (fs : Fields) → EverywhereFields PlainSized fs → ∀ g,
    Keeps0 (fs.track g)
  | .nil, _, _ => .of _
  | .cons t fs, h, g => ((Ty.track_keeps0 t h.1).mapErr g).bind fun _ =>
      (Fields.track_keeps0 fs h.2 g).map _

theorem Variants.track_keeps0 : (vs : Variants) → EverywhereVariants PlainSized vs → ∀ p x,
    Keeps0 (vs.track p x)
  | .nil, _, _, _ => .of _
  | .cons _ fs vs, h, _, _ => .ite ((Fields.track_keeps0 fs h.1 _).map _)
      ((Variants.track_keeps0 vs h.2 _ _).map _)

end

end Oct
