import Verif.Spec.Track
/-
Decoding with an account of the heap: it decodes as `decode` does, and each allocation is in one place.
-/
namespace Oct
open Spec

/-- The account does not change what is decoded. -/
def Erases {α : Type} (m : Track α) (d : Dec α) : Prop :=
  ∀ I n, (m I n).res = (d I).1 ∧ (m I n).rest = (d I).2

namespace Erases
variable {α β : Type}

theorem of (d : Dec α) : Erases (Track.of d) d := fun _ _ => ⟨rfl, rfl⟩

theorem alloc (a : α) : Erases (Track.alloc a) (pure a) := fun _ _ => ⟨rfl, rfl⟩

theorem mapErr {m : Track α} {d : Dec α} (h : Erases m d) (g : DecErr → DecErr) :
    Erases (m.mapErr g) (d.mapErr g) := fun I n => by
  unfold Track.mapErr Dec.mapErr
  simp only
  rw [(h I n).1, (h I n).2]
  exact ⟨rfl, rfl⟩

theorem after_res (raw : Bool) (x : Tracked α) (y : Tracked β) :
    (Track.after raw x y).res = y.res ∧ (Track.after raw x y).rest = y.rest := by
  unfold Track.after
  cases h : y.res <;> exact ⟨rfl, rfl⟩

theorem bindWith {raw : Bool} {m : Track α} {d : Dec α} {f : α → Track β} {g : α → Dec β}
    (h : Erases m d) (hf : ∀ a, Erases (f a) (g a)) : Erases (Track.bindWith raw m f) (d >>= g) := by
  intro I n
  show _ = (Dec.bind d g I).1 ∧ _ = (Dec.bind d g I).2
  unfold Track.bindWith Dec.bind
  have h1 := (h I n).1
  have h2 := (h I n).2
  simp only
  rcases hq : d I with ⟨r, I1⟩
  rw [hq] at h1 h2
  cases r with
  | ok a =>
    rw [h1]
    simp only
    rw [(after_res _ _ _).1, (after_res _ _ _).2, h2]
    exact hf a I1 _
  | err e => rw [h1]; exact ⟨rfl, h2⟩
  | panic p => rw [h1]; exact ⟨rfl, h2⟩
  | ub u => rw [h1]; exact ⟨rfl, h2⟩

theorem bind {m : Track α} {d : Dec α} {f : α → Track β} {g : α → Dec β}
    (h : Erases m d) (hf : ∀ a, Erases (f a) (g a)) : Erases (Track.bind m f) (d >>= g) :=
  bindWith h hf

theorem map {m : Track α} {d : Dec α} (h : Erases m d) (f : α → β) :
    Erases (m.map f) (d >>= fun a => pure (f a)) := by
  intro I n
  show _ = (Dec.bind d _ I).1 ∧ _ = (Dec.bind d _ I).2
  unfold Track.map Dec.bind
  have h1 := (h I n).1
  have h2 := (h I n).2
  simp only
  rcases hq : d I with ⟨r, I1⟩
  rw [hq] at h1 h2
  rw [h1, h2]
  cases r <;> exact ⟨rfl, rfl⟩

theorem keep {m : Track α} {d : Dec α} (h : Erases m d) : Erases m.keep d := h

theorem ite {c : Prop} [Decidable c] {m m' : Track α} {d d' : Dec α} (h : Erases m d)
    (h' : Erases m' d') : Erases (if c then m else m') (if c then d else d') := by
  split
  · exact h
  · exact h'

end Erases

section
variable {α β : Type}

theorem trackItems_erases {m : Track α} {d : Dec α} (h : Erases m d) :
    ∀ n i, Erases (trackItems m n i) (decItems d n i)
  | 0, _ => .of _
  | n + 1, i => (h.mapErr _).bindWith fun v => (trackItems_erases h n (i + 1)).map _

theorem pure_bind_dec (a : α) (g : α → Dec β) : ((pure a : Dec α) >>= g) = g a := rfl

theorem trackBuffer_erases (len : Nat) : Erases (trackBuffer len) (pure ()) := by
  unfold trackBuffer
  split
  · exact .of _
  · exact .alloc _

theorem trackVec_erases {m : Track α} {d : Dec α} (h : Erases m d) : Erases (trackVec m) (decSeq d) :=
  (Erases.of decUsize).bind fun len =>
    ((trackBuffer_erases len).bind fun _ => (trackItems_erases h len 0).map _ :)

theorem trackNodes_erases {m : Track α} {d : Dec α} (h : Erases m d) :
    ∀ n i, Erases (trackNodes m n i) (decItems d n i)
  | 0, _ => .of _
  | n + 1, i => (h.mapErr _).bind fun v =>
      ((Erases.alloc ()).bind fun _ => (trackNodes_erases h n (i + 1)).map _ :)

theorem trackList_erases {m : Track α} {d : Dec α} (h : Erases m d) : Erases (trackList m) (decSeq d) :=
  (Erases.of decUsize).bind fun len => (trackNodes_erases h len 0).map _

theorem trackSized_erases {m : Track α} {d : Dec α} (h : Erases m d) (n : Nat) :
    Erases (trackSized m n) (decSizedSlice d n) :=
  (Erases.of decUsize).bind fun len => .ite (.of _) ((trackItems_erases h n 0).keep.map _)

theorem trackMapLoop_erases [DecidableEq α] {mK : Track α} {dK : Dec α} {mV : Track β} {dV : Dec β}
    (hK : Erases mK dK) (hV : Erases mV dV) : ∀ c i m h,
    Erases (trackMapLoop mK mV c i m h) (decMapLoop dK dV c i m)
  | 0, _, _, _ => fun _ _ => ⟨rfl, rfl⟩
  | c + 1, i, m, h => fun I n => by
    have hd : decMapLoop dK dV (c + 1) i m I
        = Dec.bind (dK.mapErr (fun e => .badItem (.item i e))) (fun k =>
            Dec.bind (dV.mapErr (fun e => .badItem (.item i e))) fun v =>
              decMapLoop dK dV c (i + 1)
                ⟨mapInsert k v m.val, mapInsert_nodup k v m.val m.property⟩) I := rfl
    rw [hd]
    unfold trackMapLoop Dec.bind
    have h1 := hK.mapErr (fun e => .badItem (.item i e)) I n
    simp only
    rcases hq : dK.mapErr (fun e => .badItem (.item i e)) I with ⟨r, I1⟩
    rw [hq] at h1
    simp only at h1
    rw [h1.1]
    cases r with
    | err e => exact ⟨rfl, h1.2⟩
    | panic p => exact ⟨rfl, h1.2⟩
    | ub u => exact ⟨rfl, h1.2⟩
    | ok k =>
      simp only
      rw [h1.2]
      generalize (Track.mapErr (fun e => .badItem (.item i e)) mK I n) = x
      have h2 := hV.mapErr (fun e => .badItem (.item i e)) I1 x.next
      rcases hq2 : dV.mapErr (fun e => .badItem (.item i e)) I1 with ⟨r, I2⟩
      rw [hq2] at h2
      simp only at h2
      rw [h2.1]
      cases r with
      | err e => exact ⟨rfl, h2.2⟩
      | panic p => exact ⟨rfl, h2.2⟩
      | ub u => exact ⟨rfl, h2.2⟩
      | ok v =>
        simp only
        rw [h2.2]
        exact trackMapLoop_erases hK hV c (i + 1) _ _ I2 _

theorem trackHashMap_erases [DecidableEq α] {mK : Track α} {dK : Dec α} {mV : Track β} {dV : Dec β}
    (hK : Erases mK dK) (hV : Erases mV dV) : Erases (trackHashMap mK mV) (decHashMap dK dV) :=
  (Erases.of decUsize).bind fun len =>
    ((trackBuffer_erases len).bind fun _ => trackMapLoop_erases hK hV len 0 _ _ :)

theorem trackSetLoop_erases [DecidableEq α] {mK : Track α} {dK : Dec α} (hK : Erases mK dK) :
    ∀ c i s o k, Erases (trackSetLoop mK c i s o k) (decSetLoop dK c i s)
  | 0, _, _, _, _ => fun _ _ => ⟨rfl, rfl⟩
  | c + 1, i, s, o, kp => fun I n => by
    have hd : decSetLoop dK (c + 1) i s I
        = Dec.bind (dK.mapErr (fun e => .badItem (.item i e))) (fun k =>
              decSetLoop dK c (i + 1) ⟨setInsert k s.val, setInsert_nodup k s.val s.property⟩) I := rfl
    rw [hd]
    unfold trackSetLoop Dec.bind
    have h1 := hK.mapErr (fun e => .badItem (.item i e)) I n
    simp only
    rcases hq : dK.mapErr (fun e => .badItem (.item i e)) I with ⟨r, I1⟩
    rw [hq] at h1
    simp only at h1
    rw [h1.1]
    cases r with
    | err e => exact ⟨rfl, h1.2⟩
    | panic p => exact ⟨rfl, h1.2⟩
    | ub u => exact ⟨rfl, h1.2⟩
    | ok k =>
      simp only
      rw [h1.2]
      split
      · exact trackSetLoop_erases hK c (i + 1) _ _ _ I1 _
      · exact trackSetLoop_erases hK c (i + 1) _ _ _ I1 _

theorem trackHashSet_erases [DecidableEq α] {mK : Track α} {dK : Dec α} (hK : Erases mK dK) :
    Erases (trackHashSet mK) (decHashSet dK) :=
  (Erases.of decUsize).bind fun len =>
    ((trackBuffer_erases len).bind fun _ => trackSetLoop_erases hK len 0 _ _ _ :)

theorem trackOption_erases {m : Track α} {d : Dec α} (h : Erases m d) :
    Erases (trackOption m) (decOption d) :=
  (Erases.of decBool).bind fun _ => .ite (h.map _) (.of _)

theorem trackResult_erases {m : Track α} {d : Dec α} {m' : Track β} {d' : Dec β} (h : Erases m d)
    (h' : Erases m' d') : Erases (trackResult m m') (decResult d d') :=
  (Erases.of decBool).bind fun _ => .ite ((h'.mapErr _).map _) ((h.mapErr _).map _)

theorem trackBound_erases {m : Track α} {d : Dec α} (h : Erases m d) :
    Erases (trackBound m) (decBound d) :=
  (Erases.of decU8).bind fun _ => .ite ((h.mapErr _).map _) (.ite ((h.mapErr _).map _)
    (.ite (.of _) (.of _)))

end

mutual

theorem Ty.track_erases : (t : Ty) → Erases t.track t.decode
  | .num k => .of _
  | .bool => .of _
  | .char => .of _
  | .usize => .of _
  | .isize => .of _
  | .nonZero r => .of _
  | .unit _ => .of _
  | .infallible => .of _
  | .wrap w t => by
    intro I n
    have h := (Ty.track_erases t).bind (f := fun v => if w.boxes then Track.alloc v else Track.of (pure v))
      (g := pure) (fun v => by
        split
        · exact .alloc v
        · exact .of _) I n
    have e : (t.decode >>= pure) I = t.decode I := by
      show Dec.bind t.decode Dec.pure I = _
      unfold Dec.bind Dec.pure
      rcases t.decode I with ⟨r, I1⟩
      cases r <;> rfl
    rw [e] at h
    exact h
  | .array t n => trackItems_erases t.track_erases n 0
  | .seq .linkedList t => trackList_erases t.track_erases
  | .seq .vec t => trackVec_erases t.track_erases
  | .seq .slice t => trackVec_erases t.track_erases
  | .hashMap k v => @trackHashMap_erases _ _ k.decEq _ _ _ _ k.track_erases v.track_erases
  | .hashSet k => @trackHashSet_erases _ k.decEq _ _ k.track_erases
  | .option t => trackOption_erases t.track_erases
  | .result t e => trackResult_erases t.track_erases e.track_erases
  | .bound t => trackBound_erases t.track_erases
  | .range t => t.track_erases.bind fun _ => t.track_erases.map _
  | .rangeInclusive t => t.track_erases.bind fun _ => t.track_erases.map _
  | .lock _ t => t.track_erases.map _
  | .refCell t => t.track_erases.map _
  | .duration => .of _
  | .systemTime p => .of _
  | .ipv4 => .of _
  | .ipv6 => .of _
  | .ipAddr => .of _
  | .socketAddrV4 => .of _
  | .socketAddrV6 => .of _
  | .socketAddr => .of _
  | .str _ => by
    intro I n
    have h := (Erases.of decString).bind (f := fun s => (trackBuffer s.val.length).map fun _ => s)
      (g := fun s => pure () >>= fun _ => pure s) (fun s => (trackBuffer_erases _).map _) I n
    have e : (decString >>= fun s => pure () >>= fun _ => pure s) I = decString I := by
      show Dec.bind decString Dec.pure I = _
      unfold Dec.bind Dec.pure
      rcases decString I with ⟨r, I1⟩
      cases r <;> rfl
    rw [e] at h
    exact h
  | .cStr _ => by
    intro I n
    have h := (Erases.of decCString).bind (f := fun s => Track.alloc s) (g := pure)
      (fun s => .alloc s) I n
    have e : (decCString >>= pure) I = decCString I := by
      show Dec.bind decCString Dec.pure I = _
      unfold Dec.bind Dec.pure
      rcases decCString I with ⟨r, I1⟩
      cases r <;> rfl
    rw [e] at h
    exact h
  | .sizedStr n => .of _
  | .sizedSlice t n => trackSized_erases t.track_erases n
  | .tuple fs => fs.track_erases _
  | .struct fs => fs.track_erases _
  | .enum r vs => (Erases.of (decRepr r)).bind fun x => vs.track_erases none x

theorem Fields.track_erases : (fs : Fields) → ∀ g, Erases (fs.track g) (fs.decode g)
  | .nil, _ => .of _
  | .cons t fs, g => (t.track_erases.mapErr g).bind fun _ => (fs.track_erases g).map _

theorem Variants.track_erases : (vs : Variants) → ∀ p x, Erases (vs.track p x) (vs.decode p x)
  | .nil, _, _ => .of _
  | .cons d fs vs, p, x => by
    unfold Variants.track Variants.decode
    split
    · exact (fs.track_erases _).map _
    · exact (vs.track_erases _ _).map _

end

end Oct
