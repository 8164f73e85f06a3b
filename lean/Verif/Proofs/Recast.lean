import Verif.Spec.Recast
import Verif.Proofs.Evolution
import Verif.Proofs.Values
/- Lemmas for C135: types that take the place of others are encoded the same. -/
namespace Oct
open Spec
set_option linter.unusedVariables false

/-- Wherever the first encoder succeeds, the second one does the same. -/
def Suits (e e' : Enc Unit) : Prop := ∀ o o', e o = (.ok (), o') → e' o = (.ok (), o')

namespace Suits

theorem refl (e : Enc Unit) : Suits e e := fun _ _ h => h

theorem of_eq {e e' : Enc Unit} (h : e' = e) : Suits e e' := h ▸ refl e

theorem trans {a b c : Enc Unit} (h : Suits a b) (h' : Suits b c) : Suits a c :=
  fun o o' hd => h' o o' (h o o' hd)

theorem fail (x : EncErr) (e : Enc Unit) : Suits (Enc.fail x) e := fun _ _ h => nomatch h

theorem panic (p : Panic) (e : Enc Unit) : Suits (Enc.panic p) e := fun _ _ h => nomatch h

theorem bind {a a' b b' : Enc Unit} (h : Suits a a') (h' : Suits b b') :
    Suits (do a; b) (do a'; b') := by
  intro o o' hd
  replace hd : Enc.bind a (fun _ => b) o = _ := hd
  show Enc.bind a' (fun _ => b') o = _
  unfold Enc.bind at hd ⊢
  cases ha : a o with
  | mk r p =>
    rw [ha] at hd
    cases r with
    | ok x =>
      rw [h o p ha]
      exact h' p o' hd
    | err e => nomatch hd
    | panic e => nomatch hd
    | ub e => nomatch hd

theorem mapErr {a a' : Enc Unit} (h : Suits a a') (g g' : EncErr → EncErr) :
    Suits (a.mapErr g) (a'.mapErr g') := by
  intro o o' hd
  unfold Enc.mapErr at hd ⊢
  cases ha : a o with
  | mk r p =>
    rw [ha] at hd
    cases r with
    | ok x =>
      rw [h o p ha]
      exact hd
    | err e => nomatch hd
    | panic e => nomatch hd
    | ub e => nomatch hd

/-- Errors are told in another way, or not. -/
theorem mapErr_left {a a' : Enc Unit} (h : Suits a a') (g : EncErr → EncErr) : Suits (a.mapErr g) a' := by
  intro o o' hd
  unfold Enc.mapErr at hd
  cases ha : a o with
  | mk r p =>
    rw [ha] at hd
    cases r with
    | ok x =>
      rw [h o p ha]
      exact hd
    | err e => nomatch hd
    | panic e => nomatch hd
    | ub e => nomatch hd

theorem mapErr_right {a a' : Enc Unit} (h : Suits a a') (g : EncErr → EncErr) : Suits a (a'.mapErr g) := by
  intro o o' hd
  unfold Enc.mapErr
  rw [h o o' hd]
  rfl

/-- Nothing is written after all else. -/
theorem done_right {a a' : Enc Unit} (h : Suits a a') : Suits a (do a'; Enc.pure ()) := by
  intro o o' hd
  show Enc.bind a' _ o = _
  unfold Enc.bind
  rw [h o o' hd]
  rfl

theorem done_left {a a' : Enc Unit} (h : Suits a a') : Suits (do a; Enc.pure ()) a' := by
  intro o o' hd
  replace hd : Enc.bind a _ o = _ := hd
  unfold Enc.bind at hd
  cases ha : a o with
  | mk r p =>
    rw [ha] at hd
    cases r with
    | ok x =>
      rw [h o p ha]
      exact hd
    | err e => nomatch hd
    | panic e => nomatch hd
    | ub e => nomatch hd

end Suits

theorem toLe_mod (n x : Nat) : toLe n (x % 256 ^ n) = toLe n x := by
  have h := toLe_fromLe (toLe n x)
  rwa [toLe_length, fromLe_toLe] at h

theorem encNum_mod (n x : Nat) : encNum n (x % 256 ^ n) = encNum n x := by
  unfold encNum
  rw [toLe_mod]

theorem numbered_eq (before d : Option Nat) : numbered before d = nextDisc before d := by
  cases d <;> cases before <;> rfl

theorem encItems_fits {α β : Type} {f : α → β} {enc : α → Enc Unit} {enc' : β → Enc Unit}
    (h : ∀ v, Suits (enc v) (enc' (f v))) (wrap wrap' : Nat → EncErr → EncErr) :
    ∀ (i : Nat) (l : List α), Suits (encItems enc wrap i l) (encItems enc' wrap' i (l.map f))
  | _, [] => .refl _
  | i, v :: l => .bind ((h v).mapErr _ _) (encItems_fits h wrap wrap' (i + 1) l)

/-- All kinds of sequences. -/
theorem encSeq_fits {t u : Ty} {f : t.Val → u.Val} (h : ∀ v, Suits (t.encode v) (u.encode (f v)))
    (k k' : SeqKind) (l : List t.Val) :
    Suits ((Ty.seq k t).encode l) ((Ty.seq k' u).encode (List.map f l)) := by
  have e : (List.map f l).length = l.length := List.length_map _
  cases k <;> cases k' <;>
    exact .bind (by rw [e]; exact (Suits.refl _).mapErr _ _) (encItems_fits h _ _ 0 l)

theorem encSeq_kinds (t : Ty) (k k' : SeqKind) (l : List t.Val) :
    Suits ((Ty.seq k t).encode l) ((Ty.seq k' t).encode l) := by
  have := encSeq_fits (t := t) (u := t) (f := id) (fun v => .refl _) k k' l
  rwa [List.map_id] at this

theorem encBytes_octets (k : SeqKind) (bs : List Byte) :
    Suits (encBytes bs) ((Ty.seq k (.num (.int .u8))).encode (octets bs)) := by
  have e : (octets bs).length = bs.length := List.length_map _
  have hb : ∀ b : Byte, Suits (encU8 b.toNat) ((Ty.num (.int .u8)).encode b.toBitVec) :=
    fun b => .refl _
  cases k <;>
    exact .bind (by rw [e]; exact (Suits.refl _).mapErr _ _) (encItems_fits hb _ _ 0 bs)

theorem encHashMap_fits {α β γ δ : Type} {f : α → γ} {g : β → δ} {ek : α → Enc Unit}
    {ek' : γ → Enc Unit} {ev : β → Enc Unit} {ev' : δ → Enc Unit}
    (hk : ∀ v, Suits (ek v) (ek' (f v))) (hv : ∀ v, Suits (ev v) (ev' (g v))) :
    ∀ l : List (α × β), Suits (encHashMap ek ev l) (encHashMap ek' ev' (l.map fun p => (f p.1, g p.2)))
  | [] => .refl _
  | (k, v) :: l => .bind (hk k) (.bind (hv v) (encHashMap_fits hk hv l))

theorem encHashSet_fits {α γ : Type} {f : α → γ} {ek : α → Enc Unit} {ek' : γ → Enc Unit}
    (hk : ∀ v, Suits (ek v) (ek' (f v))) :
    ∀ l : List α, Suits (encHashSet ek l) (encHashSet ek' (l.map f))
  | [] => .refl _
  | k :: l => .bind (hk k) (encHashSet_fits hk l)

theorem encArray_times (t : Ty) (g : EncErr → EncErr) (wrap : Nat → EncErr → EncErr) :
    ∀ (n i : Nat) (v : Items t.Val n),
      Suits (encItems t.encode wrap i v.1) ((times t n).encode g (timesVals t n v))
  | 0, i, ⟨[], _⟩ => .refl _
  | n + 1, i, ⟨[], h⟩ => nomatch h
  | n + 1, i, ⟨a :: l, h⟩ =>
    .bind ((Suits.refl _).mapErr _ _) (encArray_times t g wrap n (i + 1) ⟨l, Nat.succ.inj h⟩)

theorem encFields_append : ∀ (fs gs : Fields) (g : EncErr → EncErr) (v : fs.Val) (w : gs.Val),
    Suits (do fs.encode EncErr.toGeneric v; gs.encode g w) ((appendFields fs gs).encode g (appendVals fs v w))
  | .nil, gs, g, _, w => .refl _
  | .cons t fs, gs, g, v, w => by
    have ih := encFields_append fs gs g v.2 w
    have e : (do (Fields.cons t fs).encode EncErr.toGeneric v; gs.encode g w : Enc Unit)
        = (do (t.encode v.1).mapErr EncErr.toGeneric
              (do fs.encode EncErr.toGeneric v.2; gs.encode g w : Enc Unit) : Enc Unit) := by
      funext o
      show Enc.bind (Enc.bind ((t.encode v.1).mapErr EncErr.toGeneric)
        fun _ => fs.encode EncErr.toGeneric v.2) (fun _ => gs.encode g w) o
        = Enc.bind ((t.encode v.1).mapErr EncErr.toGeneric)
            (fun _ => Enc.bind (fs.encode EncErr.toGeneric v.2) fun _ => gs.encode g w) o
      unfold Enc.bind
      cases (t.encode v.1).mapErr EncErr.toGeneric o with
      | mk r p => cases r <;> rfl
    rw [e]
    exact .bind ((Suits.refl _).mapErr _ _) ih

theorem RecastFields.fits_self : ∀ (fs : Fields) (g g' : EncErr → EncErr) (v : fs.Val),
    Suits (fs.encode g v) (fs.encode g' v)
  | .nil, _, _, _ => .refl _
  | .cons t fs, g, g', v => .bind ((Suits.refl _).mapErr _ _) (RecastFields.fits_self fs g g' v.2)

theorem encVariants_numbered {us : Variants} {before : Option Nat} {n : Nat} {gs : Fields}
    {i : gs.Val → us.Val} (h : Numbered us before n gs i) (r : Repr) (v : gs.Val) :
    us.encode r before (i v) = (do (encRepr r n).mapErr .badDiscriminant
                                   gs.encode (fun e => .badField e.toGeneric) v) := by
  induction h with
  | here d gs us before => rw [numbered_eq]; rfl
  | there d fs before hn h ih =>
    rw [numbered_eq] at ih
    exact ih v

theorem encNum_ofNat (n x : Nat) : encNum n (BitVec.ofNat (8 * n) x).toNat = encNum n x := by
  rw [BitVec.toNat_ofNat, Nat.pow_mul]
  exact encNum_mod n x

theorem cast_toNat (k k' : NumKind) (h : k.bytes = k'.bytes) (v : BitVec (8 * k.bytes)) :
    encNum k'.bytes (BitVec.cast (congrArg (8 * ·) h) v).toNat = encNum k.bytes v.toNat := by
  rw [BitVec.toNat_cast]
  exact congrArg (fun n => encNum n v.toNat) h.symm

theorem ofInt_toNat (w : Nat) (x : Int) : (BitVec.ofInt w x).toNat = (x % (2 : Int) ^ w).toNat := by
  rw [BitVec.toNat_ofInt]
  congr 2

mutual

theorem Recast.fits : {x : Bool} → {t u : Ty} → {f : t.Val → u.Val} → Recast x t u f → (v : t.Val) →
    Suits (t.encode v) (u.encode (f v))
  | _, _, _, _, .same _ _, v => .refl _
  | _, _, _, _, .trans h h', v => (Recast.fits h v).trans (Recast.fits h' _)
  | _, _, _, _, .unwrap _ _ _, v => .refl _
  | _, _, _, _, .rewrap _ _ _, v => .refl _
  | _, _, _, _, .unlock _ _ _, v => .refl _
  | _, _, _, _, .relock _ _ _, v => .refl _
  | _, _, _, _, .unborrow _ t, v => by
    show Suits (encRefCell t.encode v) (t.encode v.val)
    unfold encRefCell
    split
    · exact .fail _ _
    · exact (Suits.refl _).mapErr_left _
  | _, _, _, _, .reborrow _ _, v => (Suits.refl _).mapErr_right _
  | _, _, _, _, .seqKind _ k k' t, v => by
    exact encSeq_kinds t k k' v
  | _, _, _, _, .grown t n k, v => encSeq_kinds t .vec k v.1
  | _, _, _, _, .strKind _ _ _, v => .refl _
  | _, _, _, _, .cStrKind _ _ _, v => .refl _
  | _, _, _, _, .longer _ _ _ _, v => .refl _
  | _, _, _, _, .unsized _ _ _, v => .refl _
  | _, _, _, _, .textOctets _ _ k, v => encBytes_octets k v.1
  | _, _, _, _, .cTextOctets _ _ k, v => encBytes_octets k v.1
  | _, _, _, _, .width _ k k' h, v => .of_eq (cast_toNat k k' h v)
  | _, _, _, _, .usizeNum _, v => by
    show Suits (encUsize v) (encNum 2 (BitVec.ofNat 16 v).toNat)
    unfold encUsize
    split
    · exact .of_eq (encNum_ofNat 2 v)
    · exact .fail _ _
  | _, _, _, _, .numUsize _, v => by
    have h : (show BitVec 16 from v).toNat < 2 ^ 16 := BitVec.isLt _
    show Suits (encNum 2 (show BitVec 16 from v).toNat) (encUsize (show BitVec 16 from v).toNat)
    unfold encUsize
    rw [if_pos (by omega)]
    exact .refl _
  | _, _, _, _, .isizeNum _, v => by
    show Suits (encIsize v) (encNum 2 (BitVec.ofInt 16 v).toNat)
    unfold encIsize
    split
    · exact .of_eq (congrArg (encNum 2) (ofInt_toNat 16 v))
    · exact .fail _ _
  | _, _, _, _, .numIsize _, v => by
    have h1 := BitVec.toInt_lt (x := (show BitVec 16 from v))
    have h2 := BitVec.le_toInt (x := (show BitVec 16 from v))
    show Suits (encNum 2 (show BitVec 16 from v).toNat) (encIsize (show BitVec 16 from v).toInt)
    unfold encIsize
    rw [if_pos (by omega)]
    refine .of_eq (congrArg (encNum 2) ?_)
    have := ofInt_toNat 16 (show BitVec 16 from v).toInt
    rw [BitVec.ofInt_toInt] at this
    exact this.symm
  | _, _, _, _, .zeroed _ k, v => .of_eq (congrArg (encNum k.bytes) (ofInt_toNat _ _))
  | _, _, _, _, .zeroedUsize _, v => .refl _
  | _, _, _, _, .zeroedIsize _, v => .refl _
  | _, _, _, _, .boolNum, true => .refl _
  | _, _, _, _, .boolNum, false => .refl _
  | _, _, _, _, .charNum, c => by
    exact .of_eq (encNum_ofNat 4 _)
  | _, _, _, _, .unitKind _ _ _, v => .refl _
  | _, _, _, _, .unitStruct _ _, v => .refl _
  | _, _, _, _, .tupleStruct _ fs, v => RecastFields.fits_self fs _ _ v
  | _, _, _, _, .structTuple _ fs, v => RecastFields.fits_self fs _ _ v
  | _, _, _, _, .newtype _ t, v => ((Suits.refl _).mapErr_right _).done_right
  | _, _, _, _, .oldtype _ t, v => ((Suits.refl _).mapErr_left _).done_left
  | _, _, _, _, .arrayFields _ t n, v => encArray_times t _ _ n 0 v
  | _, _, _, _, .rangeFields _ t, v =>
    .bind ((Suits.refl _).mapErr_right _) ((Suits.refl _).mapErr_right _).done_right
  | _, _, _, _, .fieldsRange _ t, v =>
    .bind ((Suits.refl _).mapErr_left _) ((Suits.refl _).mapErr_left _).done_left
  | _, _, _, _, .inclusiveFields _ t, v =>
    .bind ((Suits.refl _).mapErr_right _) ((Suits.refl _).mapErr_right _).done_right
  | _, _, _, _, .fieldsInclusive _ t, v =>
    .bind ((Suits.refl _).mapErr_left _) ((Suits.refl _).mapErr_left _).done_left
  | _, _, _, _, .boundVariants _ t, .included a =>
    .bind ((Suits.refl _).mapErr_right _) (((Suits.refl _).mapErr _ _).done_right)
  | _, _, _, _, .boundVariants _ t, .excluded a =>
    .bind ((Suits.refl _).mapErr_right _) (((Suits.refl _).mapErr _ _).done_right)
  | _, _, _, _, .boundVariants _ t, .unbounded => ((Suits.refl _).mapErr_right _).done_right
  | _, _, _, _, .optionVariants t, none => ((Suits.refl _).mapErr_right _).done_right
  | _, _, _, _, .optionVariants t, some a =>
    .bind ((Suits.refl _).mapErr_right _) (((Suits.refl _).mapErr_right _).done_right)
  | _, _, _, _, .resultVariants t e, .ok a =>
    .bind ((Suits.refl _).mapErr_right _) (((Suits.refl _).mapErr_right _).done_right)
  | _, _, _, _, .resultVariants t e, .err a =>
    .bind ((Suits.refl _).mapErr_right _) (((Suits.refl _).mapErr _ _).done_right)
  | _, _, _, _, .durationFields, v => by
    refine .bind ((Suits.refl _).mapErr_right _) (Suits.done_right (Suits.mapErr_right ?_ _))
    exact .of_eq (encNum_ofNat 4 _)
  | _, _, _, _, .ipv4Num _, v => by
    exact .of_eq (encNum_ofNat 4 _)
  | _, _, _, _, .ipv6Num _, v => by
    exact .of_eq (encNum_ofNat 16 _)
  | _, _, _, _, .ipVariants _, .v4 a =>
    .bind ((Suits.refl _).mapErr _ _) (((Suits.refl _).mapErr _ _).done_right)
  | _, _, _, _, .ipVariants _, .v6 a =>
    .bind ((Suits.refl _).mapErr _ _) (((Suits.refl _).mapErr _ _).done_right)
  | _, _, _, _, .socketV4Fields _, v =>
    .bind ((Suits.refl _).mapErr_right _) ((Suits.refl _).mapErr_right _).done_right
  | _, _, _, _, .socketV6Fields _, v =>
    .bind ((Suits.refl _).mapErr_right _) (.bind ((Suits.refl _).mapErr_right _)
      (.bind ((Suits.refl _).mapErr_right _) ((Suits.refl _).mapErr_right _).done_right))
  | _, _, _, _, .socketVariants _, .v4 a =>
    .bind ((Suits.refl _).mapErr_right _) (((Suits.refl _).mapErr_right _).done_right)
  | _, _, _, _, .socketVariants _, .v6 a =>
    .bind ((Suits.refl _).mapErr_right _) (((Suits.refl _).mapErr_right _).done_right)
  | _, _, _, _, .array _ h, v => encItems_fits (Recast.fits h) _ _ _ _
  | _, _, _, _, .seq k h, v => encSeq_fits (Recast.fits h) k k v
  | _, _, _, _, .hashMap _ h h', v => encHashMap_fits (Recast.fits h) (Recast.fits h') _
  | _, _, _, _, .hashSet _ h, v => encHashSet_fits (Recast.fits h) _
  | _, _, _, _, .option h, none => .refl _
  | _, _, _, _, .option h, some v => .bind (.refl _) (Recast.fits h v)
  | _, _, _, _, .result h h', .ok v => .bind (.refl _) (Recast.fits h v)
  | _, _, _, _, .result h h', .err v => .bind (.refl _) ((Recast.fits h' v).mapErr _ _)
  | _, _, _, _, .bound h, .included v => .bind (.refl _) ((Recast.fits h v).mapErr _ _)
  | _, _, _, _, .bound h, .excluded v => .bind (.refl _) ((Recast.fits h v).mapErr _ _)
  | _, _, _, _, .bound h, .unbounded => .refl _
  | _, _, _, _, .range h, v => .bind (Recast.fits h _) (Recast.fits h _)
  | _, _, _, _, .rangeInclusive h, v => .bind (Recast.fits h _) (Recast.fits h _)
  | _, _, _, _, .lock _ h, v => Recast.fits h v.val
  | _, _, _, _, .refCell (t := t) (u := u) (f := f) h, v => by
    show Suits (encRefCell t.encode v) (encRefCell u.encode ⟨v.mutBorrowed, f v.val⟩)
    unfold encRefCell
    split
    · exact .fail _ _
    · exact (Recast.fits h v.val).mapErr _ _
  | _, _, _, _, .sizedSlice _ h, v => encSeq_fits (Recast.fits h) .vec .vec v.1
  | _, _, _, _, .struct h, v => RecastFields.fits h _ _ v
  | _, _, _, _, .enum r h, v => RecastVariants.fits h r v

theorem RecastFields.fits : {x : Bool} → {fs gs : Fields} → {f : fs.Val → gs.Val} →
    RecastFields x fs gs f → (g g' : EncErr → EncErr) → (v : fs.Val) →
    Suits (fs.encode g v) (gs.encode g' (f v))
  | _, _, _, _, .nil _, _, _, _ => .refl _
  | _, _, _, _, .cons h hs, g, g', v => .bind ((Recast.fits h v.1).mapErr _ _) (RecastFields.fits hs g g' v.2)
  | _, _, _, _, .dissolve es hs, g, g', v =>
    (Suits.bind ((Suits.refl _).mapErr_left _) (RecastFields.fits hs g g' v.2)).trans
      (encFields_append es _ g' v.1 _)

theorem RecastVariants.fits : {x : Bool} → {ws vs : Variants} → {before : Option Nat} →
    {f : vs.Val → ws.Val} → RecastVariants x ws vs before f → (r : Repr) → (v : vs.Val) →
    Suits (vs.encode r before v) (ws.encode r none (f v))
  | _, _, _, _, _, .nil _ _ _ _, _, v => nomatch v
  | _, _, _, _, _, .cons d before h hi hs, r, .inl v => by
    have e := encVariants_numbered hi r
    dsimp only
    rw [e, numbered_eq]
    exact .bind (.refl _) (RecastFields.fits h _ _ v)
  | _, _, _, _, _, .cons d before h hi hs, r, .inr v => by
    have := RecastVariants.fits hs r v
    rw [numbered_eq] at this
    exact this

end

end Oct
