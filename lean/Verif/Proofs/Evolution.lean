import Verif.Spec.Evolution
import Verif.Model.SizedEncode
import Verif.Proofs.Derived
/- Lemmas for C75 and C76. -/
namespace Oct
open Spec

/-- The two decoders do the same, up to `f`, unless the first one finds an unassigned discriminant. -/
def Agree {α β : Type} (f : α → β) (d : Dec α) (d' : Dec β) : Prop :=
  ∀ i, match d i with
    | (.ok v, j) => d' i = (.ok (f v), j)
    | (.err e, j) => d' i = (.err e, j) ∨ Unknown e
    | (.panic p, j) => d' i = (.panic p, j)
    | (.ub u, j) => d' i = (.ub u, j)

namespace Agree
variable {α β γ δ : Type}

theorem refl (d : Dec α) : Agree id d d := by
  intro i
  cases h : d i with
  | mk r j => cases r <;> simp

theorem pure' {f : α → β} {a : α} {b : β} (h : f a = b) : Agree f (pure a : Dec α) (pure b) := by
  intro i; subst h; rfl

theorem fail {f : α → β} (e : DecErr) : Agree f (Dec.fail e) (Dec.fail e) := fun _ => .inl rfl

theorem unassigned {f : α → β} (x : Int) (d' : Dec β) : Agree f (Dec.fail (.unassigned x)) d' :=
  fun _ => .inr trivial

theorem bind {f : α → β} {g : γ → δ} {d : Dec α} {d' : Dec β} {k : α → Dec γ} {k' : β → Dec δ}
    (h : Agree f d d') (hk : ∀ a, Agree g (k a) (k' (f a))) : Agree g (d >>= k) (d' >>= k') := by
  intro i
  have hi := h i
  show match Dec.bind d k i with
    | (.ok v, j) => Dec.bind d' k' i = (.ok (g v), j)
    | (.err e, j) => Dec.bind d' k' i = (.err e, j) ∨ Unknown e
    | (.panic p, j) => Dec.bind d' k' i = (.panic p, j)
    | (.ub u, j) => Dec.bind d' k' i = (.ub u, j)
  unfold Dec.bind
  cases hd : d i with
  | mk r j =>
    rw [hd] at hi
    cases r with
    | ok a =>
      simp only at hi ⊢
      rw [hi]
      exact hk a j
    | err e =>
      simp only at hi ⊢
      rcases hi with hi | hi
      · left; rw [hi]
      · right; exact hi
    | panic p => simp only at hi ⊢; rw [hi]
    | ub u => simp only at hi ⊢; rw [hi]

theorem mapErr {f : α → β} {d : Dec α} {d' : Dec β} {g : DecErr → DecErr} (h : Agree f d d')
    (hg : ∀ e, Unknown e → Unknown (g e)) : Agree f (d.mapErr g) (d'.mapErr g) := by
  intro i
  have hi := h i
  unfold Dec.mapErr
  cases hd : d i with
  | mk r j =>
    rw [hd] at hi
    cases r with
    | ok a => simp only at hi ⊢; rw [hi]; rfl
    | err e =>
      simp only [Res.mapErr_err] at hi ⊢
      rcases hi with hi | hi
      · left; rw [hi]; rfl
      · right; exact hg e hi
    | panic p => simp only [Res.mapErr_panic] at hi ⊢; rw [hi]; rfl
    | ub u => simp only [Res.mapErr_ub] at hi ⊢; rw [hi]; rfl

end Agree

theorem Unknown.toGeneric : ∀ e, Unknown e → Unknown e.toGeneric
  | .unassigned _, _ => trivial
  | .gUnassigned _, _ => trivial
  | .badLength e, h => Unknown.toGeneric e h
  | .badItem e, h => Unknown.toGeneric e h
  | .item _ e, h => Unknown.toGeneric e h
  | .badField e, h => Unknown.toGeneric e h
  | .char _, h => h.elim
  | .cString _, h => h.elim
  | .nonZero, h => h.elim
  | .systemTime _, h => h.elim
  | .length _ _, h => h.elim
  | .utf8 _ _, h => h.elim
  | .gBadString _ _, h => h.elim
  | .gNullString _, h => h.elim
  | .gNullInteger, h => h.elim
  | .gSmallBuffer _ _, h => h.elim
  | .gNarrowSystemTime _, h => h.elim

theorem decItems_agree {α β : Type} {f : α → β} {d : Dec α} {d' : Dec β} (h : Agree f d d') :
    ∀ (n i : Nat), Agree (fun v : Items α n => (⟨v.1.map f, (List.length_map _).trans v.2⟩ : Items β n))
      (decItems d n i) (decItems d' n i)
  | 0, i => .pure' rfl
  | n + 1, i =>
    (h.mapErr (by exact fun _ he => he)).bind fun a => (decItems_agree h n (i + 1)).bind fun v => .pure' rfl

theorem mapInsert_map {α β γ : Type} [DecidableEq α] (f : β → γ) (k : α) (v : β) :
    ∀ l : List (α × β), (mapInsert k v l).map (fun p => (p.1, f p.2))
      = mapInsert k (f v) (l.map fun p => (p.1, f p.2))
  | [] => rfl
  | (k', v') :: l => by
    show (if k' = k then (k', v) :: l else (k', v') :: mapInsert k v l).map _
      = if k' = k then (k', f v) :: l.map _ else (k', f v') :: mapInsert k (f v) (l.map _)
    split
    · rfl
    · rw [List.map_cons, mapInsert_map f k v l]

/-- A map with other values. -/
def mapValues {α β γ : Type} (f : β → γ) (m : MapVal α β) : MapVal α γ :=
  ⟨m.1.map (fun p => (p.1, f p.2)), by
    have h := m.2
    rw [List.map_map]
    exact h⟩

theorem decMapLoop_agree {α β γ : Type} [DecidableEq α] {f : β → γ} (dk : Dec α) {d : Dec β}
    {d' : Dec γ} (h : Agree f d d') : ∀ (n i : Nat) (m : MapVal α β),
      Agree (mapValues f) (decMapLoop dk d n i m) (decMapLoop dk d' n i (mapValues f m))
  | 0, i, m => .pure' rfl
  | n + 1, i, m => by
    refine ((Agree.refl dk).mapErr (by exact fun _ he => he)).bind fun k => (h.mapErr (by exact fun _ he => he)).bind fun v => ?_
    have := decMapLoop_agree dk h n (i + 1) ⟨mapInsert k v m.val, mapInsert_nodup k v m.val m.property⟩
    have e : mapValues f ⟨mapInsert k v m.val, mapInsert_nodup k v m.val m.property⟩
        = ⟨mapInsert k (f v) (mapValues f m).val,
          mapInsert_nodup k (f v) (mapValues f m).val (mapValues f m).property⟩ :=
      Subtype.ext (mapInsert_map f k v m.val)
    rw [e] at this
    exact this

mutual

theorem Grows.agree : {t u : Ty} → {f : t.Val → u.Val} → Grows t u f → Agree f t.decode u.decode
  | _, _, _, .same t => .refl _
  | _, _, _, .wrap w h => Grows.agree h
  | _, _, _, .array n h => decItems_agree (Grows.agree h) n 0
  | _, _, _, .seq k h =>
    (Agree.refl decUsize).bind fun len => (decItems_agree (Grows.agree h) len 0).bind fun v => .pure' rfl
  | _, _, _, .hashMap k (f := f) h => by
    letI := k.decEq
    exact (Agree.refl decUsize).bind fun len =>
      decMapLoop_agree k.decode (Grows.agree h) len 0 ⟨[], List.nodup_nil⟩
  | _, _, _, .option h => by
    refine (Agree.refl decBool).bind fun sign => ?_
    cases sign with
    | false => exact .pure' rfl
    | true => exact (Grows.agree h).bind fun v => .pure' rfl
  | _, _, _, .result h h' => by
    refine (Agree.refl decBool).bind fun sign => ?_
    cases sign with
    | false => exact ((Grows.agree h).mapErr (by exact fun _ he => he)).bind fun v => .pure' rfl
    | true => exact ((Grows.agree h').mapErr (by exact fun _ he => he)).bind fun v => .pure' rfl
  | _, _, _, .bound h => by
    refine (Agree.refl decU8).bind fun d => ?_
    simp only [id]
    split
    · exact ((Grows.agree h).mapErr (by exact fun _ he => he)).bind fun v => .pure' rfl
    · split
      · exact ((Grows.agree h).mapErr (by exact fun _ he => he)).bind fun v => .pure' rfl
      · split
        · exact .pure' rfl
        · exact .fail _
  | _, _, _, .range h => (Grows.agree h).bind fun a => (Grows.agree h).bind fun b => .pure' rfl
  | _, _, _, .rangeInclusive h => (Grows.agree h).bind fun a => (Grows.agree h).bind fun b => .pure' rfl
  | _, _, _, .lock k h => (Grows.agree h).bind fun a => .pure' rfl
  | _, _, _, .refCell h => (Grows.agree h).bind fun a => .pure' rfl
  | _, _, _, .sizedSlice n h => by
    refine (Agree.refl decUsize).bind fun len => ?_
    simp only [id]
    split
    · exact .fail _
    · refine (decItems_agree (Grows.agree h) n 0).bind fun v => .pure' ?_
      exact Subtype.ext List.map_take
  | _, _, _, .tuple h => GrowsFields.agree h id fun _ he => he
  | _, _, _, .struct h => GrowsFields.agree h _ Unknown.toGeneric
  | _, _, _, .enum r h => (Agree.refl (decRepr r)).bind fun d => GrowsVariants.agree h none d

theorem GrowsFields.agree : {fs gs : Fields} → {f : fs.Val → gs.Val} → GrowsFields fs gs f →
    (g : DecErr → DecErr) → (∀ e, Unknown e → Unknown (g e)) → Agree f (fs.decode g) (gs.decode g)
  | _, _, _, .nil, _, _ => .refl _
  | _, _, _, .cons h hs, g, hg =>
    ((Grows.agree h).mapErr hg).bind fun _ => (GrowsFields.agree hs g hg).bind fun _ => .pure' rfl

theorem GrowsVariants.agree : {vs ws : Variants} → {f : vs.Val → ws.Val} → GrowsVariants vs ws f →
    (prev : Option Nat) → (x : Int) → Agree f (vs.decode prev x) (ws.decode prev x)
  | _, _, _, .append ws f, prev, x => .unassigned x _
  | _, _, _, .cons d h hs, prev, x => by
    unfold Variants.decode
    split
    · exact (GrowsFields.agree h _ (by exact fun e he => Unknown.toGeneric e he)).bind fun v => .pure' rfl
    · exact (GrowsVariants.agree hs _ x).bind fun v => .pure' rfl

end


theorem encItems_map {α β : Type} {f : α → β} {enc : α → Enc Unit} {enc' : β → Enc Unit}
    (h : ∀ v, enc' (f v) = enc v) (wrap : Nat → EncErr → EncErr) :
    ∀ (i : Nat) (l : List α), encItems enc' wrap i (l.map f) = encItems enc wrap i l
  | _, [] => rfl
  | i, v :: l => by
    show ((enc' (f v)).mapErr (wrap i) >>= fun _ => encItems enc' wrap (i + 1) (l.map f)) = _
    rw [h v, encItems_map h wrap (i + 1) l]
    rfl

theorem encSlice_map {α β : Type} {f : α → β} {enc : α → Enc Unit} {enc' : β → Enc Unit}
    (h : ∀ v, enc' (f v) = enc v) (l : List α) : encSlice enc' (l.map f) = encSlice enc l := by
  unfold encSlice
  rw [List.length_map, encItems_map h]

theorem encLinkedList_map {α β : Type} {f : α → β} {enc : α → Enc Unit} {enc' : β → Enc Unit}
    (h : ∀ v, enc' (f v) = enc v) (l : List α) :
    encLinkedList enc' (l.map f) = encLinkedList enc l := by
  unfold encLinkedList
  rw [List.length_map, encItems_map h]

theorem encHashMap_map {α β γ : Type} {f : β → γ} {encK : α → Enc Unit} {enc : β → Enc Unit}
    {enc' : γ → Enc Unit} (h : ∀ v, enc' (f v) = enc v) :
    ∀ l : List (α × β), encHashMap encK enc' (l.map fun p => (p.1, f p.2)) = encHashMap encK enc l
  | [] => rfl
  | (k, v) :: l => by
    show (encK k >>= fun _ => enc' (f v) >>= fun _ => encHashMap encK enc' (l.map _)) = _
    rw [h v, encHashMap_map h l]
    rfl

mutual

theorem Grows.errGeneric : {t u : Ty} → {f : t.Val → u.Val} → Grows t u f →
    u.encErrGeneric = t.encErrGeneric
  | _, _, _, .same _ => rfl
  | _, _, _, .wrap _ h => (Grows.errGeneric h :)
  | _, _, _, .array _ _ => rfl
  | _, _, _, .seq _ _ => rfl
  | _, _, _, .hashMap _ _ => rfl
  | _, _, _, .option h => (Grows.errGeneric h :)
  | _, _, _, .result h _ => (Grows.errGeneric h :)
  | _, _, _, .bound _ => rfl
  | _, _, _, .range h => (Grows.errGeneric h :)
  | _, _, _, .rangeInclusive h => (Grows.errGeneric h :)
  | _, _, _, .lock _ h => (Grows.errGeneric h :)
  | _, _, _, .refCell _ => rfl
  | _, _, _, .sizedSlice _ _ => rfl
  | _, _, _, .tuple h => GrowsFields.errGeneric h
  | _, _, _, .struct _ => rfl
  | _, _, _, .enum _ _ => rfl

theorem GrowsFields.errGeneric : {fs gs : Fields} → {f : fs.Val → gs.Val} → GrowsFields fs gs f →
    gs.encErrGeneric = fs.encErrGeneric
  | _, _, _, .nil => rfl
  | _, _, _, .cons h _ => (Grows.errGeneric h :)

end

mutual

theorem Grows.encode : {t u : Ty} → {f : t.Val → u.Val} → Grows t u f → (v : t.Val) →
    u.encode (f v) = t.encode v
  | _, _, _, .same _, _ => rfl
  | _, _, _, .wrap _ h, v => Grows.encode h v
  | _, _, _, .array _ h, v => encItems_map (Grows.encode h) _ _ _
  | _, _, _, .seq .slice h, v => encSlice_map (Grows.encode h) _
  | _, _, _, .seq .vec h, v => encSlice_map (Grows.encode h) _
  | _, _, _, .seq .linkedList h, v => encLinkedList_map (Grows.encode h) _
  | _, _, _, .hashMap _ h, v => encHashMap_map (Grows.encode h) _
  | _, _, _, .option h, none => rfl
  | _, _, _, .option h, some v =>
    congrArg (fun e : Enc Unit => (do encBool true; e : Enc Unit)) (Grows.encode h v)
  | _, _, _, .result h h', .ok v =>
    congrArg (fun e : Enc Unit => (do encBool false; e : Enc Unit)) (Grows.encode h v)
  | _, _, _, .result (t := t) (u := u) (u' := u') (f' := f') h h', .err v => by
    show (do encBool true; (u'.encode (f' v)).mapErr (if u.encErrGeneric then EncErr.toGeneric else id)
      : Enc Unit) = _
    rw [Grows.encode h' v, Grows.errGeneric h]
    rfl
  | _, _, _, .bound h, .included v =>
    congrArg (fun e : Enc Unit => (do encU8 0; e.mapErr .badField : Enc Unit)) (Grows.encode h v)
  | _, _, _, .bound h, .excluded v =>
    congrArg (fun e : Enc Unit => (do encU8 1; e.mapErr .badField : Enc Unit)) (Grows.encode h v)
  | _, _, _, .bound h, .unbounded => rfl
  | _, _, _, .range (u := u) (f := f) h, v => by
    show (do u.encode (f v.start); u.encode (f v.stop) : Enc Unit) = _
    rw [Grows.encode h, Grows.encode h]
    rfl
  | _, _, _, .rangeInclusive (u := u) (f := f) h, v => by
    show (do u.encode (f v.start); u.encode (f v.stop) : Enc Unit) = _
    rw [Grows.encode h, Grows.encode h]
    rfl
  | _, _, _, .lock _ h, v => Grows.encode h v.val
  | _, _, _, .refCell h, v =>
    congrArg (fun e : Enc Unit => if v.mutBorrowed then Enc.fail .badBorrow else e.mapErr .badValue)
      (Grows.encode h v.val)
  | _, _, _, .sizedSlice _ h, v => encSlice_map (Grows.encode h) _
  | _, _, _, .tuple h, v => GrowsFields.encode h _ v
  | _, _, _, .struct h, v => GrowsFields.encode h _ v
  | _, _, _, .enum r h, v => GrowsVariants.encode h r none v

theorem GrowsFields.encode : {fs gs : Fields} → {f : fs.Val → gs.Val} → GrowsFields fs gs f →
    (g : EncErr → EncErr) → (v : fs.Val) → gs.encode g (f v) = fs.encode g v
  | _, _, _, .nil, _, _ => rfl
  | _, _, _, .cons (u := u) (f := f) (gs := gs) (g := g') h hs, g, v => by
    show (do (u.encode (f v.1)).mapErr g; gs.encode g (g' v.2) : Enc Unit) = _
    rw [Grows.encode h, GrowsFields.encode hs]
    rfl

theorem GrowsVariants.encode : {vs ws : Variants} → {f : vs.Val → ws.Val} → GrowsVariants vs ws f →
    (r : Repr) → (prev : Option Nat) → (v : vs.Val) → ws.encode r prev (f v) = vs.encode r prev v
  | _, _, _, .append _ _, _, _, v => nomatch v
  | _, _, _, .cons d h _, r, prev, .inl v =>
    congrArg (fun e : Enc Unit =>
      (do (encRepr r (nextDisc prev d)).mapErr .badDiscriminant; e : Enc Unit))
      (GrowsFields.encode h _ v)
  | _, _, _, .cons _ _ hs, r, _, .inr v => GrowsVariants.encode hs r _ v

end

mutual

theorem Grows.maxSize (sizeOf : Ty → Nat)
    (hs : ∀ (t u : Ty) (f : t.Val → u.Val), Grows t u f → sizeOf t ≤ sizeOf u) :
    {t u : Ty} → {f : t.Val → u.Val} → Grows t u f → t.maxSize sizeOf ≤ u.maxSize sizeOf
  | _, _, _, .same _ => Nat.le_refl _
  | _, _, _, .wrap _ h => (Grows.maxSize sizeOf hs h :)
  | _, _, _, .array _ h => Nat.mul_le_mul_right _ (Grows.maxSize sizeOf hs h)
  | _, _, _, .seq _ _ => Nat.le_refl _
  | _, _, _, .hashMap _ _ => Nat.le_refl _
  | _, _, _, .option h => Nat.add_le_add_left (Grows.maxSize sizeOf hs h) _
  | _, _, _, .result h h' => by
    have h1 := hs _ _ _ h
    have h2 := hs _ _ _ h'
    show 1 + _ ≤ 1 + _
    split <;> split <;> omega
  | _, _, _, .bound h => Nat.add_le_add_left (Grows.maxSize sizeOf hs h) _
  | _, _, _, .range h => Nat.mul_le_mul_right _ (Grows.maxSize sizeOf hs h)
  | _, _, _, .rangeInclusive h => Nat.mul_le_mul_right _ (Grows.maxSize sizeOf hs h)
  | _, _, _, .lock _ h => (Grows.maxSize sizeOf hs h :)
  | _, _, _, .refCell h => (Grows.maxSize sizeOf hs h :)
  | _, _, _, .sizedSlice _ h => Nat.mul_le_mul_right _ (Grows.maxSize sizeOf hs h)
  | _, _, _, .tuple h => GrowsFields.maxSize sizeOf hs h
  | _, _, _, .struct h => GrowsFields.maxSize sizeOf hs h
  | _, _, _, .enum r h => GrowsVariants.maxSize sizeOf hs h r

theorem GrowsFields.maxSize (sizeOf : Ty → Nat)
    (hs : ∀ (t u : Ty) (f : t.Val → u.Val), Grows t u f → sizeOf t ≤ sizeOf u) :
    {fs gs : Fields} → {f : fs.Val → gs.Val} → GrowsFields fs gs f →
    fs.maxSize sizeOf ≤ gs.maxSize sizeOf
  | _, _, _, .nil => Nat.le_refl _
  | _, _, _, .cons h h' => Nat.add_le_add (Grows.maxSize sizeOf hs h) (GrowsFields.maxSize sizeOf hs h')

theorem GrowsVariants.maxSize (sizeOf : Ty → Nat)
    (hs : ∀ (t u : Ty) (f : t.Val → u.Val), Grows t u f → sizeOf t ≤ sizeOf u) :
    {vs ws : Variants} → {f : vs.Val → ws.Val} → GrowsVariants vs ws f → (r : Repr) →
    vs.maxSize sizeOf r ≤ ws.maxSize sizeOf r
  | _, _, _, .append _ _, _ => Nat.zero_le _
  | _, _, _, .cons _ h h', r => by
    have h1 := GrowsFields.maxSize sizeOf hs h
    have h2 := GrowsVariants.maxSize sizeOf hs h' r
    show max _ _ ≤ max _ _
    omega

end

/-- Decoding more fields is decoding the first ones and then the others. -/
theorem Fields.decode_append : (fs gs : Fields) → (g : DecErr → DecErr) → (i : Input) →
    (appendFields fs gs).decode g i = Dec.bind (fs.decode g)
      (fun v => Dec.bind (gs.decode g) fun w => Dec.pure (appendVals fs v w)) i
  | .nil, gs, g, i => by
    show gs.decode g i = Dec.bind (gs.decode g) _ i
    unfold Dec.bind
    cases h : gs.decode g i with
    | mk r j => cases r <;> rfl
  | .cons t fs, gs, g, i => by
    show Dec.bind (t.decode.mapErr g) (fun v => Dec.bind ((appendFields fs gs).decode g) fun w => Dec.pure (v, w)) i
      = Dec.bind (Dec.bind (t.decode.mapErr g) fun v => Dec.bind (fs.decode g) fun w => Dec.pure (v, w))
          (fun v => Dec.bind (gs.decode g) fun w => Dec.pure (appendVals (.cons t fs) v w)) i
    unfold Dec.bind
    cases h : t.decode.mapErr g i with
    | mk r j =>
      cases r with
      | ok v =>
        simp only
        rw [Fields.decode_append fs gs g j]
        unfold Dec.bind
        cases h1 : fs.decode g j with
        | mk r1 k =>
          cases r1 with
          | ok w =>
            simp only [Dec.pure]
            cases h2 : gs.decode g k with
            | mk r2 l => cases r2 <;> rfl
          | err e => rfl
          | panic p => rfl
          | ub u => rfl
      | err e => rfl
      | panic p => rfl
      | ub u => rfl

theorem map_injective {α β : Type} {f : α → β} (hf : ∀ a b, f a = f b → a = b) :
    ∀ l m : List α, l.map f = m.map f → l = m
  | [], [], _ => rfl
  | [], _ :: _, h => nomatch h
  | _ :: _, [], h => nomatch h
  | a :: l, b :: m, h => by
    rw [List.map_cons, List.map_cons, List.cons.injEq] at h
    rw [hf a b h.1, map_injective hf l m h.2]

mutual

theorem Grows.injective : {t u : Ty} → {f : t.Val → u.Val} → Grows t u f →
    (v w : t.Val) → f v = f w → v = w
  | _, _, _, .same _, _, _, e => e
  | _, _, _, .wrap _ h, v, w, e => Grows.injective h v w e
  | _, _, _, .array _ h, v, w, e =>
    Subtype.ext (map_injective (Grows.injective h) _ _ (congrArg Subtype.val e))
  | _, _, _, .seq _ h, v, w, e => map_injective (Grows.injective h) v w e
  | _, _, _, .hashMap _ h, v, w, e => by
    refine Subtype.ext (map_injective ?_ _ _ (congrArg Subtype.val e))
    intro a b hab
    rw [Prod.mk.injEq] at hab
    exact Prod.ext hab.1 (Grows.injective h _ _ hab.2)
  | _, _, _, .option _, none, none, _ => rfl
  | _, _, _, .option _, none, some _, e => nomatch e
  | _, _, _, .option _, some _, none, e => nomatch e
  | _, _, _, .option h, some v, some w, e => congrArg some (Grows.injective h v w (Option.some.inj e))
  | _, _, _, .result h _, .ok v, .ok w, e =>
    congrArg ResultVal.ok (Grows.injective h v w (ResultVal.ok.inj e))
  | _, _, _, .result _ _, .ok _, .err _, e => nomatch e
  | _, _, _, .result _ _, .err _, .ok _, e => nomatch e
  | _, _, _, .result _ h, .err v, .err w, e =>
    congrArg ResultVal.err (Grows.injective h v w (ResultVal.err.inj e))
  | _, _, _, .bound h, .included v, .included w, e =>
    congrArg BoundVal.included (Grows.injective h v w (BoundVal.included.inj e))
  | _, _, _, .bound h, .excluded v, .excluded w, e =>
    congrArg BoundVal.excluded (Grows.injective h v w (BoundVal.excluded.inj e))
  | _, _, _, .bound _, .unbounded, .unbounded, _ => rfl
  | _, _, _, .bound _, .included _, .excluded _, e => nomatch e
  | _, _, _, .bound _, .included _, .unbounded, e => nomatch e
  | _, _, _, .bound _, .excluded _, .included _, e => nomatch e
  | _, _, _, .bound _, .excluded _, .unbounded, e => nomatch e
  | _, _, _, .bound _, .unbounded, .included _, e => nomatch e
  | _, _, _, .bound _, .unbounded, .excluded _, e => nomatch e
  | _, _, _, .range h, ⟨a, b⟩, ⟨c, d⟩, e => by
    have e' := RangeVal.mk.inj e
    have h1 := Grows.injective h a c e'.1
    have h2 := Grows.injective h b d e'.2
    subst h1; subst h2; rfl
  | _, _, _, .rangeInclusive h, ⟨a, b, x⟩, ⟨c, d, y⟩, e => by
    have e' := RangeInclusiveVal.mk.inj e
    have h1 := Grows.injective h a c e'.1
    have h2 := Grows.injective h b d e'.2.1
    have h3 : x = y := e'.2.2
    subst h1; subst h2; subst h3; rfl
  | _, _, _, .lock _ h, ⟨p, a⟩, ⟨q, b⟩, e => by
    have e' := LockVal.mk.inj e
    have h1 := Grows.injective h a b e'.2
    have h2 : p = q := e'.1
    subst h1; subst h2; rfl
  | _, _, _, .refCell h, ⟨p, a⟩, ⟨q, b⟩, e => by
    have e' := RefCellVal.mk.inj e
    have h1 := Grows.injective h a b e'.2
    have h2 : p = q := e'.1
    subst h1; subst h2; rfl
  | _, _, _, .sizedSlice _ h, v, w, e =>
    Subtype.ext (map_injective (Grows.injective h) _ _ (congrArg Subtype.val e))
  | _, _, _, .tuple h, v, w, e => GrowsFields.injective h v w e
  | _, _, _, .struct h, v, w, e => GrowsFields.injective h v w e
  | _, _, _, .enum _ h, v, w, e => GrowsVariants.injective h v w e

theorem GrowsFields.injective : {fs gs : Fields} → {f : fs.Val → gs.Val} → GrowsFields fs gs f →
    (v w : fs.Val) → f v = f w → v = w
  | _, _, _, .nil, _, _, _ => rfl
  | _, _, _, .cons h hs, (a, b), (c, d), e => by
    have e' := Prod.mk.inj e
    have h1 := Grows.injective h a c e'.1
    have h2 := GrowsFields.injective hs b d e'.2
    subst h1; subst h2; rfl

theorem GrowsVariants.injective : {vs ws : Variants} → {f : vs.Val → ws.Val} →
    GrowsVariants vs ws f → (v w : vs.Val) → f v = f w → v = w
  | _, _, _, .append _ _, v, _, _ => nomatch v
  | _, _, _, .cons _ h _, .inl v, .inl w, e =>
    congrArg Sum.inl (GrowsFields.injective h v w (Sum.inl.inj e))
  | _, _, _, .cons _ _ hs, .inr v, .inr w, e =>
    congrArg Sum.inr (GrowsVariants.injective hs v w (Sum.inr.inj e))
  | _, _, _, .cons _ _ _, .inl _, .inr _, e => nomatch e
  | _, _, _, .cons _ _ _, .inr _, .inl _, e => nomatch e

end

end Oct
