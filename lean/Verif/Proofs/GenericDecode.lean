import Verif.Proofs.Generic
/- Lemmas for C124: derived impls of generic items, decoding. -/
namespace Oct
open Spec

/-- The error type for certain arguments. -/
def XDec.sub (ε : Nat → DecTy) : XDec → DecTy
  | .var j => ε j
  | .infallible => .infallible
  | .char => .char
  | .cString => .cString
  | .nonZero => .nonZero
  | .systemTime => .systemTime
  | .length => .length
  | .utf8 => .utf8
  | .coll l i => .coll (l.sub ε) (i.sub ε)
  | .item e => .item (e.sub ε)
  | .enum d f => .enum d (f.sub ε)
  | .generic => .generic

theorem DecTy.lift_sub (ε : Nat → DecTy) (e : DecTy) : e.lift.sub ε = e := by
  induction e with
  | coll l i h1 h2 => rw [lift, XDec.sub, h1, h2]
  | item e h => rw [lift, XDec.sub, h]
  | enum d f h => rw [lift, XDec.sub, h]
  | _ => rfl

theorem XDec.sub_generic {B : DecBounds} {ε : Nat → DecTy}
    (hi : ∀ j, B.into j = true → (ε j).intoGeneric = true) (e : XDec) (h : e.intoGeneric B = true) :
    (e.sub ε).intoGeneric = true := by
  induction e with
  | var j => exact hi j h
  | coll l i h1 h2 =>
    rw [intoGeneric, Bool.and_eq_true] at h
    rw [sub, DecTy.intoGeneric, h1 h.1, h2 h.2]; rfl
  | item e ih => exact ih h
  | enum d f ih =>
    rw [intoGeneric, Bool.and_eq_true] at h
    rw [sub, DecTy.intoGeneric, h.1, ih h.2]; rfl
  | char => cases h
  | _ => rfl

theorem decErrOf_sized {t : Ty} (h : IsSized t) : t.decErrOf true = t.decErrOf false := by
  cases t with
  | seq k t => cases k <;> first | exact h.elim | rfl
  | str k => cases k <;> first | exact h.elim | rfl
  | cStr k => cases k <;> first | exact h.elim | rfl
  | wrap w t => cases w <;> rfl
  | _ => rfl

theorem Ty.decErrOf_wrap {w : Wrap} (hw : w ≠ .cow) {t : Ty} {o : Bool} :
    (Ty.wrap w t).decErrOf o = if w.hasDecode then t.decErrOf false else none := by
  cases w <;> first | exact absurd rfl hw | rfl

theorem GTy.decErrOf_wrap {w : Wrap} (hw : w ≠ .cow) {B : DecBounds} {t : GTy} {o : Bool} :
    (GTy.wrap w t).decErrOf B o = if w.hasDecode then t.decErrOf B false else none := by
  cases w <;> first | exact absurd rfl hw | rfl

mutual

theorem GTy.decErr_sound {B : DecBounds} {σ : Nat → Ty} {ε : Nat → DecTy} (h : MeetsDec B σ ε) :
    ∀ (t : GTy) (o : Bool) (e : XDec), t.decErrOf B o = some e →
      (t.inst σ).decErrOf o = some (e.sub ε)
  | .param i, o, e, he => by
    rw [GTy.decErrOf, DecBounds.err] at he
    rw [GTy.inst]
    have ho : (σ i).decErrOf o = (σ i).decErr := by
      cases o
      · rfl
      · exact decErrOf_sized (h.sized i)
    rw [ho]
    cases hb : B.decode i with
    | none => rw [hb] at he; cases he
    | some x =>
      rw [hb] at he
      cases x with
      | inl j => cases he; exact h.named i j hb
      | inr e' => cases he; rw [DecTy.lift_sub]; exact h.known i e' hb
  | .closed t, o, e, he => by
    rw [GTy.decErrOf] at he
    rw [GTy.inst]
    cases ht : t.decErrOf o with
    | none => rw [ht] at he; cases he
    | some x => rw [ht] at he; cases he; rw [DecTy.lift_sub]
  | .phantom t, o, e, he => by cases he; rfl
  | .wrap w t, o, e, he => by
    rw [GTy.inst]
    by_cases hw : w = .cow
    · subst hw
      rw [GTy.decErrOf] at he
      rw [Ty.decErrOf]
      exact GTy.decErr_sound h t true e he
    · rw [GTy.decErrOf_wrap hw] at he
      rw [Ty.decErrOf_wrap hw]
      split at he
      · next hd => rw [if_pos hd]; exact GTy.decErr_sound h t false e he
      · cases he
  | .array t n, o, e, he => by
    rw [GTy.decErrOf] at he
    cases ht : t.decErrOf B false with
    | none => rw [ht] at he; cases he
    | some x =>
      rw [ht] at he; cases he; rw [GTy.inst, Ty.decErrOf, GTy.decErr_sound h t false x ht]; rfl
  | .seq k t, o, e, he => by
    rw [GTy.inst]
    cases k with
    | slice =>
      rw [GTy.decErrOf] at he
      rw [Ty.decErrOf]
      split at he
      · next hd =>
        rw [if_pos hd]
        cases ht : t.decErrOf B false with
        | none => rw [ht] at he; cases he
        | some x => rw [ht] at he; cases he; rw [GTy.decErr_sound h t false x ht]; rfl
      · cases he
    | vec =>
      rw [GTy.decErrOf] at he
      · rw [Ty.decErrOf]
        · cases ht : t.decErrOf B false with
          | none => rw [ht] at he; cases he
          | some x => rw [ht] at he; cases he; rw [GTy.decErr_sound h t false x ht]; rfl
        · exact fun hh => nomatch hh
      · exact fun hh => nomatch hh
    | linkedList =>
      rw [GTy.decErrOf] at he
      · rw [Ty.decErrOf]
        · cases ht : t.decErrOf B false with
          | none => rw [ht] at he; cases he
          | some x => rw [ht] at he; cases he; rw [GTy.decErr_sound h t false x ht]; rfl
        · exact fun hh => nomatch hh
      · exact fun hh => nomatch hh
  | .hashMap k v, o, e, he => by
    rw [GTy.decErrOf] at he
    split at he
    · next hkv =>
      cases ht : k.decErrOf B false with
      | none => rw [ht] at he; cases he
      | some x =>
        rw [ht] at he; cases he
        rw [GTy.inst, Ty.decErrOf, GTy.decErr_sound h k false x ht,
          GTy.decErr_sound h v false x (hkv ▸ ht), if_pos rfl]
        rfl
    · cases he
  | .hashSet k, o, e, he => by
    rw [GTy.decErrOf] at he
    cases ht : k.decErrOf B false with
    | none => rw [ht] at he; cases he
    | some x =>
      rw [ht] at he; cases he; rw [GTy.inst, Ty.decErrOf, GTy.decErr_sound h k false x ht]; rfl
  | .option t, o, e, he => by
    rw [GTy.decErrOf] at he; rw [GTy.inst, Ty.decErrOf]; exact GTy.decErr_sound h t false e he
  | .result t u, o, e, he => by
    rw [GTy.decErrOf] at he
    split at he
    · next htu =>
      cases ht : t.decErrOf B false with
      | none => rw [ht] at he; cases he
      | some x =>
        rw [ht] at he; cases he
        rw [GTy.inst, Ty.decErrOf, GTy.decErr_sound h t false x ht,
          GTy.decErr_sound h u false x (htu ▸ ht), if_pos rfl]
        rfl
    · cases he
  | .bound t, o, e, he => by
    rw [GTy.decErrOf] at he
    cases ht : t.decErrOf B false with
    | none => rw [ht] at he; cases he
    | some x =>
      rw [ht] at he; cases he; rw [GTy.inst, Ty.decErrOf, GTy.decErr_sound h t false x ht]; rfl
  | .range t, o, e, he => by
    rw [GTy.decErrOf] at he; rw [GTy.inst, Ty.decErrOf]; exact GTy.decErr_sound h t false e he
  | .rangeInclusive t, o, e, he => by
    rw [GTy.decErrOf] at he; rw [GTy.inst, Ty.decErrOf]; exact GTy.decErr_sound h t false e he
  | .lock _ t, o, e, he => by
    rw [GTy.decErrOf] at he; rw [GTy.inst, Ty.decErrOf]; exact GTy.decErr_sound h t false e he
  | .refCell t, o, e, he => by
    rw [GTy.decErrOf] at he; rw [GTy.inst, Ty.decErrOf]; exact GTy.decErr_sound h t false e he
  | .sizedSlice t n, o, e, he => by
    rw [GTy.decErrOf] at he
    cases ht : t.decErrOf B false with
    | none => rw [ht] at he; cases he
    | some x =>
      rw [ht] at he; cases he; rw [GTy.inst, Ty.decErrOf, GTy.decErr_sound h t false x ht]; rfl
  | .tuple fs, o, e, he => by
    rw [GTy.decErrOf] at he
    split at he
    · next hc =>
      rw [GTy.inst, Ty.decErrOf, GFields.inst_count, if_pos hc]
      exact GFields.decErr_sound h fs e he
    · cases he

theorem GFields.decErr_sound {B : DecBounds} {σ : Nat → Ty} {ε : Nat → DecTy} (h : MeetsDec B σ ε) :
    ∀ (fs : GFields) (e : XDec), fs.decErr B = some e → (fs.inst σ).decErr = some (e.sub ε)
  | .nil, e, he => nomatch he
  | .cons t .nil, e, he => by
    rw [GFields.inst, GFields.inst, Fields.decErr]
    exact GTy.decErr_sound h t false e he
  | .cons t (.cons u fs), e, he => by
    rw [GFields.decErr] at he
    · split at he
      · next heq =>
        have h2 := GFields.decErr_sound h (.cons u fs) e (heq ▸ he)
        rw [GFields.inst] at h2
        rw [GFields.inst, GFields.inst, Fields.decErr, GTy.decErr_sound h t false e he, h2, if_pos rfl]
        exact fun hh => nomatch hh
      · cases he
    · exact fun hh => nomatch hh

end

theorem GFields.decInto_sound {B : DecBounds} {σ : Nat → Ty} {ε : Nat → DecTy} (h : MeetsDec B σ ε) :
    ∀ (fs : GFields), fs.decInto B = true → (fs.inst σ).decInto = true
  | .nil, _ => rfl
  | .cons t fs, hi => by
    rw [GFields.decInto, Bool.and_eq_true] at hi
    rw [GFields.inst, Fields.decInto, GFields.decInto_sound h fs hi.2, Bool.and_true]
    cases ht : t.decErrOf B false with
    | none => rw [ht] at hi; cases hi.1
    | some e =>
      rw [ht] at hi
      rw [GTy.decErr_sound h t false e ht]
      exact XDec.sub_generic h.into e hi.1

theorem GVariants.decInto_sound {B : DecBounds} {σ : Nat → Ty} {ε : Nat → DecTy} (h : MeetsDec B σ ε) :
    ∀ (vs : GVariants), vs.decInto B = true → (vs.inst σ).decInto = true
  | .nil, _ => rfl
  | .cons d fs vs, hi => by
    rw [GVariants.decInto, Bool.and_eq_true] at hi
    rw [GVariants.inst, Variants.decInto, GFields.decInto_sound h fs hi.1,
      GVariants.decInto_sound h vs hi.2]
    rfl

/-! The instance in which nothing holds that the bounds do not say. -/

def XDec.depth : XDec → Nat
  | .coll l i => max l.depth i.depth + 1
  | .item e => e.depth + 1
  | .enum _ f => f.depth + 1
  | _ => 0

def decTower (b : DecTy) : Nat → DecTy
  | 0 => b
  | n + 1 => .coll .infallible (.item (decTower b n))

def decBase (B : DecBounds) (j : Nat) : DecTy := if B.into j then .nonZero else .char

/-- The error type that goes by the name `j`. -/
def decFree (B : DecBounds) (K j : Nat) : DecTy := decTower (decBase B j) ((j + 1) * K)

theorem tyTower_decErr {b : Ty} {e : DecTy} (h : b.decErr = some e) :
    ∀ n, (tyTower b n).decErr = some (decTower e n)
  | 0 => h
  | n + 1 => by
    have := tyTower_decErr h n
    rw [Ty.decErr] at this ⊢
    rw [tyTower, Ty.decErrOf, this]; rfl

theorem tyTower_sized {b : Ty} (h : IsSized b) : ∀ n, IsSized (tyTower b n)
  | 0 => h
  | _ + 1 => trivial

def decTyBase (B : DecBounds) (j : Nat) : Ty := if B.into j then .nonZero (.int .u8) else .char

theorem decTyBase_decErr (B : DecBounds) (j : Nat) : (decTyBase B j).decErr = some (decBase B j) := by
  unfold decTyBase decBase
  cases B.into j <;> rfl

theorem decTyBase_sized (B : DecBounds) (j : Nat) : IsSized (decTyBase B j) := by
  unfold decTyBase
  cases B.into j <;> exact trivial

theorem decBase_ne_coll (B : DecBounds) (j : Nat) (l i : DecTy) : decBase B j ≠ .coll l i := by
  unfold decBase
  cases B.into j <;> simp

theorem decTower_inj {B : DecBounds} {j j' : Nat} : ∀ (n n' : Nat),
    decTower (decBase B j) n = decTower (decBase B j') n' → n = n'
  | 0, 0, _ => rfl
  | 0, n' + 1, h => absurd h (decBase_ne_coll B j _ _)
  | n + 1, 0, h => absurd h.symm (decBase_ne_coll B j' _ _)
  | n + 1, n' + 1, h => by
    rw [decTower, decTower] at h
    injection h with _ h
    injection h with h
    rw [decTower_inj n n' h]

theorem decFree_pos {B : DecBounds} {K : Nat} (hK : 0 < K) (j : Nat) :
    ∃ n, decFree B K j = decTower (decBase B j) (n + 1) := by
  have : 0 < (j + 1) * K := Nat.mul_pos (by omega) hK
  exact ⟨(j + 1) * K - 1, by rw [decFree, Nat.sub_add_cancel this]⟩

/-- What stands for a tower is a tower over a name. -/
theorem XDec.sub_tower {B : DecBounds} {K : Nat} (hK : 0 < K) {j : Nat} (e : XDec) :
    (∀ (m : Nat), e.sub (decFree B K) = decTower (decBase B j) m → e.depth < m →
      ∃ j' d, m = (j' + 1) * K + d ∧ d ≤ e.depth ∧ (d = 0 → e = .var j')) ∧
    (∀ (m : Nat), e.sub (decFree B K) = .item (decTower (decBase B j) m) → e.depth < m + 1 →
      ∃ j' d, m = (j' + 1) * K + d ∧ d + 1 ≤ e.depth) := by
  induction e with
  | var j' =>
    refine ⟨fun m h _ => ⟨j', 0, (decTower_inj _ _ h).symm, Nat.le_refl _, fun _ => rfl⟩,
      fun m h _ => ?_⟩
    rw [sub] at h
    obtain ⟨n, e⟩ := decFree_pos (B := B) hK j'
    rw [e, decTower] at h
    cases h
  | coll l i h1 h2 =>
    refine ⟨fun m h hm => ?_, fun m h _ => nomatch h⟩
    cases m with
    | zero => exact absurd hm (Nat.not_lt_zero _)
    | succ m =>
      rw [decTower, sub] at h
      injection h with _ h
      rw [depth] at hm
      obtain ⟨j', d, h3, h4⟩ := h2.2 m h (by omega)
      exact ⟨j', d + 1, by omega, by rw [depth]; omega, fun h => absurd h (by omega)⟩
  | item e ih =>
    refine ⟨fun m h hm => ?_, fun m h hm => ?_⟩
    · cases m with
      | zero => exact absurd hm (Nat.not_lt_zero _)
      | succ m => cases h
    · rw [sub] at h
      injection h with h
      rw [depth] at hm
      obtain ⟨j', d, h3, h4, -⟩ := ih.1 m h (by omega)
      exact ⟨j', d, h3, by rw [depth]; omega⟩
  | _ =>
    refine ⟨fun m h hm => ?_, fun m h _ => nomatch h⟩
    cases m with
    | zero => exact absurd hm (Nat.not_lt_zero _)
    | succ m => cases h

theorem XDec.sub_var {B : DecBounds} {K : Nat} {e : XDec} {j : Nat} (he : e.depth < K)
    (h : e.sub (decFree B K) = decFree B K j) : e = .var j := by
  have hK : 0 < K := by omega
  have hle : K ≤ (j + 1) * K := Nat.le_mul_of_pos_left K (by omega)
  obtain ⟨j', d, h1, h2, h3⟩ := (XDec.sub_tower hK e).1 ((j + 1) * K) h (by omega)
  have hd : d = 0 := by
    have hdK : d < K := by omega
    rcases Nat.lt_trichotomy j j' with hl | rfl | hl
    · have : (j + 1) * K ≤ (j' + 1) * K := Nat.mul_le_mul_right K (by omega)
      omega
    · omega
    · have : (j' + 1 + 1) * K ≤ (j + 1) * K := Nat.mul_le_mul_right K (by omega)
      rw [Nat.add_mul (j' + 1) 1 K] at this
      omega
  subst hd
  rw [h3 rfl] at h ⊢
  have := decTower_inj _ _ h
  have := Nat.eq_of_mul_eq_mul_right hK this
  congr 1
  omega

/-- Different error types stay different. -/
theorem XDec.sub_inj {B : DecBounds} {K : Nat} : ∀ (e e' : XDec), e.depth < K → e'.depth < K →
    e.sub (decFree B K) = e'.sub (decFree B K) → e = e' := by
  intro e
  induction e with
  | var j => exact fun e' _ h' h => (XDec.sub_var h' h.symm).symm
  | coll l i h1 h2 =>
    intro e' h0 h' h
    cases e' with
    | var j => exact XDec.sub_var h0 h
    | coll l' i' =>
      rw [sub, sub] at h
      injection h with a b
      rw [depth] at h0 h'
      rw [h1 l' (by omega) (by omega) a, h2 i' (by omega) (by omega) b]
    | _ => cases h
  | item e ih =>
    intro e' h0 h' h
    cases e' with
    | var j => exact XDec.sub_var h0 h
    | item f =>
      rw [sub, sub] at h
      injection h with a
      rw [depth] at h0 h'
      rw [ih f (by omega) (by omega) a]
    | _ => cases h
  | enum d e ih =>
    intro e' h0 h' h
    cases e' with
    | var j => exact XDec.sub_var h0 h
    | enum d' f =>
      rw [sub, sub] at h
      injection h with b a
      rw [depth] at h0 h'
      rw [ih f (by omega) (by omega) a, b]
    | _ => cases h
  | _ =>
    intro e' h0 h' h
    cases e' with
    | var j => exact XDec.sub_var h0 h
    | _ => first | rfl | cases h

theorem decTower_generic (B : DecBounds) (j : Nat) :
    ∀ n, (decTower (decBase B j) n).intoGeneric = B.into j
  | 0 => by unfold decTower decBase; cases B.into j <;> rfl
  | n + 1 => by rw [decTower, DecTy.intoGeneric, DecTy.intoGeneric, DecTy.intoGeneric,
      decTower_generic B j n]; rfl

theorem XDec.free_generic (B : DecBounds) (K : Nat) (e : XDec) :
    (e.sub (decFree B K)).intoGeneric = e.intoGeneric B := by
  induction e with
  | var j => exact decTower_generic B j _
  | coll l i h1 h2 => rw [sub, DecTy.intoGeneric, intoGeneric, h1, h2]
  | item e ih => exact ih
  | enum d f ih => rw [sub, DecTy.intoGeneric, intoGeneric, ih]
  | _ => rfl

mutual

/-- No error type in the type is deeper. -/
def GTy.decNeed (B : DecBounds) : GTy → Nat
  | .param i => ((B.err i).map XDec.depth).getD 0
  | .closed t => max (((t.decErrOf true).map (XDec.depth ∘ DecTy.lift)).getD 0)
      (((t.decErrOf false).map (XDec.depth ∘ DecTy.lift)).getD 0)
  | .phantom _ => 0
  | .wrap _ t => t.decNeed B
  | .array t _ => t.decNeed B + 2
  | .seq _ t => t.decNeed B + 2
  | .hashMap k v => max (k.decNeed B) (v.decNeed B) + 2
  | .hashSet k => k.decNeed B + 2
  | .option t => t.decNeed B
  | .result t e => max (t.decNeed B) (e.decNeed B) + 1
  | .bound t => t.decNeed B + 1
  | .range t => t.decNeed B
  | .rangeInclusive t => t.decNeed B
  | .lock _ t => t.decNeed B
  | .refCell t => t.decNeed B
  | .sizedSlice t _ => t.decNeed B + 2
  | .tuple fs => fs.decNeed B

def GFields.decNeed (B : DecBounds) : GFields → Nat
  | .nil => 0
  | .cons t fs => max (t.decNeed B) (fs.decNeed B)

end

theorem map_depth {x : Option XDec} {f : XDec → XDec} {k : Nat}
    (hf : ∀ e, (f e).depth ≤ e.depth + k) {n : Nat} (h : ∀ e, x = some e → e.depth ≤ n) (e : XDec)
    (he : x.map f = some e) : e.depth ≤ n + k := by
  cases x with
  | none => cases he
  | some y =>
    cases he
    have := h y rfl
    have := hf y
    omega

mutual

theorem GTy.decNeed_le (B : DecBounds) : ∀ (t : GTy) (o : Bool) (e : XDec), t.decErrOf B o = some e →
    e.depth ≤ t.decNeed B
  | .param i, o, e, h => by
    rw [GTy.decErrOf] at h
    rw [GTy.decNeed, h]; exact Nat.le_refl _
  | .closed t, o, e, h => by
    rw [GTy.decErrOf] at h
    rw [GTy.decNeed]
    cases o with
    | false =>
      cases ht : t.decErrOf false with
      | none => rw [ht] at h; cases h
      | some x => rw [ht] at h; cases h; exact Nat.le_max_right _ _
    | true =>
      cases ht : t.decErrOf true with
      | none => rw [ht] at h; cases h
      | some x => rw [ht] at h; cases h; exact Nat.le_max_left _ _
  | .phantom t, o, e, h => by cases h; exact Nat.le_refl _
  | .wrap w t, o, e, h => by
    rw [GTy.decNeed]
    by_cases hw : w = .cow
    · subst hw
      rw [GTy.decErrOf] at h
      exact GTy.decNeed_le B t true e h
    · rw [GTy.decErrOf_wrap hw] at h
      split at h
      · exact GTy.decNeed_le B t false e h
      · cases h
  | .array t n, o, e, h => by
    rw [GTy.decErrOf] at h
    rw [GTy.decNeed]
    exact map_depth (fun e => by simp only [XDec.depth]; omega) (GTy.decNeed_le B t false) e h
  | .seq k t, o, e, h => by
    rw [GTy.decNeed]
    cases k with
    | slice =>
      rw [GTy.decErrOf] at h
      split at h
      · exact map_depth (fun e => by simp only [XDec.depth]; omega) (GTy.decNeed_le B t false) e h
      · cases h
    | vec =>
      rw [GTy.decErrOf] at h
      · exact map_depth (fun e => by simp only [XDec.depth]; omega) (GTy.decNeed_le B t false) e h
      · exact fun hh => nomatch hh
    | linkedList =>
      rw [GTy.decErrOf] at h
      · exact map_depth (fun e => by simp only [XDec.depth]; omega) (GTy.decNeed_le B t false) e h
      · exact fun hh => nomatch hh
  | .hashMap k v, o, e, h => by
    rw [GTy.decErrOf] at h
    split at h
    · have := map_depth (k := 2) (fun e => by simp only [XDec.depth]; omega)
        (GTy.decNeed_le B k false) e h
      rw [GTy.decNeed]; omega
    · cases h
  | .hashSet t, o, e, h => by
    rw [GTy.decErrOf] at h
    rw [GTy.decNeed]
    exact map_depth (fun e => by simp only [XDec.depth]; omega) (GTy.decNeed_le B t false) e h
  | .option t, o, e, h => by
    rw [GTy.decErrOf] at h; rw [GTy.decNeed]; exact GTy.decNeed_le B t false e h
  | .result t u, o, e, h => by
    rw [GTy.decErrOf] at h
    split at h
    · have := map_depth (k := 1) (fun e => by simp only [XDec.depth]; omega)
        (GTy.decNeed_le B t false) e h
      rw [GTy.decNeed]; omega
    · cases h
  | .bound t, o, e, h => by
    rw [GTy.decErrOf] at h
    rw [GTy.decNeed]
    exact map_depth (fun e => by simp only [XDec.depth]; omega) (GTy.decNeed_le B t false) e h
  | .range t, o, e, h => by
    rw [GTy.decErrOf] at h; rw [GTy.decNeed]; exact GTy.decNeed_le B t false e h
  | .rangeInclusive t, o, e, h => by
    rw [GTy.decErrOf] at h; rw [GTy.decNeed]; exact GTy.decNeed_le B t false e h
  | .lock _ t, o, e, h => by
    rw [GTy.decErrOf] at h; rw [GTy.decNeed]; exact GTy.decNeed_le B t false e h
  | .refCell t, o, e, h => by
    rw [GTy.decErrOf] at h; rw [GTy.decNeed]; exact GTy.decNeed_le B t false e h
  | .sizedSlice t n, o, e, h => by
    rw [GTy.decErrOf] at h
    rw [GTy.decNeed]
    exact map_depth (fun e => by simp only [XDec.depth]; omega) (GTy.decNeed_le B t false) e h
  | .tuple fs, o, e, h => by
    rw [GTy.decErrOf] at h
    split at h
    · rw [GTy.decNeed]; exact GFields.decNeed_le B fs e h
    · cases h

theorem GFields.decNeed_le (B : DecBounds) : ∀ (fs : GFields) (e : XDec), fs.decErr B = some e →
    e.depth ≤ fs.decNeed B
  | .nil, e, h => nomatch h
  | .cons t .nil, e, h => by
    have := GTy.decNeed_le B t false e h
    rw [GFields.decNeed]; omega
  | .cons t (.cons u fs), e, h => by
    rw [GFields.decErr] at h
    · split at h
      · have := GTy.decNeed_le B t false e h
        rw [GFields.decNeed]; omega
      · cases h
    · exact fun hh => nomatch hh

end

/-- The arguments. -/
structure DecFree (B : DecBounds) (K : Nat) (σ : Nat → Ty) : Prop where
  sized : ∀ i, IsSized (σ i)
  err : ∀ i, (σ i).decErr = (B.err i).map (XDec.sub (decFree B K))

theorem decErr_iff {B : DecBounds} {K : Nat} {x y : Option XDec} {n m : Nat}
    (hx : ∀ e, x = some e → e.depth ≤ n) (hy : ∀ e, y = some e → e.depth ≤ m) (hn : n < K)
    (hm : m < K) :
    x.map (XDec.sub (decFree B K)) = y.map (XDec.sub (decFree B K)) ↔ x = y :=
  map_eq_iff fun a b ha hb => XDec.sub_inj a b (Nat.lt_of_le_of_lt (hx a ha) hn)
    (Nat.lt_of_le_of_lt (hy b hb) hm)

mutual

theorem GTy.decErr_free {B : DecBounds} {K : Nat} {σ : Nat → Ty} (h : DecFree B K σ) :
    ∀ (t : GTy) (o : Bool), t.decNeed B < K →
      (t.inst σ).decErrOf o = (t.decErrOf B o).map (XDec.sub (decFree B K))
  | .param i, o, _ => by
    rw [GTy.inst, GTy.decErrOf, ← h.err i]
    cases o
    · rfl
    · exact decErrOf_sized (h.sized i)
  | .closed t, o, _ => by
    rw [GTy.inst, GTy.decErrOf, Option.map_map]
    cases t.decErrOf o with
    | none => rfl
    | some e => simp only [Option.map_some, Function.comp_apply, DecTy.lift_sub]
  | .phantom t, o, _ => rfl
  | .wrap w t, o, hk => by
    rw [GTy.decNeed] at hk
    rw [GTy.inst]
    by_cases hw : w = .cow
    · subst hw
      rw [GTy.decErrOf, Ty.decErrOf]
      exact GTy.decErr_free h t true hk
    · rw [GTy.decErrOf_wrap hw, Ty.decErrOf_wrap hw, GTy.decErr_free h t false hk]
      split <;> rfl
  | .array t n, o, hk => by
    rw [GTy.decNeed] at hk
    rw [GTy.inst, Ty.decErrOf, GTy.decErrOf, GTy.decErr_free h t false (by omega)]
    cases t.decErrOf B false <;> rfl
  | .seq k t, o, hk => by
    rw [GTy.decNeed] at hk
    have ih := GTy.decErr_free h t false (by omega)
    rw [GTy.inst]
    cases k with
    | slice =>
      rw [Ty.decErrOf, GTy.decErrOf, ih]
      cases t.decErrOf B false <;> cases o <;> rfl
    | vec =>
      rw [Ty.decErrOf, GTy.decErrOf, ih]
      · cases t.decErrOf B false <;> rfl
      · exact fun hh => nomatch hh
      · exact fun hh => nomatch hh
    | linkedList =>
      rw [Ty.decErrOf, GTy.decErrOf, ih]
      · cases t.decErrOf B false <;> rfl
      · exact fun hh => nomatch hh
      · exact fun hh => nomatch hh
  | .hashMap k v, o, hk => by
    rw [GTy.decNeed] at hk
    rw [GTy.inst, Ty.decErrOf, GTy.decErrOf, GTy.decErr_free h k false (by omega),
      GTy.decErr_free h v false (by omega)]
    have := decErr_iff (B := B) (K := K) (GTy.decNeed_le B k false) (GTy.decNeed_le B v false)
      (by omega) (by omega)
    by_cases hkv : k.decErrOf B false = v.decErrOf B false
    · rw [if_pos hkv, if_pos (this.mpr hkv)]
      cases k.decErrOf B false <;> rfl
    · rw [if_neg hkv, if_neg (fun hh => hkv (this.mp hh))]; rfl
  | .hashSet t, o, hk => by
    rw [GTy.decNeed] at hk
    rw [GTy.inst, Ty.decErrOf, GTy.decErrOf, GTy.decErr_free h t false (by omega)]
    cases t.decErrOf B false <;> rfl
  | .option t, o, hk => by
    rw [GTy.decNeed] at hk
    rw [GTy.inst, Ty.decErrOf, GTy.decErrOf]; exact GTy.decErr_free h t false hk
  | .result t u, o, hk => by
    rw [GTy.decNeed] at hk
    rw [GTy.inst, Ty.decErrOf, GTy.decErrOf, GTy.decErr_free h t false (by omega),
      GTy.decErr_free h u false (by omega)]
    have := decErr_iff (B := B) (K := K) (GTy.decNeed_le B t false) (GTy.decNeed_le B u false)
      (by omega) (by omega)
    by_cases hkv : t.decErrOf B false = u.decErrOf B false
    · rw [if_pos hkv, if_pos (this.mpr hkv)]
      cases t.decErrOf B false <;> rfl
    · rw [if_neg hkv, if_neg (fun hh => hkv (this.mp hh))]; rfl
  | .bound t, o, hk => by
    rw [GTy.decNeed] at hk
    rw [GTy.inst, Ty.decErrOf, GTy.decErrOf, GTy.decErr_free h t false (by omega)]
    cases t.decErrOf B false <;> rfl
  | .range t, o, hk => by
    rw [GTy.decNeed] at hk
    rw [GTy.inst, Ty.decErrOf, GTy.decErrOf]; exact GTy.decErr_free h t false hk
  | .rangeInclusive t, o, hk => by
    rw [GTy.decNeed] at hk
    rw [GTy.inst, Ty.decErrOf, GTy.decErrOf]; exact GTy.decErr_free h t false hk
  | .lock _ t, o, hk => by
    rw [GTy.decNeed] at hk
    rw [GTy.inst, Ty.decErrOf, GTy.decErrOf]; exact GTy.decErr_free h t false hk
  | .refCell t, o, hk => by
    rw [GTy.decNeed] at hk
    rw [GTy.inst, Ty.decErrOf, GTy.decErrOf]; exact GTy.decErr_free h t false hk
  | .sizedSlice t n, o, hk => by
    rw [GTy.decNeed] at hk
    rw [GTy.inst, Ty.decErrOf, GTy.decErrOf, GTy.decErr_free h t false (by omega)]
    cases t.decErrOf B false <;> rfl
  | .tuple fs, o, hk => by
    rw [GTy.decNeed] at hk
    rw [GTy.inst, Ty.decErrOf, GTy.decErrOf, GFields.inst_count, GFields.decErr_free h fs hk]
    split <;> rfl

theorem GFields.decErr_free {B : DecBounds} {K : Nat} {σ : Nat → Ty} (h : DecFree B K σ) :
    ∀ fs : GFields, fs.decNeed B < K → (fs.inst σ).decErr = (fs.decErr B).map (XDec.sub (decFree B K))
  | .nil, _ => rfl
  | .cons t .nil, hk => by
    rw [GFields.decNeed] at hk
    rw [GFields.inst, GFields.inst, Fields.decErr, GFields.decErr]
    exact GTy.decErr_free h t false (by omega)
  | .cons t (.cons u fs), hk => by
    rw [GFields.decNeed] at hk
    have h1 := GTy.decErr_free h t false (by omega)
    have h2 := GFields.decErr_free h (.cons u fs) (by omega)
    rw [GFields.inst] at h2
    rw [GFields.inst, GFields.inst, Fields.decErr, GFields.decErr, h1, h2]
    · have := decErr_iff (B := B) (K := K) (GTy.decNeed_le B t false)
        (GFields.decNeed_le B (.cons u fs)) (by omega) (by omega)
      by_cases hkv : t.decErrOf B false = (GFields.cons u fs).decErr B
      · rw [if_pos hkv, if_pos (this.mpr hkv)]
      · rw [if_neg hkv, if_neg (fun hh => hkv (this.mp hh))]; rfl
    · exact fun hh => nomatch hh
    · exact fun hh => nomatch hh

end

theorem GFields.decInto_free {B : DecBounds} {K : Nat} {σ : Nat → Ty} (h : DecFree B K σ) :
    ∀ fs : GFields, fs.decNeed B < K → (fs.inst σ).decInto = fs.decInto B
  | .nil, _ => rfl
  | .cons t fs, hk => by
    rw [GFields.decNeed] at hk
    rw [GFields.inst, Fields.decInto, GFields.decInto, GFields.decInto_free h fs (by omega),
      GTy.decErr_free h t false (by omega)]
    cases t.decErrOf B false with
    | none => rfl
    | some e => simp only [Option.map_some, Option.any_some, XDec.free_generic]

def GVariants.decNeed (B : DecBounds) : GVariants → Nat
  | .nil => 0
  | .cons _ fs vs => max (fs.decNeed B) (vs.decNeed B)

theorem GVariants.decInto_free {B : DecBounds} {K : Nat} {σ : Nat → Ty} (h : DecFree B K σ) :
    ∀ vs : GVariants, vs.decNeed B < K → (vs.inst σ).decInto = vs.decInto B
  | .nil, _ => rfl
  | .cons d fs vs, hk => by
    rw [GVariants.decNeed] at hk
    rw [GVariants.inst, Variants.decInto, GVariants.decInto, GFields.decInto_free h fs (by omega),
      GVariants.decInto_free h vs (by omega)]

theorem sized_of_decErr {t : Ty} {e : DecTy} (h : t.decErr = some e) : IsSized t := by
  cases t with
  | seq k t => cases k <;> first | exact trivial | cases h
  | str k => cases k <;> first | exact trivial | cases h
  | cStr k => cases k <;> first | exact trivial | cases h
  | _ => exact trivial

/-- There are such arguments. -/
theorem decFree_exists (B : DecBounds) (K : Nat)
    (hB : ∀ i e, B.decode i = some (.inr e) → ∃ t : Ty, t.decErr = some e) :
    ∃ σ : Nat → Ty, DecFree B K σ ∧ MeetsDec B σ (decFree B K) := by
  have : ∀ i, ∃ t : Ty, IsSized t ∧ t.decErr = (B.err i).map (XDec.sub (decFree B K)) := by
    intro i
    unfold DecBounds.err
    cases hb : B.decode i with
    | none => exact ⟨.wrap .ref .bool, trivial, rfl⟩
    | some x =>
      cases x with
      | inl j =>
        exact ⟨tyTower (decTyBase B j) ((j + 1) * K), tyTower_sized (decTyBase_sized B j) _,
          tyTower_decErr (decTyBase_decErr B j) _⟩
      | inr e =>
        obtain ⟨t, ht⟩ := hB i e hb
        exact ⟨t, sized_of_decErr ht, by rw [ht]; simp only [Option.map_some, DecTy.lift_sub]⟩
  refine ⟨fun i => Classical.choose (this i), ⟨fun i => (Classical.choose_spec (this i)).1,
    fun i => (Classical.choose_spec (this i)).2⟩, fun i => (Classical.choose_spec (this i)).1, ?_, ?_, ?_⟩
  · intro i j hb
    rw [(Classical.choose_spec (this i)).2, DecBounds.err, hb]; rfl
  · intro i e hb
    rw [(Classical.choose_spec (this i)).2, DecBounds.err, hb]
    simp only [Option.map_some, DecTy.lift_sub]
  · exact fun j hj => (decTower_generic B j _).trans hj

/-! Parameters that occur. -/

theorem map_generic {B : DecBounds} {x : Option XDec} {f : XDec → XDec} {e : XDec}
    (hf : ∀ e, (f e).intoGeneric B = true → e.intoGeneric B = true) (he : x.map f = some e)
    (hg : e.intoGeneric B = true) : ∃ y, x = some y ∧ y.intoGeneric B = true := by
  cases x with
  | none => cases he
  | some y => cases he; exact ⟨y, rfl, hf y hg⟩

theorem coll_generic {B : DecBounds} (e : XDec)
    (h : (XDec.coll .infallible (.item e)).intoGeneric B = true) : e.intoGeneric B = true := by
  simpa [XDec.intoGeneric] using h

theorem coll_length_generic {B : DecBounds} (e : XDec)
    (h : (XDec.coll .length (.item e)).intoGeneric B = true) : e.intoGeneric B = true := by
  simpa [XDec.intoGeneric] using h

theorem enum_generic {B : DecBounds} {d : Option Repr} (e : XDec)
    (h : (XDec.enum d e).intoGeneric B = true) : e.intoGeneric B = true := by
  rw [XDec.intoGeneric, Bool.and_eq_true] at h
  exact h.2

mutual

/-- The parameter has `Decode`, and its error type can be made generic. -/
theorem GTy.mentions_dec {B : DecBounds} {i : Nat} : ∀ (t : GTy) (o : Bool) (e : XDec), Mentions i t →
    t.decErrOf B o = some e → e.intoGeneric B = true → ∃ x, B.err i = some x ∧ x.intoGeneric B = true
  | .param k, o, e, hm, he, hg => by
    rw [Mentions] at hm
    subst hm
    exact ⟨e, he, hg⟩
  | .closed t, o, e, hm, he, hg => hm.elim
  | .phantom t, o, e, hm, he, hg => hm.elim
  | .wrap w t, o, e, hm, he, hg => by
    by_cases hw : w = .cow
    · subst hw
      rw [GTy.decErrOf] at he
      exact GTy.mentions_dec t true e hm he hg
    · rw [GTy.decErrOf_wrap hw] at he
      split at he
      · exact GTy.mentions_dec t false e hm he hg
      · cases he
  | .array t n, o, e, hm, he, hg => by
    rw [GTy.decErrOf] at he
    obtain ⟨y, h1, h2⟩ := map_generic coll_generic he hg
    exact GTy.mentions_dec t false y hm h1 h2
  | .seq k t, o, e, hm, he, hg => by
    have key : (t.decErrOf B false).map (fun e => XDec.coll .infallible (.item e)) = some e := by
      cases k with
      | slice =>
        rw [GTy.decErrOf] at he
        split at he
        · exact he
        · cases he
      | vec =>
        rw [GTy.decErrOf] at he
        · exact he
        · exact fun hh => nomatch hh
      | linkedList =>
        rw [GTy.decErrOf] at he
        · exact he
        · exact fun hh => nomatch hh
    obtain ⟨y, h1, h2⟩ := map_generic coll_generic key hg
    exact GTy.mentions_dec t false y hm h1 h2
  | .hashMap k v, o, e, hm, he, hg => by
    rw [GTy.decErrOf] at he
    split at he
    · next hkv =>
      obtain ⟨y, h1, h2⟩ := map_generic coll_generic he hg
      rcases hm with hm | hm
      · exact GTy.mentions_dec k false y hm h1 h2
      · exact GTy.mentions_dec v false y hm (hkv ▸ h1) h2
    · cases he
  | .hashSet t, o, e, hm, he, hg => by
    rw [GTy.decErrOf] at he
    obtain ⟨y, h1, h2⟩ := map_generic coll_generic he hg
    exact GTy.mentions_dec t false y hm h1 h2
  | .option t, o, e, hm, he, hg => by
    rw [GTy.decErrOf] at he; exact GTy.mentions_dec t false e hm he hg
  | .result t u, o, e, hm, he, hg => by
    rw [GTy.decErrOf] at he
    split at he
    · next htu =>
      obtain ⟨y, h1, h2⟩ := map_generic enum_generic he hg
      rcases hm with hm | hm
      · exact GTy.mentions_dec t false y hm h1 h2
      · exact GTy.mentions_dec u false y hm (htu ▸ h1) h2
    · cases he
  | .bound t, o, e, hm, he, hg => by
    rw [GTy.decErrOf] at he
    obtain ⟨y, h1, h2⟩ := map_generic enum_generic he hg
    exact GTy.mentions_dec t false y hm h1 h2
  | .range t, o, e, hm, he, hg => by
    rw [GTy.decErrOf] at he; exact GTy.mentions_dec t false e hm he hg
  | .rangeInclusive t, o, e, hm, he, hg => by
    rw [GTy.decErrOf] at he; exact GTy.mentions_dec t false e hm he hg
  | .lock _ t, o, e, hm, he, hg => by
    rw [GTy.decErrOf] at he; exact GTy.mentions_dec t false e hm he hg
  | .refCell t, o, e, hm, he, hg => by
    rw [GTy.decErrOf] at he; exact GTy.mentions_dec t false e hm he hg
  | .sizedSlice t n, o, e, hm, he, hg => by
    rw [GTy.decErrOf] at he
    obtain ⟨y, h1, h2⟩ := map_generic coll_length_generic he hg
    exact GTy.mentions_dec t false y hm h1 h2
  | .tuple fs, o, e, hm, he, hg => by
    rw [GTy.decErrOf] at he
    split at he
    · exact GFields.mentions_dec fs e hm he hg
    · cases he

theorem GFields.mentions_dec {B : DecBounds} {i : Nat} : ∀ (fs : GFields) (e : XDec),
    MentionsFields i fs → fs.decErr B = some e → e.intoGeneric B = true →
    ∃ x, B.err i = some x ∧ x.intoGeneric B = true
  | .nil, e, hm, he, hg => hm.elim
  | .cons t .nil, e, hm, he, hg => by
    rcases hm with hm | hm
    · exact GTy.mentions_dec t false e hm he hg
    · exact hm.elim
  | .cons t (.cons u fs), e, hm, he, hg => by
    rw [GFields.decErr] at he
    · split at he
      · next heq =>
        rcases hm with hm | hm
        · exact GTy.mentions_dec t false e hm he hg
        · exact GFields.mentions_dec (.cons u fs) e hm (heq ▸ he) hg
      · cases he
    · exact fun hh => nomatch hh

end

theorem GFields.decInto_mentions {B : DecBounds} {i : Nat} : ∀ fs : GFields, MentionsFields i fs →
    fs.decInto B = true → ∃ x, B.err i = some x ∧ x.intoGeneric B = true
  | .nil, hm, _ => hm.elim
  | .cons t fs, hm, h => by
    rw [GFields.decInto, Bool.and_eq_true] at h
    rcases hm with hm | hm
    · cases ht : t.decErrOf B false with
      | none => rw [ht] at h; cases h.1
      | some e => rw [ht] at h; exact GTy.mentions_dec t false e hm ht h.1
    · exact GFields.decInto_mentions fs hm h.2

theorem GVariants.decInto_mentions {B : DecBounds} {i : Nat} : ∀ vs : GVariants, MentionsVariants i vs →
    vs.decInto B = true → ∃ x, B.err i = some x ∧ x.intoGeneric B = true
  | .nil, hm, _ => hm.elim
  | .cons d fs vs, hm, h => by
    rw [GVariants.decInto, Bool.and_eq_true] at h
    rcases hm with hm | hm
    · exact GFields.decInto_mentions fs hm h.1
    · exact GVariants.decInto_mentions vs hm h.2

mutual

theorem GTy.hasSized_inst (σ : Nat → Ty) : ∀ t : GTy,
    (t.inst σ).HasSized ↔ t.HasSized fun i => (σ i).HasSized
  | .param _ => Iff.rfl
  | .closed _ => Iff.rfl
  | .phantom _ => Iff.rfl
  | .wrap _ t => GTy.hasSized_inst σ t
  | .array t _ => GTy.hasSized_inst σ t
  | .seq _ _ => Iff.rfl
  | .hashMap _ _ => Iff.rfl
  | .hashSet _ => Iff.rfl
  | .option t => GTy.hasSized_inst σ t
  | .result t u => and_congr (GTy.hasSized_inst σ t) (GTy.hasSized_inst σ u)
  | .bound t => GTy.hasSized_inst σ t
  | .range t => GTy.hasSized_inst σ t
  | .rangeInclusive t => GTy.hasSized_inst σ t
  | .lock _ t => GTy.hasSized_inst σ t
  | .refCell t => GTy.hasSized_inst σ t
  | .sizedSlice t _ => GTy.hasSized_inst σ t
  | .tuple fs => GFields.hasSized_inst σ fs

theorem GFields.hasSized_inst (σ : Nat → Ty) : ∀ fs : GFields,
    (fs.inst σ).HasSized ↔ fs.HasSized fun i => (σ i).HasSized
  | .nil => Iff.rfl
  | .cons t fs => and_congr (GTy.hasSized_inst σ t) (GFields.hasSized_inst σ fs)

end

theorem GVariants.hasSized_inst (σ : Nat → Ty) : ∀ vs : GVariants,
    (vs.inst σ).HasSized ↔ vs.HasSized fun i => (σ i).HasSized
  | .nil => Iff.rfl
  | .cons _ fs vs => and_congr (GFields.hasSized_inst σ fs) (GVariants.hasSized_inst σ vs)

mutual

theorem GTy.hasSized_mono {S S' : Nat → Prop} (h : ∀ i, S i → S' i) : ∀ t : GTy,
    t.HasSized S → t.HasSized S'
  | .param i => h i
  | .closed _ => id
  | .phantom _ => id
  | .wrap _ t => GTy.hasSized_mono h t
  | .array t _ => GTy.hasSized_mono h t
  | .seq _ _ => id
  | .hashMap _ _ => id
  | .hashSet _ => id
  | .option t => GTy.hasSized_mono h t
  | .result t u => And.imp (GTy.hasSized_mono h t) (GTy.hasSized_mono h u)
  | .bound t => GTy.hasSized_mono h t
  | .range t => GTy.hasSized_mono h t
  | .rangeInclusive t => GTy.hasSized_mono h t
  | .lock _ t => GTy.hasSized_mono h t
  | .refCell t => GTy.hasSized_mono h t
  | .sizedSlice t _ => GTy.hasSized_mono h t
  | .tuple fs => GFields.hasSized_mono h fs

theorem GFields.hasSized_mono {S S' : Nat → Prop} (h : ∀ i, S i → S' i) : ∀ fs : GFields,
    fs.HasSized S → fs.HasSized S'
  | .nil => id
  | .cons t fs => And.imp (GTy.hasSized_mono h t) (GFields.hasSized_mono h fs)

end

theorem GVariants.hasSized_mono {S S' : Nat → Prop} (h : ∀ i, S i → S' i) : ∀ vs : GVariants,
    vs.HasSized S → vs.HasSized S'
  | .nil => id
  | .cons _ fs vs => And.imp (GFields.hasSized_mono h fs) (GVariants.hasSized_mono h vs)

end Oct
