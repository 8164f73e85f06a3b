import Verif.Spec.Generic
/- Lemmas for C124: derived impls of generic items, encoding. -/
namespace Oct
open Spec

/-- The error type for certain arguments. -/
def XEnc.sub (ε : Nat → EncTy) : XEnc → EncTy
  | .var j => ε j
  | .infallible => .infallible
  | .usize => .usize
  | .isize => .isize
  | .coll l i => .coll (l.sub ε) (i.sub ε)
  | .item e => .item (e.sub ε)
  | .pair e => .pair (e.sub ε)
  | .enum d f => .enum d (f.sub ε)
  | .refCell e => .refCell (e.sub ε)
  | .generic => .generic

theorem EncTy.lift_sub (ε : Nat → EncTy) (e : EncTy) : e.lift.sub ε = e := by
  induction e with
  | infallible => rfl
  | usize => rfl
  | isize => rfl
  | coll l i h1 h2 => rw [lift, XEnc.sub, h1, h2]
  | item e h => rw [lift, XEnc.sub, h]
  | pair e h => rw [lift, XEnc.sub, h]
  | enum d f h => rw [lift, XEnc.sub, h]
  | refCell e h => rw [lift, XEnc.sub, h]
  | generic => rfl

theorem XEnc.sub_infallible (ε : Nat → EncTy) (e : XEnc) (h : e.intoInfallible = true) :
    (e.sub ε).intoInfallible = true := by
  induction e with
  | coll l i h1 h2 =>
    rw [intoInfallible, Bool.and_eq_true] at h
    rw [sub, EncTy.intoInfallible, h1 h.1, h2 h.2]; rfl
  | item e ih => exact ih h
  | enum d f ih =>
    rw [intoInfallible, Bool.and_eq_true] at h
    rw [sub, EncTy.intoInfallible, h.1, ih h.2]; rfl
  | infallible => rfl
  | _ => cases h

theorem XEnc.sub_generic {B : EncBounds} {ε : Nat → EncTy}
    (hi : ∀ j, B.into j = true → (ε j).intoGeneric = true) (e : XEnc) (h : e.intoGeneric B = true) :
    (e.sub ε).intoGeneric = true := by
  induction e with
  | var j => exact hi j h
  | coll l i h1 h2 =>
    rw [intoGeneric, Bool.and_eq_true] at h
    rw [sub, EncTy.intoGeneric, h1 h.1, h2 h.2]; rfl
  | item e ih => exact ih h
  | enum d f ih => exact ih h
  | pair e ih => cases h
  | refCell e ih => cases h
  | _ => rfl

theorem XEnc.sub_into {B : EncBounds} {ε : Nat → EncTy}
    (hi : ∀ j, B.into j = true → (ε j).intoGeneric = true) (b a : XEnc) (h : b.into B a = true) :
    (b.sub ε).into (a.sub ε) = true := by
  unfold into at h
  unfold EncTy.into
  rw [Bool.or_eq_true, Bool.or_eq_true, Bool.and_eq_true, Bool.and_eq_true] at h ⊢
  rcases h with (h | h) | h
  · exact .inl (.inl (by rw [eq_of_beq h]; exact beq_self_eq_true _))
  · refine .inl (.inr ⟨?_, XEnc.sub_infallible ε b h.2⟩)
    rw [eq_of_beq h.1]; rfl
  · refine .inr ⟨?_, XEnc.sub_generic hi b h.2⟩
    rw [eq_of_beq h.1]; rfl

theorem GFields.inst_count (σ : Nat → Ty) : ∀ fs : GFields, (fs.inst σ).count = fs.count
  | .nil => rfl
  | .cons t fs => by rw [GFields.inst, Fields.count, GFields.count, GFields.inst_count σ fs]

mutual

theorem GTy.encErr_sound {B : EncBounds} {σ : Nat → Ty} {ε : Nat → EncTy} (h : MeetsEnc B σ ε) :
    ∀ (t : GTy) (e : XEnc), t.encErr B = some e → (t.inst σ).encErr = some (e.sub ε)
  | .param i, e, he => by
    rw [GTy.encErr, EncBounds.err] at he
    rw [GTy.inst]
    cases hb : B.encode i with
    | none => rw [hb] at he; cases he
    | some x =>
      rw [hb] at he
      cases x with
      | inl j => cases he; exact h.named i j hb
      | inr e' => cases he; rw [EncTy.lift_sub]; exact h.known i e' hb
  | .closed t, e, he => by
    rw [GTy.encErr] at he
    rw [GTy.inst]
    cases ht : t.encErr with
    | none => rw [ht] at he; cases he
    | some x => rw [ht] at he; cases he; rw [EncTy.lift_sub]
  | .phantom t, e, he => by cases he; rfl
  | .wrap _ t, e, he => GTy.encErr_sound h t e he
  | .array t n, e, he => by
    rw [GTy.encErr] at he
    cases ht : t.encErr B with
    | none => rw [ht] at he; cases he
    | some x => rw [ht] at he; cases he; rw [GTy.inst, Ty.encErr, GTy.encErr_sound h t x ht]; rfl
  | .seq k t, e, he => by
    rw [GTy.encErr] at he
    cases ht : t.encErr B with
    | none => rw [ht] at he; cases he
    | some x =>
      rw [ht] at he; cases he; rw [GTy.inst, Ty.encErr, GTy.encErr_sound h t x ht]
      cases k <;> rfl
  | .hashMap k v, e, he => by
    rw [GTy.encErr] at he
    split at he
    · next hkv =>
      rw [GTy.inst, Ty.encErr, GTy.encErr_sound h k e he, GTy.encErr_sound h v e (hkv ▸ he), if_pos rfl]
    · cases he
  | .hashSet k, e, he => GTy.encErr_sound h k e he
  | .option t, e, he => GTy.encErr_sound h t e he
  | .result t u, e, he => by
    rw [GTy.encErr] at he
    split at he
    · next a b ha hb =>
      split at he
      · next hi =>
        cases he
        rw [GTy.inst, Ty.encErr, GTy.encErr_sound h t _ ha, GTy.encErr_sound h u _ hb]
        exact if_pos (XEnc.sub_into h.into _ _ hi)
      · cases he
    · cases he
  | .bound t, e, he => by
    rw [GTy.encErr] at he
    cases ht : t.encErr B with
    | none => rw [ht] at he; cases he
    | some x => rw [ht] at he; cases he; rw [GTy.inst, Ty.encErr, GTy.encErr_sound h t x ht]; rfl
  | .range t, e, he => GTy.encErr_sound h t e he
  | .rangeInclusive t, e, he => GTy.encErr_sound h t e he
  | .lock _ t, e, he => GTy.encErr_sound h t e he
  | .refCell t, e, he => by
    rw [GTy.encErr] at he
    cases ht : t.encErr B with
    | none => rw [ht] at he; cases he
    | some x => rw [ht] at he; cases he; rw [GTy.inst, Ty.encErr, GTy.encErr_sound h t x ht]; rfl
  | .sizedSlice t n, e, he => by
    rw [GTy.encErr] at he
    cases ht : t.encErr B with
    | none => rw [ht] at he; cases he
    | some x => rw [ht] at he; cases he; rw [GTy.inst, Ty.encErr, GTy.encErr_sound h t x ht]; rfl
  | .tuple fs, e, he => by
    rw [GTy.encErr] at he
    split at he
    · next hc =>
      rw [GTy.inst, Ty.encErr, GFields.inst_count, if_pos hc]
      exact GFields.encErr_sound h fs e he
    · cases he

theorem GFields.encErr_sound {B : EncBounds} {σ : Nat → Ty} {ε : Nat → EncTy} (h : MeetsEnc B σ ε) :
    ∀ (fs : GFields) (e : XEnc), fs.encErr B = some e → (fs.inst σ).encErr = some (e.sub ε)
  | .nil, e, he => nomatch he
  | .cons t .nil, e, he => by
    rw [GFields.inst, GFields.inst, Fields.encErr]
    exact GTy.encErr_sound h t e he
  | .cons t (.cons u fs), e, he => by
    rw [GFields.encErr] at he
    · split at he
      · next heq =>
        have h2 := GFields.encErr_sound h (.cons u fs) e (heq ▸ he)
        rw [GFields.inst] at h2
        rw [GFields.inst, GFields.inst, Fields.encErr, GTy.encErr_sound h t e he, h2, if_pos rfl]
        exact fun hh => nomatch hh
      · cases he
    · exact fun hh => nomatch hh

end

theorem GFields.encInto_sound {B : EncBounds} {σ : Nat → Ty} {ε : Nat → EncTy} (h : MeetsEnc B σ ε) :
    ∀ (fs : GFields), fs.encInto B = true → (fs.inst σ).encInto = true
  | .nil, _ => rfl
  | .cons t fs, hi => by
    rw [GFields.encInto, Bool.and_eq_true] at hi
    rw [GFields.inst, Fields.encInto, GFields.encInto_sound h fs hi.2, Bool.and_true]
    cases ht : t.encErr B with
    | none => rw [ht] at hi; cases hi.1
    | some e =>
      rw [ht] at hi
      rw [GTy.encErr_sound h t e ht]
      exact XEnc.sub_generic h.into e hi.1

theorem GVariants.encInto_sound {B : EncBounds} {σ : Nat → Ty} {ε : Nat → EncTy} (h : MeetsEnc B σ ε) :
    ∀ (vs : GVariants), vs.encInto B = true → (vs.inst σ).encInto = true
  | .nil, _ => rfl
  | .cons d fs vs, hi => by
    rw [GVariants.encInto, Bool.and_eq_true] at hi
    rw [GVariants.inst, Variants.encInto, GFields.encInto_sound h fs hi.1,
      GVariants.encInto_sound h vs hi.2]
    rfl

/-! The instance in which nothing holds that the bounds do not say. -/

def XEnc.depth : XEnc → Nat
  | .coll l i => max l.depth i.depth + 1
  | .item e => e.depth + 1
  | .pair e => e.depth + 1
  | .enum _ f => f.depth + 1
  | .refCell e => e.depth + 1
  | _ => 0

def encTower (b : EncTy) : Nat → EncTy
  | 0 => b
  | n + 1 => .coll .infallible (.item (encTower b n))

def encBase (B : EncBounds) (j : Nat) : EncTy := if B.into j then .usize else .refCell .infallible

/-- The error type that goes by the name `j`. -/
def encFree (B : EncBounds) (K j : Nat) : EncTy := encTower (encBase B j) ((j + 1) * K)

def tyTower (b : Ty) : Nat → Ty
  | 0 => b
  | n + 1 => .array (tyTower b n) 0

theorem tyTower_encErr {b : Ty} {e : EncTy} (h : b.encErr = some e) :
    ∀ n, (tyTower b n).encErr = some (encTower e n)
  | 0 => h
  | n + 1 => by rw [tyTower, Ty.encErr, tyTower_encErr h n]; rfl

def encTyBase (B : EncBounds) (j : Nat) : Ty := if B.into j then .usize else .refCell .bool

theorem encTyBase_encErr (B : EncBounds) (j : Nat) : (encTyBase B j).encErr = some (encBase B j) := by
  unfold encTyBase encBase
  cases B.into j <;> rfl

theorem encBase_ne_coll (B : EncBounds) (j : Nat) (l i : EncTy) : encBase B j ≠ .coll l i := by
  unfold encBase
  cases B.into j <;> simp

theorem encTower_inj {B : EncBounds} {j j' : Nat} : ∀ (n n' : Nat),
    encTower (encBase B j) n = encTower (encBase B j') n' → n = n'
  | 0, 0, _ => rfl
  | 0, n' + 1, h => absurd h (encBase_ne_coll B j _ _)
  | n + 1, 0, h => absurd h.symm (encBase_ne_coll B j' _ _)
  | n + 1, n' + 1, h => by
    rw [encTower, encTower] at h
    injection h with _ h
    injection h with h
    rw [encTower_inj n n' h]

theorem encFree_pos {B : EncBounds} {K : Nat} (hK : 0 < K) (j : Nat) :
    ∃ n, encFree B K j = encTower (encBase B j) (n + 1) := by
  have : 0 < (j + 1) * K := Nat.mul_pos (by omega) hK
  exact ⟨(j + 1) * K - 1, by rw [encFree, Nat.sub_add_cancel this]⟩

/-- What stands for a tower is a tower over a name. -/
theorem XEnc.sub_tower {B : EncBounds} {K : Nat} (hK : 0 < K) {j : Nat} :
    ∀ (e : XEnc) (m : Nat), e.sub (encFree B K) = encTower (encBase B j) m → e.depth < m →
    ∃ j' d, m = (j' + 1) * K + d ∧ d ≤ e.depth ∧ (d = 0 → e = .var j')
  | .var j', m, h, _ => ⟨j', 0, (encTower_inj _ _ h).symm, Nat.le_refl _, fun _ => rfl⟩
  | .coll l (.item e), 0, _, hm => absurd hm (Nat.not_lt_zero _)
  | .coll l (.item e), m + 1, h, hm => by
    rw [encTower, sub, sub] at h
    injection h with _ h
    injection h with h
    rw [depth, depth] at hm
    obtain ⟨j', d, h1, h2, h3⟩ := XEnc.sub_tower hK e m h (by omega)
    exact ⟨j', d + 1, by omega, by rw [depth, depth]; omega, fun h => absurd h (by omega)⟩
  | .coll l (.var k), 0, _, hm => absurd hm (Nat.not_lt_zero _)
  | .coll l (.var k), m + 1, h, _ => by
    rw [encTower, sub, sub] at h
    injection h with _ h
    obtain ⟨n, e⟩ := encFree_pos (B := B) hK k
    rw [e, encTower] at h
    cases h
  | .coll l .infallible, 0, _, hm => absurd hm (Nat.not_lt_zero _)
  | .coll l .usize, 0, _, hm => absurd hm (Nat.not_lt_zero _)
  | .coll l .isize, 0, _, hm => absurd hm (Nat.not_lt_zero _)
  | .coll l .generic, 0, _, hm => absurd hm (Nat.not_lt_zero _)
  | .coll l (.coll _ _), 0, _, hm => absurd hm (Nat.not_lt_zero _)
  | .coll l (.pair _), 0, _, hm => absurd hm (Nat.not_lt_zero _)
  | .coll l (.enum _ _), 0, _, hm => absurd hm (Nat.not_lt_zero _)
  | .coll l (.refCell _), 0, _, hm => absurd hm (Nat.not_lt_zero _)
  | .coll l .infallible, m + 1, h, _ => by injection h with _ h; cases h
  | .coll l .usize, m + 1, h, _ => by injection h with _ h; cases h
  | .coll l .isize, m + 1, h, _ => by injection h with _ h; cases h
  | .coll l .generic, m + 1, h, _ => by injection h with _ h; cases h
  | .coll l (.coll _ _), m + 1, h, _ => by injection h with _ h; cases h
  | .coll l (.pair _), m + 1, h, _ => by injection h with _ h; cases h
  | .coll l (.enum _ _), m + 1, h, _ => by injection h with _ h; cases h
  | .coll l (.refCell _), m + 1, h, _ => by injection h with _ h; cases h
  | .infallible, m + 1, h, _ => nomatch h
  | .usize, m + 1, h, _ => nomatch h
  | .isize, m + 1, h, _ => nomatch h
  | .item _, m + 1, h, _ => nomatch h
  | .pair _, m + 1, h, _ => nomatch h
  | .enum _ _, m + 1, h, _ => nomatch h
  | .refCell _, m + 1, h, _ => nomatch h
  | .generic, m + 1, h, _ => nomatch h
  | .infallible, 0, _, hm => absurd hm (Nat.not_lt_zero _)
  | .usize, 0, _, hm => absurd hm (Nat.not_lt_zero _)
  | .isize, 0, _, hm => absurd hm (Nat.not_lt_zero _)
  | .item _, 0, _, hm => absurd hm (Nat.not_lt_zero _)
  | .pair _, 0, _, hm => absurd hm (Nat.not_lt_zero _)
  | .enum _ _, 0, _, hm => absurd hm (Nat.not_lt_zero _)
  | .refCell _, 0, _, hm => absurd hm (Nat.not_lt_zero _)
  | .generic, 0, _, hm => absurd hm (Nat.not_lt_zero _)

theorem XEnc.sub_var {B : EncBounds} {K : Nat} {e : XEnc} {j : Nat} (he : e.depth < K)
    (h : e.sub (encFree B K) = encFree B K j) : e = .var j := by
  have hK : 0 < K := by omega
  have hle : K ≤ (j + 1) * K := Nat.le_mul_of_pos_left K (by omega)
  obtain ⟨j', d, h1, h2, h3⟩ := XEnc.sub_tower hK e ((j + 1) * K) h (by omega)
  have hd : d = 0 := by
    have hdK : d < K := by omega
    rcases Nat.lt_trichotomy j j' with hl | rfl | hl
    · have : (j + 1) * K ≤ (j' + 1) * K := Nat.mul_le_mul_right K (by omega)
      omega
    · omega
    · have : (j' + 1 + 1) * K ≤ (j + 1) * K := Nat.mul_le_mul_right K (by omega)
      rw [Nat.add_mul (j' + 1) 1 K] at this
      omega
  subst hd
  rw [h3 rfl] at h ⊢
  have := encTower_inj _ _ h
  have := Nat.eq_of_mul_eq_mul_right hK this
  congr 1
  omega

/-- Different error types stay different. -/
theorem XEnc.sub_inj {B : EncBounds} {K : Nat} : ∀ (e e' : XEnc), e.depth < K → e'.depth < K →
    e.sub (encFree B K) = e'.sub (encFree B K) → e = e' := by
  intro e
  induction e with
  | var j => exact fun e' _ h' h => (XEnc.sub_var h' h.symm).symm
  | infallible =>
    intro e' h0 h' h
    cases e' with
    | var j => exact XEnc.sub_var h0 h
    | infallible => rfl
    | _ => cases h
  | usize =>
    intro e' h0 h' h
    cases e' with
    | var j => exact XEnc.sub_var h0 h
    | usize => rfl
    | _ => cases h
  | isize =>
    intro e' h0 h' h
    cases e' with
    | var j => exact XEnc.sub_var h0 h
    | isize => rfl
    | _ => cases h
  | generic =>
    intro e' h0 h' h
    cases e' with
    | var j => exact XEnc.sub_var h0 h
    | generic => rfl
    | _ => cases h
  | coll l i h1 h2 =>
    intro e' h0 h' h
    cases e' with
    | var j => exact XEnc.sub_var h0 h
    | coll l' i' =>
      rw [sub, sub] at h
      injection h with a b
      rw [depth] at h0 h'
      rw [h1 l' (by omega) (by omega) a, h2 i' (by omega) (by omega) b]
    | _ => cases h
  | item e ih =>
    intro e' h0 h' h
    cases e' with
    | var j => exact XEnc.sub_var h0 h
    | item f =>
      rw [sub, sub] at h
      injection h with a
      rw [depth] at h0 h'
      rw [ih f (by omega) (by omega) a]
    | _ => cases h
  | pair e ih =>
    intro e' h0 h' h
    cases e' with
    | var j => exact XEnc.sub_var h0 h
    | pair f =>
      rw [sub, sub] at h
      injection h with a
      rw [depth] at h0 h'
      rw [ih f (by omega) (by omega) a]
    | _ => cases h
  | enum d e ih =>
    intro e' h0 h' h
    cases e' with
    | var j => exact XEnc.sub_var h0 h
    | enum d' f =>
      rw [sub, sub] at h
      injection h with b a
      rw [depth] at h0 h'
      rw [ih f (by omega) (by omega) a, b]
    | _ => cases h
  | refCell e ih =>
    intro e' h0 h' h
    cases e' with
    | var j => exact XEnc.sub_var h0 h
    | refCell f =>
      rw [sub, sub] at h
      injection h with a
      rw [depth] at h0 h'
      rw [ih f (by omega) (by omega) a]
    | _ => cases h

theorem encTower_infallible (B : EncBounds) (j : Nat) :
    ∀ n, (encTower (encBase B j) n).intoInfallible = false
  | 0 => by unfold encTower encBase; cases B.into j <;> rfl
  | n + 1 => by rw [encTower, EncTy.intoInfallible, EncTy.intoInfallible, EncTy.intoInfallible,
      encTower_infallible B j n]; rfl

theorem encTower_generic (B : EncBounds) (j : Nat) :
    ∀ n, (encTower (encBase B j) n).intoGeneric = B.into j
  | 0 => by unfold encTower encBase; cases B.into j <;> rfl
  | n + 1 => by rw [encTower, EncTy.intoGeneric, EncTy.intoGeneric, EncTy.intoGeneric,
      encTower_generic B j n]; rfl

theorem XEnc.free_infallible (B : EncBounds) (K : Nat) (e : XEnc) :
    (e.sub (encFree B K)).intoInfallible = e.intoInfallible := by
  induction e with
  | var j => exact encTower_infallible B j _
  | coll l i h1 h2 => rw [sub, EncTy.intoInfallible, intoInfallible, h1, h2]
  | item e ih => exact ih
  | enum d f ih => rw [sub, EncTy.intoInfallible, intoInfallible, ih]
  | _ => rfl

theorem XEnc.free_generic (B : EncBounds) (K : Nat) (e : XEnc) :
    (e.sub (encFree B K)).intoGeneric = e.intoGeneric B := by
  induction e with
  | var j => exact encTower_generic B j _
  | coll l i h1 h2 => rw [sub, EncTy.intoGeneric, intoGeneric, h1, h2]
  | item e ih => exact ih
  | enum d f ih => exact ih
  | _ => rfl

theorem XEnc.free_beq {B : EncBounds} {K : Nat} {e e' : XEnc} (h : e.depth < K) (h' : e'.depth < K) :
    (e.sub (encFree B K) == e'.sub (encFree B K)) = (e == e') := by
  by_cases he : e = e'
  · rw [he, beq_self_eq_true, beq_self_eq_true]
  · rw [beq_eq_false_iff_ne.mpr he]
    exact beq_eq_false_iff_ne.mpr fun hh => he (XEnc.sub_inj e e' h h' hh)

theorem XEnc.free_into {B : EncBounds} {K : Nat} {b a : XEnc} (hb : b.depth < K) (ha : a.depth < K) :
    (b.sub (encFree B K)).into (a.sub (encFree B K)) = b.into B a := by
  have hK : 0 < K := by omega
  unfold EncTy.into into
  rw [XEnc.free_beq hb ha, XEnc.free_infallible, XEnc.free_generic,
    ← XEnc.free_beq (B := B) (K := K) ha (show XEnc.infallible.depth < K from hK),
    ← XEnc.free_beq (B := B) (K := K) ha (show XEnc.generic.depth < K from hK)]
  rfl

mutual

/-- No error type in the type is deeper. -/
def GTy.encNeed (B : EncBounds) : GTy → Nat
  | .param i => ((B.err i).map XEnc.depth).getD 0
  | .closed t => ((t.encErr.map EncTy.lift).map XEnc.depth).getD 0
  | .phantom _ => 0
  | .wrap _ t => t.encNeed B
  | .array t _ => t.encNeed B + 2
  | .seq _ t => t.encNeed B + 2
  | .hashMap k v => max (k.encNeed B) (v.encNeed B)
  | .hashSet k => k.encNeed B
  | .option t => t.encNeed B
  | .result t e => max (t.encNeed B) (e.encNeed B)
  | .bound t => t.encNeed B + 1
  | .range t => t.encNeed B
  | .rangeInclusive t => t.encNeed B
  | .lock _ t => t.encNeed B
  | .refCell t => t.encNeed B + 1
  | .sizedSlice t _ => t.encNeed B + 2
  | .tuple fs => fs.encNeed B

def GFields.encNeed (B : EncBounds) : GFields → Nat
  | .nil => 0
  | .cons t fs => max (t.encNeed B) (fs.encNeed B)

end

mutual

theorem GTy.encNeed_le (B : EncBounds) : ∀ (t : GTy) (e : XEnc), t.encErr B = some e →
    e.depth ≤ t.encNeed B
  | .param i, e, h => by
    rw [GTy.encErr] at h
    rw [GTy.encNeed, h]; exact Nat.le_refl _
  | .closed t, e, h => by
    rw [GTy.encErr] at h
    rw [GTy.encNeed, h]; exact Nat.le_refl _
  | .phantom t, e, h => by cases h; exact Nat.le_refl _
  | .wrap _ t, e, h => GTy.encNeed_le B t e h
  | .array t n, e, h => by
    rw [GTy.encErr] at h
    cases ht : t.encErr B with
    | none => rw [ht] at h; cases h
    | some x =>
      have := GTy.encNeed_le B t x ht
      rw [ht] at h; cases h
      simp only [XEnc.depth, GTy.encNeed]; omega
  | .seq k t, e, h => by
    rw [GTy.encErr] at h
    cases ht : t.encErr B with
    | none => rw [ht] at h; cases h
    | some x =>
      have := GTy.encNeed_le B t x ht
      rw [ht] at h; cases h
      cases k <;> simp [XEnc.depth, GTy.encNeed] <;> omega
  | .hashMap k v, e, h => by
    rw [GTy.encErr] at h
    split at h
    · have := GTy.encNeed_le B k e h
      rw [GTy.encNeed]; omega
    · cases h
  | .hashSet k, e, h => GTy.encNeed_le B k e h
  | .option t, e, h => GTy.encNeed_le B t e h
  | .result t u, e, h => by
    rw [GTy.encErr] at h
    split at h
    · next a b ha hb =>
      split at h
      · cases h
        have := GTy.encNeed_le B t _ ha
        rw [GTy.encNeed]; omega
      · cases h
    · cases h
  | .bound t, e, h => by
    rw [GTy.encErr] at h
    cases ht : t.encErr B with
    | none => rw [ht] at h; cases h
    | some x =>
      have := GTy.encNeed_le B t x ht
      rw [ht] at h; cases h
      simp only [XEnc.depth, GTy.encNeed]; omega
  | .range t, e, h => GTy.encNeed_le B t e h
  | .rangeInclusive t, e, h => GTy.encNeed_le B t e h
  | .lock _ t, e, h => GTy.encNeed_le B t e h
  | .refCell t, e, h => by
    rw [GTy.encErr] at h
    cases ht : t.encErr B with
    | none => rw [ht] at h; cases h
    | some x =>
      have := GTy.encNeed_le B t x ht
      rw [ht] at h; cases h
      simp only [XEnc.depth, GTy.encNeed]; omega
  | .sizedSlice t n, e, h => by
    rw [GTy.encErr] at h
    cases ht : t.encErr B with
    | none => rw [ht] at h; cases h
    | some x =>
      have := GTy.encNeed_le B t x ht
      rw [ht] at h; cases h
      simp only [XEnc.depth, GTy.encNeed]; omega
  | .tuple fs, e, h => by
    rw [GTy.encErr] at h
    split at h
    · exact GFields.encNeed_le B fs e h
    · cases h

theorem GFields.encNeed_le (B : EncBounds) : ∀ (fs : GFields) (e : XEnc), fs.encErr B = some e →
    e.depth ≤ fs.encNeed B
  | .nil, e, h => nomatch h
  | .cons t .nil, e, h => by
    have := GTy.encNeed_le B t e h
    rw [GFields.encNeed]; omega
  | .cons t (.cons u fs), e, h => by
    rw [GFields.encErr] at h
    · split at h
      · have := GTy.encNeed_le B t e h
        rw [GFields.encNeed]; omega
      · cases h
    · exact fun hh => nomatch hh

end

/-- The arguments. -/
structure EncFree (B : EncBounds) (K : Nat) (σ : Nat → Ty) : Prop where
  err : ∀ i, (σ i).encErr = (B.err i).map (XEnc.sub (encFree B K))

theorem map_eq_iff {α β : Type} {f : α → β} {x y : Option α}
    (h : ∀ a b, x = some a → y = some b → f a = f b → a = b) : x.map f = y.map f ↔ x = y := by
  cases x with
  | none => cases y <;> simp
  | some a =>
    cases y with
    | none => simp
    | some b =>
      simp only [Option.map_some, Option.some.injEq]
      exact ⟨h a b rfl rfl, fun e => e ▸ rfl⟩

mutual

theorem GTy.encErr_free {B : EncBounds} {K : Nat} {σ : Nat → Ty} (h : EncFree B K σ) :
    ∀ t : GTy, t.encNeed B < K → (t.inst σ).encErr = (t.encErr B).map (XEnc.sub (encFree B K))
  | .param i, _ => h.err i
  | .closed t, _ => by
    rw [GTy.inst, GTy.encErr, Option.map_map]
    cases t.encErr with
    | none => rfl
    | some e => simp only [Option.map_some, Function.comp_apply, EncTy.lift_sub]
  | .phantom t, _ => rfl
  | .wrap _ t, hk => GTy.encErr_free h t hk
  | .array t n, hk => by
    rw [GTy.encNeed] at hk
    rw [GTy.inst, Ty.encErr, GTy.encErr, GTy.encErr_free h t (by omega)]
    cases t.encErr B <;> rfl
  | .seq k t, hk => by
    rw [GTy.encNeed] at hk
    rw [GTy.inst, Ty.encErr, GTy.encErr, GTy.encErr_free h t (by omega)]
    cases t.encErr B <;> cases k <;> rfl
  | .hashMap k v, hk => by
    rw [GTy.encNeed] at hk
    rw [GTy.inst, Ty.encErr, GTy.encErr, GTy.encErr_free h k (by omega),
      GTy.encErr_free h v (by omega)]
    have := map_eq_iff (f := XEnc.sub (encFree B K)) (x := k.encErr B) (y := v.encErr B)
      fun a b ha hb => XEnc.sub_inj a b
        (Nat.lt_of_le_of_lt (GTy.encNeed_le B k a ha) (by omega))
        (Nat.lt_of_le_of_lt (GTy.encNeed_le B v b hb) (by omega))
    by_cases hkv : k.encErr B = v.encErr B
    · rw [if_pos hkv, if_pos (this.mpr hkv)]
    · rw [if_neg hkv, if_neg (fun hh => hkv (this.mp hh))]; rfl
  | .hashSet k, hk => GTy.encErr_free h k hk
  | .option t, hk => GTy.encErr_free h t hk
  | .result t u, hk => by
    rw [GTy.encNeed] at hk
    rw [GTy.inst, Ty.encErr, GTy.encErr, GTy.encErr_free h t (by omega),
      GTy.encErr_free h u (by omega)]
    cases ha : t.encErr B with
    | none => rfl
    | some a =>
      cases hb : u.encErr B with
      | none => rfl
      | some b =>
        have e := XEnc.free_into (B := B) (K := K)
          (Nat.lt_of_le_of_lt (GTy.encNeed_le B u b hb) (by omega))
          (Nat.lt_of_le_of_lt (GTy.encNeed_le B t a ha) (by omega))
        simp only [Option.map_some]
        rw [e]
        cases b.into B a <;> rfl
  | .bound t, hk => by
    rw [GTy.encNeed] at hk
    rw [GTy.inst, Ty.encErr, GTy.encErr, GTy.encErr_free h t (by omega)]
    cases t.encErr B <;> rfl
  | .range t, hk => GTy.encErr_free h t hk
  | .rangeInclusive t, hk => GTy.encErr_free h t hk
  | .lock _ t, hk => GTy.encErr_free h t hk
  | .refCell t, hk => by
    rw [GTy.encNeed] at hk
    rw [GTy.inst, Ty.encErr, GTy.encErr, GTy.encErr_free h t (by omega)]
    cases t.encErr B <;> rfl
  | .sizedSlice t n, hk => by
    rw [GTy.encNeed] at hk
    rw [GTy.inst, Ty.encErr, GTy.encErr, GTy.encErr_free h t (by omega)]
    cases t.encErr B <;> rfl
  | .tuple fs, hk => by
    rw [GTy.encNeed] at hk
    rw [GTy.inst, Ty.encErr, GTy.encErr, GFields.inst_count, GFields.encErr_free h fs hk]
    split <;> rfl

theorem GFields.encErr_free {B : EncBounds} {K : Nat} {σ : Nat → Ty} (h : EncFree B K σ) :
    ∀ fs : GFields, fs.encNeed B < K → (fs.inst σ).encErr = (fs.encErr B).map (XEnc.sub (encFree B K))
  | .nil, _ => rfl
  | .cons t .nil, hk => by
    rw [GFields.encNeed] at hk
    rw [GFields.inst, GFields.inst, Fields.encErr, GFields.encErr]
    exact GTy.encErr_free h t (by omega)
  | .cons t (.cons u fs), hk => by
    rw [GFields.encNeed] at hk
    have h1 := GTy.encErr_free h t (by omega)
    have h2 := GFields.encErr_free h (.cons u fs) (by omega)
    rw [GFields.inst] at h2
    rw [GFields.inst, GFields.inst, Fields.encErr, GFields.encErr, h1, h2]
    · have := map_eq_iff (f := XEnc.sub (encFree B K)) (x := t.encErr B)
        (y := (GFields.cons u fs).encErr B) fun a b ha hb => XEnc.sub_inj a b
          (Nat.lt_of_le_of_lt (GTy.encNeed_le B t a ha) (by omega))
          (Nat.lt_of_le_of_lt (GFields.encNeed_le B (.cons u fs) b hb) (by omega))
      by_cases hkv : t.encErr B = (GFields.cons u fs).encErr B
      · rw [if_pos hkv, if_pos (this.mpr hkv)]
      · rw [if_neg hkv, if_neg (fun hh => hkv (this.mp hh))]; rfl
    · exact fun hh => nomatch hh
    · exact fun hh => nomatch hh

end

theorem GFields.encInto_free {B : EncBounds} {K : Nat} {σ : Nat → Ty} (h : EncFree B K σ) :
    ∀ fs : GFields, fs.encNeed B < K → (fs.inst σ).encInto = fs.encInto B
  | .nil, _ => rfl
  | .cons t fs, hk => by
    rw [GFields.encNeed] at hk
    rw [GFields.inst, Fields.encInto, GFields.encInto, GFields.encInto_free h fs (by omega),
      GTy.encErr_free h t (by omega)]
    cases t.encErr B with
    | none => rfl
    | some e => simp only [Option.map_some, Option.any_some, XEnc.free_generic]

def GVariants.encNeed (B : EncBounds) : GVariants → Nat
  | .nil => 0
  | .cons _ fs vs => max (fs.encNeed B) (vs.encNeed B)

theorem GVariants.encInto_free {B : EncBounds} {K : Nat} {σ : Nat → Ty} (h : EncFree B K σ) :
    ∀ vs : GVariants, vs.encNeed B < K → (vs.inst σ).encInto = vs.encInto B
  | .nil, _ => rfl
  | .cons d fs vs, hk => by
    rw [GVariants.encNeed] at hk
    rw [GVariants.inst, Variants.encInto, GVariants.encInto, GFields.encInto_free h fs (by omega),
      GVariants.encInto_free h vs (by omega)]

/-- There are such arguments. -/
theorem encFree_exists (B : EncBounds) (K : Nat)
    (hB : ∀ i e, B.encode i = some (.inr e) → ∃ t : Ty, t.encErr = some e) :
    ∃ σ : Nat → Ty, EncFree B K σ ∧ MeetsEnc B σ (encFree B K) := by
  have : ∀ i, ∃ t : Ty, t.encErr = (B.err i).map (XEnc.sub (encFree B K)) := by
    intro i
    unfold EncBounds.err
    cases hb : B.encode i with
    | none => exact ⟨.hashMap .usize .bool, rfl⟩
    | some x =>
      cases x with
      | inl j => exact ⟨tyTower (encTyBase B j) ((j + 1) * K), tyTower_encErr (encTyBase_encErr B j) _⟩
      | inr e =>
        obtain ⟨t, ht⟩ := hB i e hb
        exact ⟨t, by rw [ht]; simp only [Option.map_some, EncTy.lift_sub]⟩
  refine ⟨fun i => Classical.choose (this i), ⟨fun i => Classical.choose_spec (this i)⟩, ?_, ?_, ?_⟩
  · intro i j hb
    rw [Classical.choose_spec (this i), EncBounds.err, hb]; rfl
  · intro i e hb
    rw [Classical.choose_spec (this i), EncBounds.err, hb]
    simp only [Option.map_some, EncTy.lift_sub]
  · exact fun j hj => (encTower_generic B j _).trans hj

/-! Parameters that occur. -/

/-- The name occurs in the error type, and nothing in it stops a conversion but the names. -/
theorem XEnc.into_generic_beq {B : EncBounds} {b a : XEnc} (h : b.into B a = true)
    (ha : a.intoGeneric B = true) : b.intoGeneric B = true := by
  unfold into at h
  rw [Bool.or_eq_true, Bool.or_eq_true, Bool.and_eq_true, Bool.and_eq_true] at h
  rcases h with (h | h) | h
  · rw [eq_of_beq h]; exact ha
  · have := h.2
    clear h ha
    induction b with
    | infallible => rfl
    | coll l i h1 h2 =>
      rw [intoInfallible, Bool.and_eq_true] at this
      rw [intoGeneric, h1 this.1, h2 this.2]; rfl
    | item e ih => exact ih this
    | enum d f ih =>
      rw [intoInfallible, Bool.and_eq_true] at this
      exact ih this.2
    | _ => cases this
  · exact h.2

mutual

/-- The parameter has `Encode`, and its error type can be made generic. -/
theorem GTy.mentions_enc {B : EncBounds} {i : Nat} : ∀ (t : GTy) (e : XEnc), Mentions i t →
    t.encErr B = some e → e.intoGeneric B = true → ∃ x, B.err i = some x ∧ x.intoGeneric B = true
  | .param k, e, hm, he, hg => by
    rw [Mentions] at hm
    subst hm
    exact ⟨e, he, hg⟩
  | .closed t, e, hm, he, hg => hm.elim
  | .phantom t, e, hm, he, hg => hm.elim
  | .wrap _ t, e, hm, he, hg => GTy.mentions_enc t e hm he hg
  | .array t n, e, hm, he, hg => by
    rw [GTy.encErr] at he
    cases ht : t.encErr B with
    | none => rw [ht] at he; cases he
    | some x =>
      rw [ht] at he; cases he
      simp only [XEnc.intoGeneric, Bool.true_and] at hg
      exact GTy.mentions_enc t x hm ht hg
  | .seq k t, e, hm, he, hg => by
    rw [GTy.encErr] at he
    cases ht : t.encErr B with
    | none => rw [ht] at he; cases he
    | some x =>
      rw [ht] at he; cases he
      cases k with
      | linkedList => cases hg
      | slice => simp [XEnc.intoGeneric] at hg; exact GTy.mentions_enc t x hm ht hg
      | vec => simp [XEnc.intoGeneric] at hg; exact GTy.mentions_enc t x hm ht hg
  | .hashMap k v, e, hm, he, hg => by
    rw [GTy.encErr] at he
    split at he
    · next hkv =>
      rcases hm with hm | hm
      · exact GTy.mentions_enc k e hm he hg
      · exact GTy.mentions_enc v e hm (hkv ▸ he) hg
    · cases he
  | .hashSet k, e, hm, he, hg => GTy.mentions_enc k e hm he hg
  | .option t, e, hm, he, hg => GTy.mentions_enc t e hm he hg
  | .result t u, e, hm, he, hg => by
    rw [GTy.encErr] at he
    split at he
    · next a b ha hb =>
      split at he
      · next hi =>
        cases he
        rcases hm with hm | hm
        · exact GTy.mentions_enc t _ hm ha hg
        · exact GTy.mentions_enc u _ hm hb (XEnc.into_generic_beq hi hg)
      · cases he
    · cases he
  | .bound t, e, hm, he, hg => by
    rw [GTy.encErr] at he
    cases ht : t.encErr B with
    | none => rw [ht] at he; cases he
    | some x => rw [ht] at he; cases he; exact GTy.mentions_enc t x hm ht hg
  | .range t, e, hm, he, hg => GTy.mentions_enc t e hm he hg
  | .rangeInclusive t, e, hm, he, hg => GTy.mentions_enc t e hm he hg
  | .lock _ t, e, hm, he, hg => GTy.mentions_enc t e hm he hg
  | .refCell t, e, hm, he, hg => by
    rw [GTy.encErr] at he
    cases ht : t.encErr B with
    | none => rw [ht] at he; cases he
    | some x => rw [ht] at he; cases he; cases hg
  | .sizedSlice t n, e, hm, he, hg => by
    rw [GTy.encErr] at he
    cases ht : t.encErr B with
    | none => rw [ht] at he; cases he
    | some x =>
      rw [ht] at he; cases he
      simp only [XEnc.intoGeneric, Bool.true_and] at hg
      exact GTy.mentions_enc t x hm ht hg
  | .tuple fs, e, hm, he, hg => by
    rw [GTy.encErr] at he
    split at he
    · exact GFields.mentions_enc fs e hm he hg
    · cases he

theorem GFields.mentions_enc {B : EncBounds} {i : Nat} : ∀ (fs : GFields) (e : XEnc),
    MentionsFields i fs → fs.encErr B = some e → e.intoGeneric B = true →
    ∃ x, B.err i = some x ∧ x.intoGeneric B = true
  | .nil, e, hm, he, hg => hm.elim
  | .cons t .nil, e, hm, he, hg => by
    rcases hm with hm | hm
    · exact GTy.mentions_enc t e hm he hg
    · exact hm.elim
  | .cons t (.cons u fs), e, hm, he, hg => by
    rw [GFields.encErr] at he
    · split at he
      · next heq =>
        rcases hm with hm | hm
        · exact GTy.mentions_enc t e hm he hg
        · exact GFields.mentions_enc (.cons u fs) e hm (heq ▸ he) hg
      · cases he
    · exact fun hh => nomatch hh

end

theorem GFields.encInto_mentions {B : EncBounds} {i : Nat} : ∀ fs : GFields, MentionsFields i fs →
    fs.encInto B = true → ∃ x, B.err i = some x ∧ x.intoGeneric B = true
  | .nil, hm, _ => hm.elim
  | .cons t fs, hm, h => by
    rw [GFields.encInto, Bool.and_eq_true] at h
    rcases hm with hm | hm
    · cases ht : t.encErr B with
      | none => rw [ht] at h; cases h.1
      | some e => rw [ht] at h; exact GTy.mentions_enc t e hm ht h.1
    · exact GFields.encInto_mentions fs hm h.2

theorem GVariants.encInto_mentions {B : EncBounds} {i : Nat} : ∀ vs : GVariants, MentionsVariants i vs →
    vs.encInto B = true → ∃ x, B.err i = some x ∧ x.intoGeneric B = true
  | .nil, hm, _ => hm.elim
  | .cons d fs vs, hm, h => by
    rw [GVariants.encInto, Bool.and_eq_true] at h
    rcases hm with hm | hm
    · exact GFields.encInto_mentions fs hm h.1
    · exact GVariants.encInto_mentions vs hm h.2

mutual

theorem GTy.instance (σ : Nat → Ty) : ∀ t : GTy, Instance σ t (t.inst σ)
  | .param i => .param i
  | .closed t => .closed t
  | .phantom t => .phantom t
  | .wrap w t => .wrap w (t.instance σ)
  | .array t n => .array n (t.instance σ)
  | .seq k t => .seq k (t.instance σ)
  | .option t => .option (t.instance σ)
  | .bound t => .bound (t.instance σ)
  | .range t => .range (t.instance σ)
  | .rangeInclusive t => .rangeInclusive (t.instance σ)
  | .lock k t => .lock k (t.instance σ)
  | .refCell t => .refCell (t.instance σ)
  | .sizedSlice t n => .sizedSlice n (t.instance σ)
  | .hashMap k v => .hashMap (k.instance σ) (v.instance σ)
  | .hashSet k => .hashSet (k.instance σ)
  | .result t e => .result (t.instance σ) (e.instance σ)
  | .tuple fs => .tuple (fs.instance σ)

theorem GFields.instance (σ : Nat → Ty) : ∀ fs : GFields, InstanceFields σ fs (fs.inst σ)
  | .nil => .nil
  | .cons t fs => .cons (t.instance σ) (fs.instance σ)

end

mutual

theorem Instance.unique {σ : Nat → Ty} : ∀ (t : GTy) {t' : Ty}, Instance σ t t' → t.inst σ = t'
  | .param _, _, .param _ => rfl
  | .closed _, _, .closed _ => rfl
  | .phantom _, _, .phantom _ => rfl
  | .wrap _ t, _, .wrap _ h => congrArg _ (Instance.unique t h)
  | .array t _, _, .array _ h => congrArg (Ty.array · _) (Instance.unique t h)
  | .seq _ t, _, .seq _ h => congrArg _ (Instance.unique t h)
  | .option t, _, .option h => congrArg _ (Instance.unique t h)
  | .bound t, _, .bound h => congrArg _ (Instance.unique t h)
  | .range t, _, .range h => congrArg _ (Instance.unique t h)
  | .rangeInclusive t, _, .rangeInclusive h => congrArg _ (Instance.unique t h)
  | .lock _ t, _, .lock _ h => congrArg _ (Instance.unique t h)
  | .refCell t, _, .refCell h => congrArg _ (Instance.unique t h)
  | .sizedSlice t _, _, .sizedSlice _ h => congrArg (Ty.sizedSlice · _) (Instance.unique t h)
  | .hashMap k v, _, .hashMap h h' => by
    rw [GTy.inst, Instance.unique k h, Instance.unique v h']
  | .hashSet k, _, .hashSet h => congrArg _ (Instance.unique k h)
  | .result t e, _, .result h h' => by
    rw [GTy.inst, Instance.unique t h, Instance.unique e h']
  | .tuple fs, _, .tuple h => congrArg _ (InstanceFields.unique fs h)

theorem InstanceFields.unique {σ : Nat → Ty} :
    ∀ (fs : GFields) {fs' : Fields}, InstanceFields σ fs fs' → fs.inst σ = fs'
  | .nil, _, .nil => rfl
  | .cons t fs, _, .cons h h' => by
    rw [GFields.inst, Instance.unique t h, InstanceFields.unique fs h']

end

theorem GVariants.instance (σ : Nat → Ty) : ∀ vs : GVariants, InstanceVariants σ vs (vs.inst σ)
  | .nil => .nil
  | .cons d fs vs => .cons d (fs.instance σ) (vs.instance σ)

theorem InstanceVariants.unique {σ : Nat → Ty} :
    ∀ (vs : GVariants) {vs' : Variants}, InstanceVariants σ vs vs' → vs.inst σ = vs'
  | .nil, _, .nil => rfl
  | .cons _ fs vs, _, .cons _ h h' => by
    rw [GVariants.inst, InstanceFields.unique fs h, InstanceVariants.unique vs h']

end Oct
