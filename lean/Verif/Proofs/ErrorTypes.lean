import Verif.Spec.ErrorTypes
import Verif.Spec.Refuses
import Verif.Spec.Accepts
/-
Helper lemmas about the error types.
-/
namespace Oct
open Spec

theorem encHas_toGeneric : ∀ (E : EncTy) (e : EncErr), E.intoGeneric = true → EncHas E e →
    EncHas .generic e.toGeneric
  | .infallible, _, _, h => nomatch h
  | .usize, _, _, ⟨n, h⟩ => .inr ⟨n, by subst h; rfl⟩
  | .isize, _, _, ⟨n, h⟩ => .inl ⟨n, by subst h; rfl⟩
  | .coll l i, _, hi, h => by
    simp only [EncTy.intoGeneric, Bool.and_eq_true] at hi
    rcases h with ⟨e', rfl, h⟩ | ⟨e', rfl, h⟩
    · exact encHas_toGeneric l e' hi.1 h
    · exact encHas_toGeneric i e' hi.2 h
  | .item t, _, hi, ⟨_, e', h, h'⟩ => by
    subst h
    exact encHas_toGeneric t e' hi h'
  | .pair _, _, hi, _ => by cases hi
  | .enum d f, _, hi, h => by
    rcases h with ⟨n, _, rfl⟩ | ⟨i, _, rfl⟩ | ⟨e', rfl, h⟩
    · exact .inr ⟨n, rfl⟩
    · exact .inl ⟨i, rfl⟩
    · exact encHas_toGeneric f e' hi h
  | .refCell _, _, hi, _ => by cases hi
  | .generic, _, _, h => by
    rcases h with ⟨n, rfl⟩ | ⟨n, rfl⟩
    · exact .inl ⟨n, rfl⟩
    · exact .inr ⟨n, rfl⟩

theorem encHas_intoInfallible : ∀ (E : EncTy) (e : EncErr), E.intoInfallible = true → ¬ EncHas E e
  | .infallible, _, _, h => nomatch h
  | .usize, _, hi, _ => by cases hi
  | .isize, _, hi, _ => by cases hi
  | .coll l i, _, hi, h => by
    simp only [EncTy.intoInfallible, Bool.and_eq_true] at hi
    rcases h with ⟨e', rfl, h⟩ | ⟨e', rfl, h⟩
    · exact encHas_intoInfallible l e' hi.1 h
    · exact encHas_intoInfallible i e' hi.2 h
  | .item t, _, hi, ⟨_, e', _, h'⟩ => encHas_intoInfallible t e' hi h'
  | .pair _, _, hi, _ => by cases hi
  | .enum d f, _, hi, h => by
    simp only [EncTy.intoInfallible, Bool.and_eq_true, beq_iff_eq] at hi
    rcases h with ⟨n, rfl, rfl⟩ | ⟨i, rfl, rfl⟩ | ⟨e', rfl, h⟩
    · exact absurd hi.1 (by simp [Repr.encErr])
    · exact absurd hi.1 (by simp [Repr.encErr])
    · exact encHas_intoInfallible f e' hi.2 h
  | .refCell _, _, hi, _ => by cases hi
  | .generic, _, hi, _ => by cases hi

theorem into_cases {b a : EncTy} (h : b.into a = true) :
    b = a ∨ (a = .infallible ∧ b.intoInfallible = true) ∨ (a = .generic ∧ b.intoGeneric = true) := by
  simp only [EncTy.into, Bool.or_eq_true, Bool.and_eq_true, beq_iff_eq] at h
  rcases h with (h | h) | h
  · exact .inl h
  · exact .inr (.inl h)
  · exact .inr (.inr h)

theorem result_encErr {t u : Ty} {E : EncTy} (h : (Ty.result t u).encErr = some E) :
    ∃ b, t.encErr = some E ∧ u.encErr = some b ∧ b.into E = true := by
  simp only [Ty.encErr] at h
  split at h
  · rename_i a b ha hb
    split at h
    · rename_i hi
      cases h
      exact ⟨b, ha, hb, hi⟩
    · cases h
  · cases h

theorem hashMap_encErr {k v : Ty} {E : EncTy} (h : (Ty.hashMap k v).encErr = some E) :
    k.encErr = some E ∧ v.encErr = some E := by
  simp only [Ty.encErr] at h
  split at h
  · rename_i hi
    exact ⟨h, hi ▸ h⟩
  · cases h

theorem tuple_encErr {fs : Fields} {E : EncTy} (h : (Ty.tuple fs).encErr = some E) :
    (2 ≤ fs.count ∧ fs.count ≤ 12) ∧ fs.encErr = some E := by
  simp only [Ty.encErr] at h
  split at h
  · exact ⟨‹_›, h⟩
  · cases h

theorem fields_encErr {t : Ty} {fs : Fields} {E : EncTy} (h : (Fields.cons t fs).encErr = some E) :
    t.encErr = some E ∧ (fs = .nil ∨ fs.encErr = some E) := by
  cases fs with
  | nil => exact ⟨by simpa [Fields.encErr] using h, .inl rfl⟩
  | cons u fs =>
    simp only [Fields.encErr] at h
    split at h
    · rename_i hi
      exact ⟨h, .inr (hi ▸ h)⟩
    · cases h

theorem struct_encErr {fs : Fields} {E : EncTy} (h : (Ty.struct fs).encErr = some E) :
    E = .generic ∧ fs.encInto = true := by
  simp only [Ty.encErr] at h
  split at h
  · exact ⟨(Option.some.inj h).symm, ‹_›⟩
  · cases h

theorem enum_encErr {r : Repr} {vs : Variants} {E : EncTy} (h : (Ty.enum r vs).encErr = some E) :
    E = .enum r .generic ∧ vs.encInto = true := by
  simp only [Ty.encErr] at h
  split at h
  · exact ⟨(Option.some.inj h).symm, ‹_›⟩
  · cases h

theorem fields_encInto {t : Ty} {fs : Fields} (h : (Fields.cons t fs).encInto = true) :
    (∃ E, t.encErr = some E ∧ E.intoGeneric = true) ∧ fs.encInto = true := by
  simp only [Fields.encInto, Bool.and_eq_true, Option.any_eq_true] at h
  exact h

theorem variants_encInto {d : Option Nat} {fs : Fields} {vs : Variants}
    (h : (Variants.cons d fs vs).encInto = true) : fs.encInto = true ∧ vs.encInto = true := by
  simpa only [Variants.encInto, Bool.and_eq_true] using h

/-- `errorIsGeneric` tells what `encErr` tells. -/
theorem errorIsGeneric_iff_encErr : ∀ (t : Ty) (E : EncTy), t.encErr = some E →
    (errorIsGeneric t ↔ E = .generic)
  | .wrap _ t, E, h => by
    rw [Ty.encErr] at h; rw [errorIsGeneric]; exact errorIsGeneric_iff_encErr t E h
  | .option t, E, h => by
    rw [Ty.encErr] at h; rw [errorIsGeneric]; exact errorIsGeneric_iff_encErr t E h
  | .range t, E, h => by
    rw [Ty.encErr] at h; rw [errorIsGeneric]; exact errorIsGeneric_iff_encErr t E h
  | .rangeInclusive t, E, h => by
    rw [Ty.encErr] at h; rw [errorIsGeneric]; exact errorIsGeneric_iff_encErr t E h
  | .lock _ t, E, h => by
    rw [Ty.encErr] at h; rw [errorIsGeneric]; exact errorIsGeneric_iff_encErr t E h
  | .hashMap k v, E, h => by
    rw [errorIsGeneric]; exact errorIsGeneric_iff_encErr k E (hashMap_encErr h).1
  | .hashSet k, E, h => by
    rw [Ty.encErr] at h; rw [errorIsGeneric]; exact errorIsGeneric_iff_encErr k E h
  | .result t u, E, h => by
    obtain ⟨b, ht, _, _⟩ := result_encErr h
    rw [errorIsGeneric]; exact errorIsGeneric_iff_encErr t E ht
  | .tuple .nil, E, h => by
    have := (tuple_encErr h).2
    simp [Fields.encErr] at this
  | .tuple (.cons t fs), E, h => by
    rw [errorIsGeneric]
    exact errorIsGeneric_iff_encErr t E (fields_encErr (tuple_encErr h).2).1
  | .struct fs, E, h => by
    rw [errorIsGeneric]
    exact iff_of_true trivial (struct_encErr h).1
  | .enum r vs, E, h => by
    have := (enum_encErr h).1
    subst this
    simp [errorIsGeneric]
  | .num _, E, h | .bool, E, h | .char, E, h | .usize, E, h | .isize, E, h | .unit _, E, h
  | .infallible, E, h | .duration, E, h | .systemTime _, E, h
  | .ipv4, E, h | .ipv6, E, h | .ipAddr, E, h | .socketAddrV4, E, h | .socketAddrV6, E, h
  | .socketAddr, E, h | .str _, E, h | .cStr _, E, h | .sizedStr _, E, h => by
    simp only [Ty.encErr, Option.some.injEq] at h
    subst h
    simp [errorIsGeneric]
  | .nonZero r, E, h => by
    simp only [Ty.encErr, Option.some.injEq] at h
    subst h
    cases r <;> simp [errorIsGeneric, Repr.encErr]
  | .array t n, E, h | .seq k t, E, h | .bound t, E, h | .refCell t, E, h | .sizedSlice t n, E, h => by
    simp only [Ty.encErr, Option.map_eq_some_iff] at h
    obtain ⟨e, _, rfl⟩ := h
    simp [errorIsGeneric]

theorem longRefused_has {n : Nat} {bs : List UInt8} {e : EncErr} {i : EncTy}
    (h : LongRefused n bs e) : EncHas (.coll .usize i) e :=
  .inl ⟨.usize n, h.2.2, ⟨n, rfl⟩⟩

theorem refusesRepr_has {r : Repr} {x : Int} {e : EncErr} (h : RefusesRepr r x e) :
    EncHas r.encErr e := by
  cases r with
  | int k => exact h
  | usize => exact ⟨_, h.2⟩
  | isize => exact ⟨_, h.2⟩

mutual

/-- Refusals have the type of the impl's `Error`. -/
theorem refuses_has : ∀ (t : Ty) (v : t.Val) (bs : List UInt8) (e : EncErr) (E : EncTy),
    t.encErr = some E → Refuses t v bs e → EncHas E e
  | .usize, v, bs, e, E, hE, h => by
    simp only [Ty.encErr, Option.some.injEq] at hE
    subst hE
    rw [Refuses] at h
    exact ⟨_, h.2.2⟩
  | .isize, v, bs, e, E, hE, h => by
    simp only [Ty.encErr, Option.some.injEq] at hE
    subst hE
    rw [Refuses] at h
    exact ⟨_, h.2.2⟩
  | .nonZero r, v, bs, e, E, hE, h => by
    simp only [Ty.encErr, Option.some.injEq] at hE
    subst hE
    rw [Refuses] at h
    exact refusesRepr_has h.2
  | .wrap _ t, v, bs, e, E, hE, h => by
    rw [Ty.encErr] at hE
    rw [Refuses] at h
    exact refuses_has t v bs e E hE h
  | .array t n, v, bs, e, E, hE, h => by
    simp only [Ty.encErr, Option.map_eq_some_iff] at hE
    obtain ⟨E', hE', rfl⟩ := hE
    rw [Refuses] at h
    obtain ⟨pre, x, post, b, e', _, _, hR, _, rfl⟩ := h
    exact .inr ⟨_, rfl, _, _, rfl, refuses_has t x b e' E' hE' hR⟩
  | .seq k t, v, bs, e, E, hE, h => by
    simp only [Ty.encErr, Option.map_eq_some_iff] at hE
    obtain ⟨E', hE', rfl⟩ := hE
    rw [Refuses] at h
    rcases h with h | ⟨_, b, _, pre, x, post, b', e', _, _, hR, _, rfl⟩
    · exact longRefused_has h
    · have := refuses_has t x b' e' E' hE' hR
      by_cases hk : k = .linkedList
      · simp only [if_pos hk]
        exact .inr ⟨_, rfl, _, _, rfl, this⟩
      · simp only [if_neg hk]
        exact .inr ⟨_, rfl, _, _, rfl, this⟩
  | .hashMap k v, m, bs, e, E, hE, h => by
    obtain ⟨hk, hv⟩ := hashMap_encErr hE
    rw [Refuses] at h
    obtain ⟨pre, x, post, b, e', _, _, hR, _, rfl⟩ := h
    rcases hR with hR | ⟨_, b', _, hR⟩
    · exact refuses_has k x.1 _ _ E hk hR
    · exact refuses_has v x.2 _ _ E hv hR
  | .hashSet k, s, bs, e, E, hE, h => by
    rw [Ty.encErr] at hE
    rw [Refuses] at h
    obtain ⟨pre, x, post, b, e', _, _, hR, _, rfl⟩ := h
    exact refuses_has k x _ _ E hE hR
  | .option t, v, bs, e, E, hE, h => by
    rw [Ty.encErr] at hE
    cases v with
    | none => rw [Refuses] at h; exact h.elim
    | some v =>
      rw [Refuses] at h
      obtain ⟨b, _, hR⟩ := h
      exact refuses_has t v b e E hE hR
  | .result t u, v, bs, e, E, hE, h => by
    obtain ⟨B, ht, hu, hi⟩ := result_encErr hE
    cases v with
    | ok v =>
      rw [Refuses] at h
      obtain ⟨b, _, hR⟩ := h
      exact refuses_has t v b e E ht hR
    | err v =>
      rw [Refuses] at h
      obtain ⟨b, e', _, hR, hg⟩ := h
      have hb := refuses_has u v b e' B hu hR
      rcases hg with ⟨hg, rfl⟩ | ⟨hg, rfl⟩
      · have hEg := (errorIsGeneric_iff_encErr t E ht).mp hg
        subst hEg
        rcases into_cases hi with rfl | ⟨h0, _⟩ | ⟨_, h0⟩
        · exact encHas_toGeneric _ _ rfl hb
        · cases h0
        · exact encHas_toGeneric _ _ h0 hb
      · rcases into_cases hi with rfl | ⟨_, h0⟩ | ⟨h0, _⟩
        · exact hb
        · exact absurd hb (encHas_intoInfallible _ _ h0)
        · exact absurd ((errorIsGeneric_iff_encErr t E ht).mpr h0) hg
  | .bound t, v, bs, e, E, hE, h => by
    simp only [Ty.encErr, Option.map_eq_some_iff] at hE
    obtain ⟨E', hE', rfl⟩ := hE
    cases v with
    | included v =>
      rw [Refuses] at h
      obtain ⟨b, e', _, hR, rfl⟩ := h
      exact .inr (.inr ⟨_, rfl, refuses_has t v b e' E' hE' hR⟩)
    | excluded v =>
      rw [Refuses] at h
      obtain ⟨b, e', _, hR, rfl⟩ := h
      exact .inr (.inr ⟨_, rfl, refuses_has t v b e' E' hE' hR⟩)
    | unbounded => rw [Refuses] at h; exact h.elim
  | .range t, v, bs, e, E, hE, h => by
    rw [Ty.encErr] at hE
    rw [Refuses] at h
    rcases h with hR | ⟨_, b, _, hR⟩
    · exact refuses_has t _ _ e E hE hR
    · exact refuses_has t _ _ e E hE hR
  | .rangeInclusive t, v, bs, e, E, hE, h => by
    rw [Ty.encErr] at hE
    rw [Refuses] at h
    rcases h with hR | ⟨_, b, _, hR⟩
    · exact refuses_has t _ _ e E hE hR
    · exact refuses_has t _ _ e E hE hR
  | .lock _ t, v, bs, e, E, hE, h => by
    rw [Ty.encErr] at hE
    rw [Refuses] at h
    exact refuses_has t _ bs e E hE h
  | .refCell t, v, bs, e, E, hE, h => by
    simp only [Ty.encErr, Option.map_eq_some_iff] at hE
    obtain ⟨E', hE', rfl⟩ := hE
    rw [Refuses] at h
    rcases h with ⟨_, _, rfl⟩ | ⟨_, e', hR, rfl⟩
    · exact .inl rfl
    · exact .inr ⟨_, rfl, refuses_has t _ _ e' E' hE' hR⟩
  | .str _, v, bs, e, E, hE, h => by
    simp only [Ty.encErr, Option.some.injEq] at hE
    subst hE
    rw [Refuses] at h
    exact longRefused_has h
  | .cStr _, v, bs, e, E, hE, h => by
    simp only [Ty.encErr, Option.some.injEq] at hE
    subst hE
    rw [Refuses] at h
    exact longRefused_has h
  | .sizedStr _, v, bs, e, E, hE, h => by
    simp only [Ty.encErr, Option.some.injEq] at hE
    subst hE
    rw [Refuses] at h
    exact longRefused_has h
  | .sizedSlice t n, v, bs, e, E, hE, h => by
    simp only [Ty.encErr, Option.map_eq_some_iff] at hE
    obtain ⟨E', hE', rfl⟩ := hE
    rw [Refuses] at h
    rcases h with h | ⟨_, b, _, pre, x, post, b', e', _, _, hR, _, rfl⟩
    · exact longRefused_has h
    · exact .inr ⟨_, rfl, _, _, rfl, refuses_has t x b' e' E' hE' hR⟩
  | .tuple fs, v, bs, e, E, hE, h => by
    rw [Refuses] at h
    exact refusesFields_has fs v bs e E (tuple_encErr hE).2 h
  | .struct fs, v, bs, e, E, hE, h => by
    obtain ⟨rfl, hi⟩ := struct_encErr hE
    rw [Refuses] at h
    obtain ⟨e', hR, rfl⟩ := h
    exact refusesFields_generic fs v bs e' hi hR
  | .enum r vs, v, bs, e, E, hE, h => by
    obtain ⟨rfl, hi⟩ := enum_encErr hE
    rw [Refuses] at h
    exact refusesVariants_has r _ vs 0 v bs e hi h
  | .num _, _, _, _, _, _, h | .bool, _, _, _, _, _, h | .char, _, _, _, _, _, h
  | .unit _, _, _, _, _, _, h | .infallible, _, _, _, _, _, h | .duration, _, _, _, _, _, h
  | .systemTime _, _, _, _, _, _, h | .ipv4, _, _, _, _, _, h | .ipv6, _, _, _, _, _, h
  | .ipAddr, _, _, _, _, _, h | .socketAddrV4, _, _, _, _, _, h
  | .socketAddrV6, _, _, _, _, _, h | .socketAddr, _, _, _, _, _, h => by
    rw [Refuses] at h
    exact h.elim

theorem refusesFields_has : ∀ (fs : Fields) (v : fs.Val) (bs : List UInt8) (e : EncErr) (E : EncTy),
    fs.encErr = some E → RefusesFields fs v bs e → EncHas E e
  | .nil, _, _, _, _, _, h => by rw [RefusesFields] at h; exact h.elim
  | .cons t fs, v, bs, e, E, hE, h => by
    obtain ⟨ht, hfs⟩ := fields_encErr hE
    rw [RefusesFields] at h
    rcases h with hR | ⟨_, b, _, hR⟩
    · exact refuses_has t v.1 bs e E ht hR
    · rcases hfs with rfl | hfs
      · rw [RefusesFields] at hR; exact hR.elim
      · exact refusesFields_has fs v.2 b e E hfs hR

theorem refusesFields_generic : ∀ (fs : Fields) (v : fs.Val) (bs : List UInt8) (e : EncErr),
    fs.encInto = true → RefusesFields fs v bs e → EncHas .generic e.toGeneric
  | .nil, _, _, _, _, h => by rw [RefusesFields] at h; exact h.elim
  | .cons t fs, v, bs, e, hi, h => by
    obtain ⟨⟨E, hE, hg⟩, hfs⟩ := fields_encInto hi
    rw [RefusesFields] at h
    rcases h with hR | ⟨_, b, _, hR⟩
    · exact encHas_toGeneric E e hg (refuses_has t v.1 bs e E hE hR)
    · exact refusesFields_generic fs v.2 b e hfs hR

theorem refusesVariants_has (r : Repr) (explicit : List (Option Nat)) :
    ∀ (vs : Variants) (j : Nat) (v : vs.Val) (bs : List UInt8) (e : EncErr),
    vs.encInto = true → RefusesVariants r explicit vs j v bs e → EncHas (.enum r .generic) e
  | .nil, _, v, _, _, _, _ => nomatch v
  | .cons d fs vs, j, v, bs, e, hi, h => by
    obtain ⟨hf, hv⟩ := variants_encInto hi
    cases v with
    | inl v =>
      rw [RefusesVariants] at h
      rcases h with ⟨_, e', hR, rfl⟩ | ⟨_, b, e', _, hR, rfl⟩
      · cases r with
        | int k => exact hR.elim
        | usize => exact .inl ⟨_, rfl, by rw [hR.2]⟩
        | isize => exact .inr (.inl ⟨_, rfl, by rw [hR.2]⟩)
      · exact .inr (.inr ⟨_, rfl, refusesFields_generic fs v b e' hf hR⟩)
    | inr v =>
      rw [RefusesVariants] at h
      exact refusesVariants_has r explicit vs (j + 1) v bs e hv h

end

/-! ### Decoding -/

theorem toU128_lt (v : Int) : toU128 v < 2 ^ 128 := by
  unfold toU128
  have h1 := Int.emod_nonneg v (show (2 ^ 128 : Int) ≠ 0 by decide)
  have h2 := Int.emod_lt_of_pos v (show (0 : Int) < 2 ^ 128 by decide)
  omega

theorem decHas_toGeneric : ∀ (E : DecTy) (e : DecErr), E.intoGeneric = true → DecHas E e →
    DecHas .generic e.toGeneric
  | .infallible, _, _, h => nomatch h
  | .char, _, hi, _ => by cases hi
  | .cString, _, _, ⟨i, h⟩ => .inr (.inl ⟨i, by subst h; rfl⟩)
  | .nonZero, _, _, h => .inr (.inr (.inl (by subst h; rfl)))
  | .systemTime, _, _, ⟨t, h1, h2, h⟩ =>
    .inr (.inr (.inr (.inr (.inr ⟨t, h1, h2, by subst h; rfl⟩))))
  | .length, _, _, ⟨c, l, h⟩ => .inr (.inr (.inr (.inl ⟨c, l, by subst h; rfl⟩)))
  | .utf8, _, _, ⟨v, i, h⟩ => .inl ⟨v, i, by subst h; rfl⟩
  | .coll l i, _, hi, h => by
    simp only [DecTy.intoGeneric, Bool.and_eq_true] at hi
    rcases h with ⟨e', rfl, h⟩ | ⟨e', rfl, h⟩
    · exact decHas_toGeneric l e' hi.1 h
    · exact decHas_toGeneric i e' hi.2 h
  | .item t, _, hi, ⟨_, e', h, h'⟩ => by
    subst h
    exact decHas_toGeneric t e' hi h'
  | .enum d f, _, hi, h => by
    simp only [DecTy.intoGeneric, Bool.and_eq_true] at hi
    rcases h with ⟨r, v, _, _, rfl⟩ | ⟨e', rfl, h⟩
    · exact .inr (.inr (.inr (.inr (.inl ⟨toU128 v, toU128_lt v, rfl⟩))))
    · exact decHas_toGeneric f e' hi.2 h
  | .generic, _, _, h => by
    rcases h with ⟨_, _, rfl⟩ | ⟨_, rfl⟩ | rfl | ⟨_, _, rfl⟩ | ⟨v, hv, rfl⟩ | ⟨t, h1, h2, rfl⟩
    · exact .inl ⟨_, _, rfl⟩
    · exact .inr (.inl ⟨_, rfl⟩)
    · exact .inr (.inr (.inl rfl))
    · exact .inr (.inr (.inr (.inl ⟨_, _, rfl⟩)))
    · exact .inr (.inr (.inr (.inr (.inl ⟨v, hv, rfl⟩))))
    · exact .inr (.inr (.inr (.inr (.inr ⟨t, h1, h2, rfl⟩))))

theorem hashMap_decErr {k v : Ty} {o : Bool} {E : DecTy} (h : (Ty.hashMap k v).decErrOf o = some E) :
    ∃ E', k.decErrOf false = some E' ∧ v.decErrOf false = some E' ∧
      E = .coll .infallible (.item E') := by
  simp only [Ty.decErrOf] at h
  split at h
  · rename_i hi
    obtain ⟨E', hk, rfl⟩ := Option.map_eq_some_iff.mp h
    exact ⟨E', hk, hi ▸ hk, rfl⟩
  · cases h

theorem result_decErr {t u : Ty} {o : Bool} {E : DecTy} (h : (Ty.result t u).decErrOf o = some E) :
    ∃ E', t.decErrOf false = some E' ∧ u.decErrOf false = some E' ∧ E = .enum none E' := by
  simp only [Ty.decErrOf] at h
  split at h
  · rename_i hi
    obtain ⟨E', hk, rfl⟩ := Option.map_eq_some_iff.mp h
    exact ⟨E', hk, hi ▸ hk, rfl⟩
  · cases h

theorem wrap_decErr {w : Wrap} {t : Ty} {o : Bool} {E : DecTy}
    (h : (Ty.wrap w t).decErrOf o = some E) :
    ∃ o', t.decErrOf o' = some E := by
  cases w <;> simp [Ty.decErrOf, Wrap.hasDecode] at h <;> exact ⟨_, h⟩

theorem seq_decErr {k : SeqKind} {t : Ty} {o : Bool} {E : DecTy}
    (h : (Ty.seq k t).decErrOf o = some E) :
    ∃ E', t.decErrOf false = some E' ∧ E = .coll .infallible (.item E') := by
  cases k <;> cases o <;> simp [Ty.decErrOf] at h <;>
    exact h.imp fun _ h => ⟨h.1, h.2.symm⟩

theorem tuple_decErr {fs : Fields} {o : Bool} {E : DecTy} (h : (Ty.tuple fs).decErrOf o = some E) :
    (2 ≤ fs.count ∧ fs.count ≤ 12) ∧ fs.decErr = some E := by
  simp only [Ty.decErrOf] at h
  split at h
  · exact ⟨‹_›, h⟩
  · cases h

theorem fields_decErr {t : Ty} {fs : Fields} {E : DecTy} (h : (Fields.cons t fs).decErr = some E) :
    t.decErrOf false = some E ∧ (fs = .nil ∨ fs.decErr = some E) := by
  cases fs with
  | nil => exact ⟨by simpa [Fields.decErr] using h, .inl rfl⟩
  | cons u fs =>
    simp only [Fields.decErr] at h
    split at h
    · rename_i hi
      exact ⟨h, .inr (hi ▸ h)⟩
    · cases h

theorem struct_decErr {fs : Fields} {o : Bool} {E : DecTy} (h : (Ty.struct fs).decErrOf o = some E) :
    E = .generic ∧ fs.decInto = true := by
  simp only [Ty.decErrOf] at h
  split at h
  · exact ⟨(Option.some.inj h).symm, ‹_›⟩
  · cases h

theorem enum_decErr {r : Repr} {vs : Variants} {o : Bool} {E : DecTy}
    (h : (Ty.enum r vs).decErrOf o = some E) : E = .enum (some r) .generic ∧ vs.decInto = true := by
  simp only [Ty.decErrOf] at h
  split at h
  · exact ⟨(Option.some.inj h).symm, ‹_›⟩
  · cases h

theorem fields_decInto {t : Ty} {fs : Fields} (h : (Fields.cons t fs).decInto = true) :
    (∃ E, t.decErrOf false = some E ∧ E.intoGeneric = true) ∧ fs.decInto = true := by
  simp only [Fields.decInto, Bool.and_eq_true, Option.any_eq_true] at h
  exact h

theorem variants_decInto {d : Option Nat} {fs : Fields} {vs : Variants}
    (h : (Variants.cons d fs vs).decInto = true) : fs.decInto = true ∧ vs.decInto = true := by
  simpa only [Variants.decInto, Bool.and_eq_true] using h

theorem str_decErr {k : StrKind} {o : Bool} {E : DecTy} (h : (Ty.str k).decErrOf o = some E) :
    E = .coll .infallible .utf8 := by
  cases k <;> cases o <;> simp [Ty.decErrOf] at h <;> exact h.symm

theorem cStr_decErr {k : CStrKind} {o : Bool} {E : DecTy} (h : (Ty.cStr k).decErrOf o = some E) :
    E = .cString := by
  cases k <;> cases o <;> simp [Ty.decErrOf] at h <;> exact h.symm

theorem itemRejected_has {α : Type} {A : List UInt8 → α → Prop} {R : List UInt8 → DecErr → Prop}
    {n : Nat} {bs : List UInt8} {e : DecErr} {L E : DecTy} (hR : ∀ b e, R b e → DecHas E e)
    (h : ItemRejected A R n bs e) : DecHas (.coll L (.item E)) e := by
  obtain ⟨l, b1, b2, e', _, _, _, hr, rfl⟩ := h
  exact .inr ⟨_, rfl, _, _, rfl, hR _ _ hr⟩

theorem partRejected_has {α : Type} {A : List UInt8 → α → Prop} {R S : List UInt8 → DecErr → Prop}
    {bs : List UInt8} {e : DecErr} {P : DecErr → Prop} (hR : ∀ b e, R b e → P e)
    (hS : ∀ b e, S b e → P e) (h : PartRejected A R S bs e) : P e := by
  rcases h with h | ⟨_, _, _, _, _, h⟩
  · exact hR _ _ h
  · exact hS _ _ h

theorem u8_inRange (b : UInt8) : (Repr.int .u8).InRange (b.toNat : Int) := by
  have := b.toNat_lt
  simp [Repr.InRange, IntKind.signed, IntKind.bytes]
  omega

mutual

/-- Rejections have the type of the impl's `Error`. -/
theorem rejects_has : ∀ (t : Ty) (o : Bool) (bs : List UInt8) (e : DecErr) (E : DecTy),
    t.decErrOf o = some E → Rejects t bs e → DecHas E e
  | .char, o, bs, e, E, hE, h => by
    simp only [Ty.decErrOf, Option.some.injEq] at hE
    subst hE
    rw [Rejects] at h
    obtain ⟨x, hx, _, _, rfl⟩ := h
    exact ⟨x, hx, rfl⟩
  | .nonZero r, o, bs, e, E, hE, h => by
    simp only [Ty.decErrOf, Option.some.injEq] at hE
    subst hE
    rw [Rejects] at h
    exact h.2
  | .wrap _ t, o, bs, e, E, hE, h => by
    obtain ⟨o', hE⟩ := wrap_decErr hE
    rw [Rejects] at h
    exact rejects_has t o' bs e E hE h
  | .array t n, o, bs, e, E, hE, h => by
    simp only [Ty.decErrOf, Option.map_eq_some_iff] at hE
    obtain ⟨E', hE', rfl⟩ := hE
    rw [Rejects] at h
    exact itemRejected_has (fun b e => rejects_has t false b e E' hE') h
  | .seq k t, o, bs, e, E, hE, h => by
    obtain ⟨E', hE', rfl⟩ := seq_decErr hE
    rw [Rejects] at h
    obtain ⟨_, _, _, _, h⟩ := h
    exact itemRejected_has (fun b e => rejects_has t false b e E' hE') h
  | .hashMap k v, o, bs, e, E, hE, h => by
    obtain ⟨E', hk, hv, rfl⟩ := hashMap_decErr hE
    rw [Rejects] at h
    obtain ⟨_, _, _, _, h⟩ := h
    exact itemRejected_has (fun b e h => partRejected_has (P := DecHas E')
      (fun b e => rejects_has k false b e E' hk) (fun b e => rejects_has v false b e E' hv) h) h
  | .hashSet k, o, bs, e, E, hE, h => by
    simp only [Ty.decErrOf, Option.map_eq_some_iff] at hE
    obtain ⟨E', hE', rfl⟩ := hE
    rw [Rejects] at h
    obtain ⟨_, _, _, _, h⟩ := h
    exact itemRejected_has (fun b e => rejects_has k false b e E' hE') h
  | .option t, o, bs, e, E, hE, h => by
    rw [Ty.decErrOf] at hE
    rw [Rejects] at h
    obtain ⟨_, r, _, _, h⟩ := h
    exact rejects_has t false r e E hE h
  | .result t u, o, bs, e, E, hE, h => by
    obtain ⟨E', ht, hu, rfl⟩ := result_decErr hE
    rw [Rejects] at h
    obtain ⟨b, r, e', _, rfl, ⟨_, h⟩ | ⟨_, h⟩⟩ := h
    · exact .inr ⟨_, rfl, rejects_has t false r e' E' ht h⟩
    · exact .inr ⟨_, rfl, rejects_has u false r e' E' hu h⟩
  | .bound t, o, bs, e, E, hE, h => by
    simp only [Ty.decErrOf, Option.map_eq_some_iff] at hE
    obtain ⟨E', hE', rfl⟩ := hE
    rw [Rejects] at h
    rcases h with ⟨b, r, e', _, _, rfl, h⟩ | ⟨b, _, _, rfl⟩
    · exact .inr ⟨_, rfl, rejects_has t false r e' E' hE' h⟩
    · exact .inl ⟨_, _, rfl, u8_inRange b, rfl⟩
  | .range t, o, bs, e, E, hE, h => by
    rw [Ty.decErrOf] at hE
    rw [Rejects] at h
    exact partRejected_has (fun b e => rejects_has t false b e E hE)
      (fun b e => rejects_has t false b e E hE) h
  | .rangeInclusive t, o, bs, e, E, hE, h => by
    rw [Ty.decErrOf] at hE
    rw [Rejects] at h
    exact partRejected_has (fun b e => rejects_has t false b e E hE)
      (fun b e => rejects_has t false b e E hE) h
  | .lock _ t, o, bs, e, E, hE, h => by
    rw [Ty.decErrOf] at hE
    rw [Rejects] at h
    exact rejects_has t false bs e E hE h
  | .refCell t, o, bs, e, E, hE, h => by
    rw [Ty.decErrOf] at hE
    rw [Rejects] at h
    exact rejects_has t false bs e E hE h
  | .systemTime p, o, bs, e, E, hE, h => by
    simp only [Ty.decErrOf, Option.some.injEq] at hE
    subst hE
    rw [Rejects] at h
    obtain ⟨x, hx, _, _, rfl⟩ := h
    exact ⟨x, hx.1, hx.2, rfl⟩
  | .ipAddr, o, bs, e, E, hE, h => by
    simp only [Ty.decErrOf, Option.some.injEq] at hE
    subst hE
    rw [Rejects] at h
    obtain ⟨b, _, _, _, rfl⟩ := h
    exact .inl ⟨_, _, rfl, u8_inRange b, rfl⟩
  | .socketAddr, o, bs, e, E, hE, h => by
    simp only [Ty.decErrOf, Option.some.injEq] at hE
    subst hE
    rw [Rejects] at h
    obtain ⟨b, _, _, _, rfl⟩ := h
    exact .inl ⟨_, _, rfl, u8_inRange b, rfl⟩
  | .str k, o, bs, e, E, hE, h => by
    have := str_decErr hE
    subst this
    rw [Rejects] at h
    obtain ⟨d, j, c, _, _, _, _, rfl⟩ := h
    exact .inr ⟨_, rfl, _, _, rfl⟩
  | .cStr k, o, bs, e, E, hE, h => by
    have := cStr_decErr hE
    subst this
    rw [Rejects] at h
    obtain ⟨d, j, _, _, _, _, rfl⟩ := h
    exact ⟨_, rfl⟩
  | .sizedStr n, o, bs, e, E, hE, h => by
    simp only [Ty.decErrOf, Option.some.injEq] at hE
    subst hE
    rw [Rejects] at h
    obtain ⟨d, _, _, ⟨_, rfl⟩ | ⟨_, j, c, _, _, rfl⟩⟩ := h
    · exact .inl ⟨_, rfl, _, _, rfl⟩
    · exact .inr ⟨_, rfl, _, _, rfl⟩
  | .sizedSlice t n, o, bs, e, E, hE, h => by
    simp only [Ty.decErrOf, Option.map_eq_some_iff] at hE
    obtain ⟨E', hE', rfl⟩ := hE
    rw [Rejects] at h
    obtain ⟨k, r, _, _, ⟨_, _, rfl⟩ | ⟨_, h⟩⟩ := h
    · exact .inl ⟨_, rfl, _, _, rfl⟩
    · exact itemRejected_has (fun b e => rejects_has t false b e E' hE') h
  | .tuple fs, o, bs, e, E, hE, h => by
    rw [Rejects] at h
    exact rejectsFields_has fs bs e E (tuple_decErr hE).2 h
  | .struct fs, o, bs, e, E, hE, h => by
    obtain ⟨rfl, hi⟩ := struct_decErr hE
    rw [Rejects] at h
    obtain ⟨e', hR, rfl⟩ := h
    exact rejectsFields_generic fs bs e' hi hR
  | .enum r vs, o, bs, e, E, hE, h => by
    obtain ⟨rfl, hi⟩ := enum_decErr hE
    rw [Rejects] at h
    rcases h with ⟨x, w, e', _, _, _, hR, rfl⟩ | ⟨x, _, hx, _, rfl, _⟩
    · exact .inr ⟨_, rfl, rejectsVariants_generic _ vs 0 x w e' hi hR⟩
    · exact .inl ⟨_, _, rfl, hx, rfl⟩
  | .num _, _, _, _, _, _, h | .bool, _, _, _, _, _, h | .usize, _, _, _, _, _, h
  | .isize, _, _, _, _, _, h | .unit _, _, _, _, _, _, h | .infallible, _, _, _, _, _, h
  | .duration, _, _, _, _, _, h | .ipv4, _, _, _, _, _, h | .ipv6, _, _, _, _, _, h
  | .socketAddrV4, _, _, _, _, _, h | .socketAddrV6, _, _, _, _, _, h => by
    rw [Rejects] at h
    exact h.elim

theorem rejectsFields_has : ∀ (fs : Fields) (bs : List UInt8) (e : DecErr) (E : DecTy),
    fs.decErr = some E → RejectsFields fs bs e → DecHas E e
  | .nil, _, _, _, _, h => by rw [RejectsFields] at h; exact h.elim
  | .cons t fs, bs, e, E, hE, h => by
    obtain ⟨ht, hfs⟩ := fields_decErr hE
    rw [RejectsFields] at h
    refine partRejected_has (fun b e => rejects_has t false b e E ht) (fun b e hR => ?_) h
    rcases hfs with rfl | hfs
    · rw [RejectsFields] at hR; exact hR.elim
    · exact rejectsFields_has fs b e E hfs hR

theorem rejectsFields_generic : ∀ (fs : Fields) (bs : List UInt8) (e : DecErr),
    fs.decInto = true → RejectsFields fs bs e → DecHas .generic e.toGeneric
  | .nil, _, _, _, h => by rw [RejectsFields] at h; exact h.elim
  | .cons t fs, bs, e, hi, h => by
    obtain ⟨⟨E, hE, hg⟩, hfs⟩ := fields_decInto hi
    rw [RejectsFields] at h
    exact partRejected_has (P := fun e => DecHas .generic e.toGeneric)
      (fun b e hR => decHas_toGeneric E e hg (rejects_has t false b e E hE hR))
      (fun b e hR => rejectsFields_generic fs b e hfs hR) h

theorem rejectsVariants_generic (explicit : List (Option Nat)) :
    ∀ (vs : Variants) (j : Nat) (x : Int) (bs : List UInt8) (e : DecErr),
    vs.decInto = true → RejectsVariants explicit vs j x bs e → DecHas .generic e.toGeneric
  | .nil, _, _, _, _, _, h => by rw [RejectsVariants] at h; exact h.elim
  | .cons d fs vs, j, x, bs, e, hi, h => by
    obtain ⟨hf, hv⟩ := variants_decInto hi
    rw [RejectsVariants] at h
    rcases h with ⟨_, h⟩ | h
    · exact rejectsFields_generic fs bs e hf h
    · exact rejectsVariants_generic explicit vs (j + 1) x bs e hv h

end

end Oct
