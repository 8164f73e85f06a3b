import Verif.Proofs.ErrorTypes
/-
Which error types have conversions and are `Error`, in terms of what occurs within the type.
-/
namespace Oct
open Spec

theorem intoInfallible_intoGeneric : ∀ (E : EncTy), E.intoInfallible = true → E.intoGeneric = true
  | .infallible, _ => rfl
  | .usize, h | .isize, h | .pair _, h | .refCell _, h | .generic, h => by cases h
  | .coll l i, h => by
    simp only [EncTy.intoInfallible, Bool.and_eq_true] at h
    simp only [EncTy.intoGeneric, Bool.and_eq_true]
    exact ⟨intoInfallible_intoGeneric l h.1, intoInfallible_intoGeneric i h.2⟩
  | .item e, h => intoInfallible_intoGeneric e h
  | .enum d f, h => by
    simp only [EncTy.intoInfallible, Bool.and_eq_true] at h
    exact intoInfallible_intoGeneric f h.2

theorem intoGeneric_isError : ∀ (E : EncTy), E.intoGeneric = true → E.isError = true
  | .infallible, _ | .usize, _ | .isize, _ | .generic, _ => rfl
  | .pair _, h | .refCell _, h => by cases h
  | .coll l i, h => by
    simp only [EncTy.intoGeneric, Bool.and_eq_true] at h
    simp only [EncTy.isError, Bool.and_eq_true]
    exact ⟨intoGeneric_isError l h.1, intoGeneric_isError i h.2⟩
  | .item e, h => intoGeneric_isError e h
  | .enum _ f, h => intoGeneric_isError f h

/-- A property of error types that is false of pairs, of cells if `c` is not set, and else that of the
components. -/
structure EncProp (c : Bool) (Q : EncTy → Bool) (P : Ty → Prop) : Prop where
  infallible : Q .infallible = true
  usize : Q .usize = true
  isize : Q .isize = true
  generic : Q .generic = true
  coll : ∀ l i, Q (.coll l i) = (Q l && Q i)
  item : ∀ e, Q (.item e) = Q e
  enum : ∀ d f, Q (.enum d f) = Q f
  pair : ∀ e, Q (.pair e) = false
  refCell : ∀ e, Q (.refCell e) = (c && Q e)
  ofGeneric : ∀ E, E.intoGeneric = true → Q E = true
  list : ∀ t, P (.seq .linkedList t)
  cell : ∀ t, P (.refCell t) ↔ c = false
  other : ∀ t, P t → (∃ u, t = .seq .linkedList u) ∨ ∃ u, t = .refCell u

theorem encProp_intoGeneric : EncProp false EncTy.intoGeneric IsLinkedListOrRefCell where
  infallible := rfl
  usize := rfl
  isize := rfl
  generic := rfl
  coll _ _ := rfl
  item _ := rfl
  enum _ _ := rfl
  pair _ := rfl
  refCell _ := rfl
  ofGeneric _ h := h
  list _ := trivial
  cell _ := iff_of_true trivial rfl
  other t h := by
    unfold IsLinkedListOrRefCell at h
    split at h
    · exact .inl ⟨_, rfl⟩
    · exact .inr ⟨_, rfl⟩
    · exact h.elim

theorem encProp_isError : EncProp true EncTy.isError IsLinkedList where
  infallible := rfl
  usize := rfl
  isize := rfl
  generic := rfl
  coll _ _ := rfl
  item _ := rfl
  enum _ _ := rfl
  pair _ := rfl
  refCell _ := rfl
  ofGeneric := intoGeneric_isError
  list _ := trivial
  cell _ := iff_of_false id (by simp)
  other t h := by
    unfold IsLinkedList at h
    split at h
    · exact .inl ⟨_, rfl⟩
    · exact h.elim

section
set_option linter.unusedSectionVars false
variable {c : Bool} {Q : EncTy → Bool} {P : Ty → Prop} (H : EncProp c Q P)
include H

mutual

theorem encProp_within : ∀ (t : Ty) (E : EncTy), t.encErr = some E → (Q E = true ↔ ¬ Within P t)
  | .wrap w t, E, h => by
    have hP : ¬ P (.wrap w t) := fun h => by rcases H.other _ h with ⟨_, h⟩ | ⟨_, h⟩ <;> cases h
    rw [Ty.encErr] at h
    simp only [Within, hP, false_or]
    exact encProp_within t E h
  | .option t, E, h => by
    have hP : ¬ P (.option t) := fun h => by rcases H.other _ h with ⟨_, h⟩ | ⟨_, h⟩ <;> cases h
    rw [Ty.encErr] at h
    simp only [Within, hP, false_or]
    exact encProp_within t E h
  | .range t, E, h => by
    have hP : ¬ P (.range t) := fun h => by rcases H.other _ h with ⟨_, h⟩ | ⟨_, h⟩ <;> cases h
    rw [Ty.encErr] at h
    simp only [Within, hP, false_or]
    exact encProp_within t E h
  | .rangeInclusive t, E, h => by
    have hP : ¬ P (.rangeInclusive t) :=
      fun h => by rcases H.other _ h with ⟨_, h⟩ | ⟨_, h⟩ <;> cases h
    rw [Ty.encErr] at h
    simp only [Within, hP, false_or]
    exact encProp_within t E h
  | .lock k t, E, h => by
    have hP : ¬ P (.lock k t) := fun h => by rcases H.other _ h with ⟨_, h⟩ | ⟨_, h⟩ <;> cases h
    rw [Ty.encErr] at h
    simp only [Within, hP, false_or]
    exact encProp_within t E h
  | .hashSet t, E, h => by
    have hP : ¬ P (.hashSet t) := fun h => by rcases H.other _ h with ⟨_, h⟩ | ⟨_, h⟩ <;> cases h
    rw [Ty.encErr] at h
    simp only [Within, hP, false_or]
    exact encProp_within t E h
  | .hashMap k v, E, h => by
    have hP : ¬ P (.hashMap k v) := fun h => by rcases H.other _ h with ⟨_, h⟩ | ⟨_, h⟩ <;> cases h
    obtain ⟨hk, hv⟩ := hashMap_encErr h
    simp only [Within, hP, false_or, not_or, ← encProp_within k E hk, ← encProp_within v E hv,
      and_self]
  | .result t u, E, h => by
    have hP : ¬ P (.result t u) := fun h => by rcases H.other _ h with ⟨_, h⟩ | ⟨_, h⟩ <;> cases h
    obtain ⟨B, ht, hu, hi⟩ := result_encErr h
    simp only [Within, hP, false_or, not_or, ← encProp_within t E ht, ← encProp_within u B hu]
    refine ⟨fun hE => ⟨hE, ?_⟩, And.left⟩
    rcases into_cases hi with rfl | ⟨_, h0⟩ | ⟨_, h0⟩
    · exact hE
    · exact H.ofGeneric _ (intoInfallible_intoGeneric _ h0)
    · exact H.ofGeneric _ h0
  | .array t n, E, h => by
    have hP : ¬ P (.array t n) := fun h => by rcases H.other _ h with ⟨_, h⟩ | ⟨_, h⟩ <;> cases h
    simp only [Ty.encErr, Option.map_eq_some_iff] at h
    obtain ⟨E', h, rfl⟩ := h
    simp only [Within, hP, false_or, H.coll, H.infallible, H.item, Bool.true_and]
    exact encProp_within t E' h
  | .sizedSlice t n, E, h => by
    have hP : ¬ P (.sizedSlice t n) :=
      fun h => by rcases H.other _ h with ⟨_, h⟩ | ⟨_, h⟩ <;> cases h
    simp only [Ty.encErr, Option.map_eq_some_iff] at h
    obtain ⟨E', h, rfl⟩ := h
    simp only [Within, hP, false_or, H.coll, H.usize, H.item, Bool.true_and]
    exact encProp_within t E' h
  | .seq k t, E, h => by
    simp only [Ty.encErr, Option.map_eq_some_iff] at h
    obtain ⟨E', h, rfl⟩ := h
    by_cases hk : k = .linkedList
    · subst hk
      simp only [Within, H.list, true_or, not_true_eq_false, if_true, H.coll, H.pair,
        Bool.and_false, Bool.false_eq_true]
    · have hP : ¬ P (.seq k t) := fun h => by
        rcases H.other _ h with ⟨_, h⟩ | ⟨_, h⟩
        · cases h; exact hk rfl
        · cases h
      simp only [Within, hP, false_or, if_neg hk, H.coll, H.usize, H.item, Bool.true_and]
      exact encProp_within t E' h
  | .bound t, E, h => by
    have hP : ¬ P (.bound t) := fun h => by rcases H.other _ h with ⟨_, h⟩ | ⟨_, h⟩ <;> cases h
    simp only [Ty.encErr, Option.map_eq_some_iff] at h
    obtain ⟨E', h, rfl⟩ := h
    simp only [Within, hP, false_or, H.enum]
    exact encProp_within t E' h
  | .refCell t, E, h => by
    simp only [Ty.encErr, Option.map_eq_some_iff] at h
    obtain ⟨E', h, rfl⟩ := h
    simp only [Within, H.cell, H.refCell, Bool.and_eq_true, not_or, Bool.not_eq_false,
      encProp_within t E' h]
  | .tuple fs, E, h => by
    have hP : ¬ P (.tuple fs) := fun h => by rcases H.other _ h with ⟨_, h⟩ | ⟨_, h⟩ <;> cases h
    simp only [Within, hP, false_or]
    exact encProp_fields fs E (tuple_encErr h).2
  | .struct fs, E, h => by
    have hP : ¬ P (.struct fs) := fun h => by rcases H.other _ h with ⟨_, h⟩ | ⟨_, h⟩ <;> cases h
    obtain ⟨rfl, hi⟩ := struct_encErr h
    simp only [Within, hP, false_or]
    exact iff_of_true H.generic (encProp_into fs hi)
  | .enum r vs, E, h => by
    have hP : ¬ P (.enum r vs) := fun h => by rcases H.other _ h with ⟨_, h⟩ | ⟨_, h⟩ <;> cases h
    obtain ⟨rfl, hi⟩ := enum_encErr h
    simp only [Within, hP, false_or, H.enum]
    exact iff_of_true H.generic (encProp_variants vs hi)
  | .nonZero r, E, h => by
    have hP : ¬ P (.nonZero r) := fun h => by rcases H.other _ h with ⟨_, h⟩ | ⟨_, h⟩ <;> cases h
    simp only [Ty.encErr, Option.some.injEq] at h
    subst h
    simp only [Within, hP, not_false_eq_true, iff_true]
    cases r
    · exact H.infallible
    · exact H.usize
    · exact H.isize
  | .num _, E, h | .bool, E, h | .char, E, h | .usize, E, h | .isize, E, h | .unit _, E, h
  | .infallible, E, h | .duration, E, h | .systemTime _, E, h
  | .ipv4, E, h | .ipv6, E, h | .ipAddr, E, h | .socketAddrV4, E, h | .socketAddrV6, E, h
  | .socketAddr, E, h | .str _, E, h | .cStr _, E, h | .sizedStr _, E, h => by
    simp only [Ty.encErr, Option.some.injEq] at h
    subst h
    refine iff_of_true ?_ ?_
    · simp [H.infallible, H.usize, H.isize, H.coll, H.item, H.enum]
    · simp only [Within]
      exact fun h => by rcases H.other _ h with ⟨_, h⟩ | ⟨_, h⟩ <;> cases h

theorem encProp_fields : ∀ (fs : Fields) (E : EncTy), fs.encErr = some E →
    (Q E = true ↔ ¬ WithinFields P fs)
  | .nil, E, h => by simp [Fields.encErr] at h
  | .cons t fs, E, h => by
    obtain ⟨ht, hfs⟩ := fields_encErr h
    simp only [WithinFields, not_or, ← encProp_within t E ht]
    rcases hfs with rfl | hfs
    · simp [WithinFields]
    · simp only [← encProp_fields fs E hfs, and_self]

theorem encProp_into : ∀ (fs : Fields), fs.encInto = true → ¬ WithinFields P fs
  | .nil, _ => by simp [WithinFields]
  | .cons t fs, h => by
    obtain ⟨⟨E, hE, hg⟩, hfs⟩ := fields_encInto h
    simp only [WithinFields, not_or]
    exact ⟨(encProp_within t E hE).mp (H.ofGeneric E hg), encProp_into fs hfs⟩

theorem encProp_variants : ∀ (vs : Variants), vs.encInto = true → ¬ WithinVariants P vs
  | .nil, _ => by simp [WithinVariants]
  | .cons _ fs vs, h => by
    obtain ⟨hf, hv⟩ := variants_encInto h
    simp only [WithinVariants, not_or]
    exact ⟨encProp_into fs hf, encProp_variants vs hv⟩

end

end

/-! ### Decoding -/

theorem not_charOrResult_of {t : Ty} (h1 : t ≠ .char) (h2 : ∀ a b, t ≠ .result a b) :
    ¬ IsCharOrResult t := by
  unfold IsCharOrResult
  split
  · exact absurd rfl h1
  · exact absurd rfl (h2 _ _)
  · exact id

mutual

theorem decInto_within : ∀ (t : Ty) (o : Bool) (E : DecTy), t.decErrOf o = some E →
    (E.intoGeneric = true ↔ ¬ Within IsCharOrResult t)
  | .char, o, E, h => by
    simp only [Ty.decErrOf, Option.some.injEq] at h
    subst h
    simp [Within, IsCharOrResult, DecTy.intoGeneric]
  | .result t u, o, E, h => by
    obtain ⟨E', _, _, rfl⟩ := result_decErr h
    simp [Within, IsCharOrResult, DecTy.intoGeneric]
  | .wrap w t, o, E, h => by
    obtain ⟨o', h⟩ := wrap_decErr h
    simp only [Within, not_charOrResult_of (t := .wrap w t) nofun nofun, false_or]
    exact decInto_within t o' E h
  | .option t, o, E, h => by
    rw [Ty.decErrOf] at h
    simp only [Within, not_charOrResult_of (t := .option t) nofun nofun, false_or]
    exact decInto_within t _ E h
  | .range t, o, E, h => by
    rw [Ty.decErrOf] at h
    simp only [Within, not_charOrResult_of (t := .range t) nofun nofun, false_or]
    exact decInto_within t _ E h
  | .rangeInclusive t, o, E, h => by
    rw [Ty.decErrOf] at h
    simp only [Within, not_charOrResult_of (t := .rangeInclusive t) nofun nofun, false_or]
    exact decInto_within t _ E h
  | .lock k t, o, E, h => by
    rw [Ty.decErrOf] at h
    simp only [Within, not_charOrResult_of (t := .lock k t) nofun nofun, false_or]
    exact decInto_within t _ E h
  | .refCell t, o, E, h => by
    rw [Ty.decErrOf] at h
    simp only [Within, not_charOrResult_of (t := .refCell t) nofun nofun, false_or]
    exact decInto_within t _ E h
  | .array t n, o, E, h => by
    simp only [Ty.decErrOf, Option.map_eq_some_iff] at h
    obtain ⟨E', h, rfl⟩ := h
    simp only [Within, not_charOrResult_of (t := .array t n) nofun nofun, false_or,
      DecTy.intoGeneric, Bool.true_and]
    exact decInto_within t _ E' h
  | .hashSet t, o, E, h => by
    simp only [Ty.decErrOf, Option.map_eq_some_iff] at h
    obtain ⟨E', h, rfl⟩ := h
    simp only [Within, not_charOrResult_of (t := .hashSet t) nofun nofun, false_or,
      DecTy.intoGeneric, Bool.true_and]
    exact decInto_within t _ E' h
  | .sizedSlice t n, o, E, h => by
    simp only [Ty.decErrOf, Option.map_eq_some_iff] at h
    obtain ⟨E', h, rfl⟩ := h
    simp only [Within, not_charOrResult_of (t := .sizedSlice t n) nofun nofun, false_or,
      DecTy.intoGeneric, Bool.true_and]
    exact decInto_within t _ E' h
  | .bound t, o, E, h => by
    simp only [Ty.decErrOf, Option.map_eq_some_iff] at h
    obtain ⟨E', h, rfl⟩ := h
    simp only [Within, not_charOrResult_of (t := .bound t) nofun nofun, false_or,
      DecTy.intoGeneric, Option.isSome_some, Bool.true_and]
    exact decInto_within t _ E' h
  | .seq k t, o, E, h => by
    obtain ⟨E', h', rfl⟩ := seq_decErr h
    simp only [Within, not_charOrResult_of (t := .seq k t) nofun nofun, false_or,
      DecTy.intoGeneric, Bool.true_and]
    exact decInto_within t _ E' h'
  | .hashMap k v, o, E, h => by
    obtain ⟨E', hk, hv, rfl⟩ := hashMap_decErr h
    simp only [Within, not_charOrResult_of (t := .hashMap k v) nofun nofun, false_or,
      DecTy.intoGeneric, Bool.true_and, not_or, ← decInto_within k _ E' hk,
      ← decInto_within v _ E' hv, and_self]
  | .tuple fs, o, E, h => by
    simp only [Within, not_charOrResult_of (t := .tuple fs) nofun nofun, false_or]
    exact decInto_fields fs E (tuple_decErr h).2
  | .struct fs, o, E, h => by
    obtain ⟨rfl, hi⟩ := struct_decErr h
    simp only [Within, not_charOrResult_of (t := .struct fs) nofun nofun, false_or]
    exact iff_of_true rfl (decInto_into fs hi)
  | .enum r vs, o, E, h => by
    obtain ⟨rfl, hi⟩ := enum_decErr h
    simp only [Within, not_charOrResult_of (t := .enum r vs) nofun nofun, false_or]
    exact iff_of_true rfl (decInto_variants vs hi)
  | .str k, o, E, h => by
    have := str_decErr h
    subst this
    simp [Within, IsCharOrResult, DecTy.intoGeneric]
  | .cStr k, o, E, h => by
    have := cStr_decErr h
    subst this
    simp [Within, IsCharOrResult, DecTy.intoGeneric]
  | .num _, o, E, h | .bool, o, E, h | .usize, o, E, h | .isize, o, E, h | .unit _, o, E, h
  | .infallible, o, E, h | .duration, o, E, h | .systemTime _, o, E, h | .nonZero _, o, E, h
  | .ipv4, o, E, h | .ipv6, o, E, h | .ipAddr, o, E, h | .socketAddrV4, o, E, h
  | .socketAddrV6, o, E, h | .socketAddr, o, E, h | .sizedStr _, o, E, h => by
    simp only [Ty.decErrOf, Option.some.injEq] at h
    subst h
    simp [Within, IsCharOrResult, DecTy.intoGeneric]

theorem decInto_fields : ∀ (fs : Fields) (E : DecTy), fs.decErr = some E →
    (E.intoGeneric = true ↔ ¬ WithinFields IsCharOrResult fs)
  | .nil, E, h => by simp [Fields.decErr] at h
  | .cons t fs, E, h => by
    obtain ⟨ht, hfs⟩ := fields_decErr h
    simp only [WithinFields, not_or, ← decInto_within t _ E ht]
    rcases hfs with rfl | hfs
    · simp [WithinFields]
    · simp only [← decInto_fields fs E hfs, and_self]

theorem decInto_into : ∀ (fs : Fields), fs.decInto = true → ¬ WithinFields IsCharOrResult fs
  | .nil, _ => by simp [WithinFields]
  | .cons t fs, h => by
    obtain ⟨⟨E, hE, hg⟩, hfs⟩ := fields_decInto h
    simp only [WithinFields, not_or]
    exact ⟨(decInto_within t _ E hE).mp hg, decInto_into fs hfs⟩

theorem decInto_variants : ∀ (vs : Variants), vs.decInto = true →
    ¬ WithinVariants IsCharOrResult vs
  | .nil, _ => by simp [WithinVariants]
  | .cons _ fs vs, h => by
    obtain ⟨hf, hv⟩ := variants_decInto h
    simp only [WithinVariants, not_or]
    exact ⟨decInto_into fs hf, decInto_variants vs hv⟩

end

/-- Every decode error type is `Error`. -/
theorem decTy_isError : ∀ E : DecTy, E.isError = true
  | .coll l i => by simp [DecTy.isError, decTy_isError l, decTy_isError i]
  | .item e => by simp [DecTy.isError, decTy_isError e]
  | .enum _ f => by simp [DecTy.isError, decTy_isError f]
  | .infallible | .char | .cString | .nonZero | .systemTime | .length | .utf8 | .generic => rfl

end Oct
