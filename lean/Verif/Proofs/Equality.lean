import Verif.Model.Equality
import Verif.Spec.Equality
import Verif.Spec.RoundTrip
import Verif.Spec.Format
/-
`==` of values against what they are encoded as.
-/
namespace Oct
open Spec
set_option linter.unusedVariables false

theorem listEquals_eq {α : Type} {eq : α → α → Bool} (h : ∀ x y, eq x y = true → x = y) :
    ∀ l l', listEquals eq l l' = true → l = l'
  | [], [], _ => rfl
  | x :: l, y :: l', he => by
    rw [listEquals, Bool.and_eq_true] at he
    rw [h _ _ he.1, listEquals_eq h l l' he.2]
  | [], _ :: _, he => by cases he
  | _ :: _, [], he => by cases he

mutual

/-- Equal values of types without floats and hash maps are the same. -/
theorem Ty.equals_eq : (t : Ty) → Everywhere IsExact t → (v w : t.Val) → t.equals v w = true → v = w
  | .num (.int _), _, v, w, he => BitVec.eq_of_toNat_eq (by simpa [Ty.equals, NumKind.equals] using he)
  | .num .f32, h, _, _, _ => absurd trivial h.1
  | .num .f64, h, _, _, _ => absurd trivial h.1
  | .bool, _, v, w, he => eq_of_beq (α := Bool) he
  | .char, _, v, w, he => eq_of_beq (α := Char) he
  | .usize, _, v, w, he => eq_of_beq (α := Nat) he
  | .isize, _, v, w, he => eq_of_beq (α := Int) he
  | .nonZero _, _, v, w, he => Subtype.ext (by simpa [Ty.equals] using he)
  | .unit _, _, _, _, _ => rfl
  | .infallible, _, v, _, _ => nomatch v
  | .wrap _ t, h, v, w, he => Ty.equals_eq t h.2 v w he
  | .array t _, h, v, w, he => Subtype.ext (listEquals_eq (Ty.equals_eq t h.2) _ _ he)
  | .seq _ t, h, v, w, he => listEquals_eq (Ty.equals_eq t h.2) _ _ he
  | .hashMap _ _, h, _, _, _ => absurd trivial h.1.2
  | .hashSet _, h, _, _, _ => absurd trivial h.1.2
  | .option t, h, none, none, _ => rfl
  | .option t, h, some v, some w, he => congrArg some (Ty.equals_eq t h.2 v w he)
  | .option t, h, none, some w, he => by cases he
  | .option t, h, some v, none, he => by cases he
  | .result t e, h, .ok v, .ok w, he => congrArg ResultVal.ok (Ty.equals_eq t h.2.1 v w he)
  | .result t e, h, .err v, .err w, he => congrArg ResultVal.err (Ty.equals_eq e h.2.2 v w he)
  | .result t e, h, .ok v, .err w, he => by cases he
  | .result t e, h, .err v, .ok w, he => by cases he
  | .bound t, h, .included v, .included w, he => congrArg BoundVal.included (Ty.equals_eq t h.2 v w he)
  | .bound t, h, .excluded v, .excluded w, he => congrArg BoundVal.excluded (Ty.equals_eq t h.2 v w he)
  | .bound t, h, .unbounded, .unbounded, he => rfl
  | .bound t, h, .included v, .excluded w, he => by cases he
  | .bound t, h, .included v, .unbounded, he => by cases he
  | .bound t, h, .excluded v, .included w, he => by cases he
  | .bound t, h, .excluded v, .unbounded, he => by cases he
  | .bound t, h, .unbounded, .included w, he => by cases he
  | .bound t, h, .unbounded, .excluded w, he => by cases he
  | .range t, h, ⟨a, b⟩, ⟨a', b'⟩, he => by
    have he := Bool.and_eq_true_iff.mp he
    have h1 : a = a' := Ty.equals_eq t h.2 _ _ he.1
    have h2 : b = b' := Ty.equals_eq t h.2 _ _ he.2
    subst h1; subst h2; rfl
  | .rangeInclusive t, h, ⟨a, b, c⟩, ⟨a', b', c'⟩, he => by
    have he := Bool.and_eq_true_iff.mp he
    have he := And.intro (Bool.and_eq_true_iff.mp he.1) he.2
    have h1 : a = a' := Ty.equals_eq t h.2 _ _ he.1.1
    have h2 : b = b' := Ty.equals_eq t h.2 _ _ he.1.2
    have h3 : c = c' := eq_of_beq he.2
    subst h1; subst h2; subst h3; rfl
  | .lock _ _, _, _, _, he => by cases he
  | .refCell t, h, ⟨a, b⟩, ⟨a', b'⟩, he => by
    have he := Bool.and_eq_true_iff.mp he
    have he := And.intro (Bool.and_eq_true_iff.mp he.1) he.2
    have h1 : b = b' := Ty.equals_eq t h.2 _ _ he.2
    have h2 : a = false := by simpa using he.1.1
    have h3 : a' = false := by simpa using he.1.2
    subst h1; subst h2; subst h3; rfl
  | .duration, _, ⟨a, b, _⟩, ⟨a', b', _⟩, he => by
    have he := Bool.and_eq_true_iff.mp he
    have h1 : a = a' := by simpa using he.1
    have h2 : b = b' := by simpa using he.2
    subst h1; subst h2; rfl
  | .systemTime _, _, v, w, he => Subtype.ext (by simpa [Ty.equals] using he)
  | .ipv4, _, v, w, he => Subtype.ext (by simpa [Ty.equals] using he)
  | .ipv6, _, v, w, he => Subtype.ext (by simpa [Ty.equals] using he)
  | .ipAddr, _, v, w, he => of_decide_eq_true he
  | .socketAddrV4, _, v, w, he => of_decide_eq_true he
  | .socketAddrV6, _, v, w, he => of_decide_eq_true he
  | .socketAddr, _, v, w, he => of_decide_eq_true he
  | .str _, _, v, w, he => Subtype.ext (by simpa [Ty.equals] using he)
  | .cStr _, _, v, w, he => Subtype.ext (by simpa [Ty.equals] using he)
  | .sizedStr _, _, v, w, he => Subtype.ext (by simpa [Ty.equals] using he)
  | .sizedSlice t _, h, v, w, he => Subtype.ext (listEquals_eq (Ty.equals_eq t h.2) _ _ he)
  | .tuple fs, h, v, w, he => Fields.equals_eq fs h.2 v w he
  | .struct fs, h, v, w, he => Fields.equals_eq fs h.2 v w he
  | .enum _ vs, h, v, w, he => Variants.equals_eq vs h.2 v w he

/-- See `Ty.equals_eq`. -/
theorem Fields.equals_eq : (fs : Fields) → EverywhereFields IsExact fs → (v w : fs.Val) →
    fs.equals v w = true → v = w
  | .nil, _, _, _, _ => rfl
  | .cons t fs, h, (a, b), (a', b'), he => by
    have he := Bool.and_eq_true_iff.mp he
    have h1 : a = a' := Ty.equals_eq t h.1 _ _ he.1
    have h2 : b = b' := Fields.equals_eq fs h.2 _ _ he.2
    subst h1; subst h2; rfl

/-- See `Ty.equals_eq`. -/
theorem Variants.equals_eq : (vs : Variants) → EverywhereVariants IsExact vs → (v w : vs.Val) →
    vs.equals v w = true → v = w
  | .nil, _, v, _, _ => nomatch v
  | .cons _ fs vs, h, .inl v, .inl w, he => congrArg Sum.inl (Fields.equals_eq fs h.1 v w he)
  | .cons _ fs vs, h, .inr v, .inr w, he => congrArg Sum.inr (Variants.equals_eq vs h.2 v w he)
  | .cons _ fs vs, h, .inl v, .inr w, he => by cases he
  | .cons _ fs vs, h, .inr v, .inl w, he => by cases he

end

mutual

/-- Keys are exact. -/
theorem Ty.isKey_exact : (t : Ty) → t.isKey = true → Everywhere IsExact t
  | .num (.int _), _ => ⟨id, id⟩
  | .num .f32, h => by cases h
  | .num .f64, h => by cases h
  | .bool, _ => ⟨id, id⟩
  | .char, _ => ⟨id, id⟩
  | .usize, _ => ⟨id, id⟩
  | .isize, _ => ⟨id, id⟩
  | .nonZero _, _ => ⟨id, id⟩
  | .unit _, _ => ⟨id, id⟩
  | .infallible, _ => ⟨id, id⟩
  | .wrap w t, h => ⟨⟨id, id⟩, Ty.isKey_exact t (by cases w <;> first | exact h | cases h)⟩
  | .array t _, h => ⟨⟨id, id⟩, Ty.isKey_exact t h⟩
  | .seq _ t, h => ⟨⟨id, id⟩, Ty.isKey_exact t h⟩
  | .hashMap _ _, h => by cases h
  | .hashSet _, h => by cases h
  | .option t, h => ⟨⟨id, id⟩, Ty.isKey_exact t h⟩
  | .result t e, h => by
    rw [Ty.isKey, Bool.and_eq_true] at h
    exact ⟨⟨id, id⟩, Ty.isKey_exact t h.1, Ty.isKey_exact e h.2⟩
  | .bound t, h => ⟨⟨id, id⟩, Ty.isKey_exact t h⟩
  | .range t, h => ⟨⟨id, id⟩, Ty.isKey_exact t h⟩
  | .rangeInclusive t, h => ⟨⟨id, id⟩, Ty.isKey_exact t h⟩
  | .lock _ _, h => by cases h
  | .refCell _, h => by cases h
  | .duration, _ => ⟨id, id⟩
  | .systemTime _, _ => ⟨id, id⟩
  | .ipv4, _ => ⟨id, id⟩
  | .ipv6, _ => ⟨id, id⟩
  | .ipAddr, _ => ⟨id, id⟩
  | .socketAddrV4, _ => ⟨id, id⟩
  | .socketAddrV6, _ => ⟨id, id⟩
  | .socketAddr, _ => ⟨id, id⟩
  | .str _, _ => ⟨id, id⟩
  | .cStr _, _ => ⟨id, id⟩
  | .sizedStr _, _ => ⟨id, id⟩
  | .sizedSlice t _, h => ⟨⟨id, id⟩, Ty.isKey_exact t h⟩
  | .tuple fs, h => ⟨⟨id, id⟩, Fields.isKey_exact fs h⟩
  | .struct fs, h => ⟨⟨id, id⟩, Fields.isKey_exact fs h⟩
  | .enum _ vs, h => ⟨⟨id, id⟩, Variants.isKey_exact vs h⟩

/-- See `Ty.isKey_exact`. -/
theorem Fields.isKey_exact : (fs : Fields) → fs.isKey = true → EverywhereFields IsExact fs
  | .nil, _ => trivial
  | .cons t fs, h => by
    rw [Fields.isKey, Bool.and_eq_true] at h
    exact ⟨Ty.isKey_exact t h.1, Fields.isKey_exact fs h.2⟩

/-- See `Ty.isKey_exact`. -/
theorem Variants.isKey_exact : (vs : Variants) → vs.isKey = true → EverywhereVariants IsExact vs
  | .nil, _ => trivial
  | .cons _ fs vs, h => by
    rw [Variants.isKey, Bool.and_eq_true] at h
    exact ⟨Fields.isKey_exact fs h.1, Variants.isKey_exact vs h.2⟩

end

/-- Equal keys are the same. -/
theorem Ty.key_eq {t : Ty} (h : t.isKey = true) {v w : t.Val} (he : t.equals v w = true) : v = w :=
  Ty.equals_eq t (Ty.isKey_exact t h) v w he

theorem listEquals_mem_left {α : Type} {eq : α → α → Bool} : ∀ {l l' : List α},
    listEquals eq l l' = true → ∀ x ∈ l, ∃ y ∈ l', eq x y = true
  | [], [], _, _, h => by cases h
  | x :: l, y :: l', he, z, hz => by
    rw [listEquals, Bool.and_eq_true] at he
    cases hz with
    | head => exact ⟨y, List.mem_cons_self, he.1⟩
    | tail _ hz =>
      obtain ⟨q, hq, h⟩ := listEquals_mem_left he.2 z hz
      exact ⟨q, List.mem_cons_of_mem _ hq, h⟩
  | [], _ :: _, he, _, _ => by cases he
  | _ :: _, [], he, _, _ => by cases he

theorem listEquals_mem_right {α : Type} {eq : α → α → Bool} : ∀ {l l' : List α},
    listEquals eq l l' = true → ∀ y ∈ l', ∃ x ∈ l, eq x y = true
  | [], [], _, _, h => by cases h
  | x :: l, y :: l', he, z, hz => by
    rw [listEquals, Bool.and_eq_true] at he
    cases hz with
    | head => exact ⟨x, List.mem_cons_self, he.1⟩
    | tail _ hz =>
      obtain ⟨q, hq, h⟩ := listEquals_mem_right he.2 z hz
      exact ⟨q, List.mem_cons_of_mem _ hq, h⟩
  | [], _ :: _, he, _, _ => by cases he
  | _ :: _, [], he, _, _ => by cases he

theorem listEquals_length {α : Type} {eq : α → α → Bool} : ∀ {l l' : List α},
    listEquals eq l l' = true → l.length = l'.length
  | [], [], _ => rfl
  | x :: l, y :: l', he => by
    rw [listEquals, Bool.and_eq_true] at he
    simp [listEquals_length he.2]
  | [], _ :: _, he => by cases he
  | _ :: _, [], he => by cases he

/-- Entries with distinct keys that all have counterparts in a list that is no longer are that list in
another order. -/
theorem exists_order {γ κ : Type} (key : γ → κ) {eq : γ → γ → Bool}
    (hk : ∀ p q, eq p q = true → key p = key q) :
    ∀ (l l' : List γ), (l.map key).Nodup → l.length = l'.length →
      (∀ p ∈ l, ∃ q ∈ l', eq p q = true) → ∃ l'', l''.Perm l' ∧ listEquals eq l l'' = true
  | [], l', _, hl, _ => by
    cases l' with
    | nil => exact ⟨[], List.Perm.refl _, rfl⟩
    | cons _ _ => cases hl
  | p :: l, l', hn, hl, h => by
    obtain ⟨q, hq, hpq⟩ := h p List.mem_cons_self
    obtain ⟨s, t, rfl⟩ := List.append_of_mem hq
    rw [List.map_cons, List.nodup_cons] at hn
    obtain ⟨l'', h1, h2⟩ := exists_order key hk l (s ++ t) hn.2 (by simp at hl ⊢; omega) fun p' hp' => by
      obtain ⟨q', hq', he⟩ := h p' (List.mem_cons_of_mem _ hp')
      refine ⟨q', ?_, he⟩
      rw [List.mem_append, List.mem_cons] at hq'
      rw [List.mem_append]
      rcases hq' with h' | h' | h'
      · exact .inl h'
      · subst h'
        refine absurd ?_ hn.1
        rw [hk _ _ hpq, ← hk _ _ he]
        exact List.mem_map_of_mem hp'
      · exact .inr h'
    refine ⟨q :: l'', (List.Perm.cons q h1).trans List.perm_middle.symm, ?_⟩
    rw [listEquals, hpq, h2]
    rfl

/-- Maps that are equal have the same entries up to order and `==` of the values. -/
theorem mapEquals_order {α β : Type} {eqK : α → α → Bool} {eqV : β → β → Bool}
    (hk : ∀ x y, eqK x y = true → x = y) {l l' : List (α × β)} (hn : (l.map Prod.fst).Nodup)
    (h : mapEquals eqK eqV l l' = true) :
    ∃ l'', l''.Perm l' ∧ listEquals (fun p q => eqK p.1 q.1 && eqV p.2 q.2) l l'' = true := by
  rw [mapEquals, Bool.and_eq_true, List.all_eq_true] at h
  refine exists_order Prod.fst (fun p q h => hk _ _ (Bool.and_eq_true_iff.mp h).1) l l' hn
    (eq_of_beq h.1) fun p hp => ?_
  have := h.2 p hp
  rwa [List.any_eq_true] at this

/-- Sets that are equal have the same elements up to order. -/
theorem setEquals_order {α : Type} {eqK : α → α → Bool} (hk : ∀ x y, eqK x y = true → x = y)
    {l l' : List α} (hn : l.Nodup) (h : setEquals eqK l l' = true) :
    ∃ l'', l''.Perm l' ∧ listEquals eqK l l'' = true := by
  rw [setEquals, Bool.and_eq_true, List.all_eq_true] at h
  refine exists_order id hk l l' (by simpa using hn) (eq_of_beq h.1) fun p hp => ?_
  have := h.2 p hp
  rwa [List.any_eq_true] at this

/-- As long, and as encodable. -/
def SameShape (t : Ty) (v w : t.Val) : Prop :=
  (Encodable t v ↔ Encodable t w) ∧ (wire t v).length = (wire t w).length

theorem SameShape.of_eq {t : Ty} {v w : t.Val} (h : v = w) : SameShape t v w := h ▸ ⟨Iff.rfl, rfl⟩

theorem listEquals_shape {α : Type} {eq : α → α → Bool} {enc : α → Prop} {wr : α → List UInt8}
    (h : ∀ x y, eq x y = true → (enc x ↔ enc y) ∧ (wr x).length = (wr y).length) :
    ∀ {l l' : List α}, listEquals eq l l' = true →
      ((∀ x ∈ l, enc x) ↔ ∀ x ∈ l', enc x) ∧ (l.flatMap wr).length = (l'.flatMap wr).length
  | [], [], _ => ⟨Iff.rfl, rfl⟩
  | x :: l, y :: l', he => by
    rw [listEquals, Bool.and_eq_true] at he
    have h1 := h _ _ he.1
    have h2 := listEquals_shape h he.2
    simp [h1.1, h1.2, h2.1, h2.2]
  | [], _ :: _, he => by cases he
  | _ :: _, [], he => by cases he

theorem Perm.shape {α : Type} {enc : α → Prop} {wr : α → List UInt8} {l l' : List α} (h : l.Perm l') :
    ((∀ x ∈ l, enc x) ↔ ∀ x ∈ l', enc x) ∧ (l.flatMap wr).length = (l'.flatMap wr).length :=
  ⟨forall_congr' fun x => by rw [h.mem_iff], (h.flatMap_right wr).length_eq⟩

theorem leBytes_len (n x : Nat) : (leBytes n x).length = n := by simp [leBytes]

mutual

/-- Equal values are as long and as encodable. -/
theorem Ty.equals_shape : (t : Ty) → t.hasEq = true → (v w : t.Val) → t.equals v w = true → SameShape t v w
  | .num k, _, v, w, he => ⟨Iff.rfl, by simp [wire, leBytes_len]⟩
  | .bool, _, v, w, he => .of_eq (Ty.equals_eq .bool ⟨id, id⟩ v w he)
  | .char, _, v, w, he => .of_eq (Ty.equals_eq .char ⟨id, id⟩ v w he)
  | .usize, _, v, w, he => .of_eq (Ty.equals_eq .usize ⟨id, id⟩ v w he)
  | .isize, _, v, w, he => .of_eq (Ty.equals_eq .isize ⟨id, id⟩ v w he)
  | .nonZero r, _, v, w, he => .of_eq (Ty.equals_eq (.nonZero r) ⟨id, id⟩ v w he)
  | .unit _, _, v, w, he => .of_eq rfl
  | .infallible, _, v, _, _ => nomatch v
  | .wrap k t, h, v, w, he =>
    Ty.equals_shape t (by cases k <;> first | exact h | cases h) v w he
  | .array t _, h, v, w, he =>
    listEquals_shape (Ty.equals_shape t h) he
  | .seq _ t, h, v, w, he => by
    have hl := listEquals_length (α := t.Val) he
    have hs := listEquals_shape (Ty.equals_shape t h) he
    refine ⟨?_, ?_⟩
    · exact and_congr (by rw [hl]) hs.1
    · simp only [wire, List.length_append, leBytes_len]
      exact congrArg _ hs.2
  | .hashMap k v, h, ⟨l, hn⟩, ⟨l', hn'⟩, he => by
    have h := Bool.and_eq_true_iff.mp h
    obtain ⟨l'', hp, hl⟩ := mapEquals_order (fun x y => Ty.key_eq h.1) hn he
    have hs := listEquals_shape (enc := fun p : k.Val × v.Val => Encodable k p.1 ∧ Encodable v p.2)
      (wr := fun p => wire k p.1 ++ wire v p.2) (fun p q hpq => by
        have hpq := Bool.and_eq_true_iff.mp hpq
        have h1 := Ty.key_eq h.1 hpq.1
        have h2 := Ty.equals_shape v h.2 _ _ hpq.2
        simp [h1, h2.1, h2.2]) hl
    have hq := Perm.shape (enc := fun p : k.Val × v.Val => Encodable k p.1 ∧ Encodable v p.2)
      (wr := fun p => wire k p.1 ++ wire v p.2) hp
    exact ⟨hs.1.trans hq.1, hs.2.trans hq.2⟩
  | .hashSet k, h, ⟨l, hn⟩, ⟨l', hn'⟩, he => by
    obtain ⟨l'', hp, hl⟩ := setEquals_order (fun x y => Ty.key_eq h) hn he
    have hs := listEquals_shape (enc := Encodable k) (wr := wire k) (fun p q hpq => by
        rw [Ty.key_eq h hpq]; exact ⟨Iff.rfl, rfl⟩) hl
    have hq := Perm.shape (enc := Encodable k) (wr := wire k) hp
    exact ⟨hs.1.trans hq.1, hs.2.trans hq.2⟩
  | .option t, h, none, none, _ => .of_eq rfl
  | .option t, h, some v, some w, he =>
    let ⟨h1, h2⟩ := Ty.equals_shape t h v w he
    ⟨h1, congrArg (· + 1) h2⟩
  | .option t, h, none, some w, he => by cases he
  | .option t, h, some v, none, he => by cases he
  | .result t e, h, .ok v, .ok w, he =>
    let ⟨h1, h2⟩ := Ty.equals_shape t (Bool.and_eq_true_iff.mp h).1 v w he
    ⟨h1, congrArg (· + 1) h2⟩
  | .result t e, h, .err v, .err w, he =>
    let ⟨h1, h2⟩ := Ty.equals_shape e (Bool.and_eq_true_iff.mp h).2 v w he
    ⟨h1, congrArg (· + 1) h2⟩
  | .result t e, h, .ok v, .err w, he => by cases he
  | .result t e, h, .err v, .ok w, he => by cases he
  | .bound t, h, .included v, .included w, he =>
    let ⟨h1, h2⟩ := Ty.equals_shape t h v w he
    ⟨h1, congrArg (· + 1) h2⟩
  | .bound t, h, .excluded v, .excluded w, he =>
    let ⟨h1, h2⟩ := Ty.equals_shape t h v w he
    ⟨h1, congrArg (· + 1) h2⟩
  | .bound t, h, .unbounded, .unbounded, he => .of_eq rfl
  | .bound t, h, .included v, .excluded w, he => by cases he
  | .bound t, h, .included v, .unbounded, he => by cases he
  | .bound t, h, .excluded v, .included w, he => by cases he
  | .bound t, h, .excluded v, .unbounded, he => by cases he
  | .bound t, h, .unbounded, .included w, he => by cases he
  | .bound t, h, .unbounded, .excluded w, he => by cases he
  | .range t, h, ⟨a, b⟩, ⟨a', b'⟩, he => by
    have he := Bool.and_eq_true_iff.mp he
    have h1 : SameShape t a a' := Ty.equals_shape t h _ _ he.1
    have h2 : SameShape t b b' := Ty.equals_shape t h _ _ he.2
    exact ⟨and_congr h1.1 h2.1, by simp [wire, h1.2, h2.2]⟩
  | .rangeInclusive t, h, ⟨a, b, c⟩, ⟨a', b', c'⟩, he => by
    have he := Bool.and_eq_true_iff.mp (Bool.and_eq_true_iff.mp he).1
    have h1 : SameShape t a a' := Ty.equals_shape t h _ _ he.1
    have h2 : SameShape t b b' := Ty.equals_shape t h _ _ he.2
    exact ⟨and_congr h1.1 h2.1, by simp [wire, h1.2, h2.2]⟩
  | .lock _ _, _, _, _, he => by cases he
  | .refCell t, h, ⟨a, b⟩, ⟨a', b'⟩, he => by
    have he := Bool.and_eq_true_iff.mp he
    have he := And.intro (Bool.and_eq_true_iff.mp he.1) he.2
    have h1 : SameShape t b b' := Ty.equals_shape t h _ _ he.2
    have h2 : a = false := by simpa using he.1.1
    have h3 : a' = false := by simpa using he.1.2
    subst h2; subst h3
    exact ⟨and_congr Iff.rfl h1.1, h1.2⟩
  | .duration, _, v, w, he => .of_eq (Ty.equals_eq .duration ⟨id, id⟩ v w he)
  | .systemTime p, _, v, w, he => .of_eq (Ty.equals_eq (.systemTime p) ⟨id, id⟩ v w he)
  | .ipv4, _, v, w, he => .of_eq (Ty.equals_eq .ipv4 ⟨id, id⟩ v w he)
  | .ipv6, _, v, w, he => .of_eq (Ty.equals_eq .ipv6 ⟨id, id⟩ v w he)
  | .ipAddr, _, v, w, he => .of_eq (Ty.equals_eq .ipAddr ⟨id, id⟩ v w he)
  | .socketAddrV4, _, v, w, he => .of_eq (Ty.equals_eq .socketAddrV4 ⟨id, id⟩ v w he)
  | .socketAddrV6, _, v, w, he => .of_eq (Ty.equals_eq .socketAddrV6 ⟨id, id⟩ v w he)
  | .socketAddr, _, v, w, he => .of_eq (Ty.equals_eq .socketAddr ⟨id, id⟩ v w he)
  | .str k, _, v, w, he => .of_eq (Ty.equals_eq (.str k) ⟨id, id⟩ v w he)
  | .cStr k, _, v, w, he => .of_eq (Ty.equals_eq (.cStr k) ⟨id, id⟩ v w he)
  | .sizedStr n, _, v, w, he => .of_eq (Ty.equals_eq (.sizedStr n) ⟨id, id⟩ v w he)
  | .sizedSlice t _, h, v, w, he => by
    have hl := listEquals_length (α := t.Val) he
    have hs := listEquals_shape (Ty.equals_shape t h) he
    refine ⟨?_, ?_⟩
    · exact and_congr (by rw [hl]) hs.1
    · simp only [wire, List.length_append, leBytes_len]
      exact congrArg _ hs.2
  | .tuple fs, h, v, w, he => Fields.equals_shape fs h v w he
  | .struct fs, h, v, w, he => Fields.equals_shape fs h v w he
  | .enum r vs, h, v, w, he => Variants.equals_shape vs h r _ 0 v w he

/-- See `Ty.equals_shape`. -/
theorem Fields.equals_shape : (fs : Fields) → fs.hasEq = true → (v w : fs.Val) → fs.equals v w = true →
    (EncodableFields fs v ↔ EncodableFields fs w) ∧ (wireFields fs v).length = (wireFields fs w).length
  | .nil, _, _, _, _ => ⟨Iff.rfl, rfl⟩
  | .cons t fs, h, (a, b), (a', b'), he => by
    have h := Bool.and_eq_true_iff.mp h
    have he := Bool.and_eq_true_iff.mp he
    have h1 : SameShape t a a' := Ty.equals_shape t h.1 _ _ he.1
    have h2 := Fields.equals_shape fs h.2 b b' he.2
    exact ⟨and_congr h1.1 h2.1, by simp [wireFields, h1.2, h2.2]⟩

/-- See `Ty.equals_shape`. -/
theorem Variants.equals_shape : (vs : Variants) → vs.hasEq = true → (r : Repr) →
    (ex : List (Option Nat)) → (j : Nat) → (v w : vs.Val) → vs.equals v w = true →
    (EncodableVariants r ex vs j v ↔ EncodableVariants r ex vs j w) ∧
      (wireVariants r ex vs j v).length = (wireVariants r ex vs j w).length
  | .nil, _, _, _, _, v, _, _ => nomatch v
  | .cons _ fs vs, h, r, ex, j, .inl v, .inl w, he => by
    have h1 := Fields.equals_shape fs (Bool.and_eq_true_iff.mp h).1 v w he
    exact ⟨and_congr Iff.rfl h1.1, by simp [wireVariants, h1.2]⟩
  | .cons _ fs vs, h, r, ex, j, .inr v, .inr w, he =>
    Variants.equals_shape vs (Bool.and_eq_true_iff.mp h).2 r ex (j + 1) v w he
  | .cons _ fs vs, h, r, ex, j, .inl v, .inr w, he => by cases he
  | .cons _ fs vs, h, r, ex, j, .inr v, .inl w, he => by cases he

end

theorem symm_of_eq {α : Type} {eq : α → α → Bool} {v w : α} (h : v = w) (he : eq v w = true) :
    eq w v = true := by subst h; exact he

theorem listEquals_symm {α : Type} {eq : α → α → Bool} (h : ∀ x y, eq x y = true → eq y x = true) :
    ∀ {l l' : List α}, listEquals eq l l' = true → listEquals eq l' l = true
  | [], [], _ => rfl
  | x :: l, y :: l', he => by
    rw [listEquals, Bool.and_eq_true] at he ⊢
    exact ⟨h _ _ he.1, listEquals_symm h he.2⟩
  | [], _ :: _, he => by cases he
  | _ :: _, [], he => by cases he

theorem listEquals_trans {α : Type} {eq : α → α → Bool}
    (h : ∀ x y z, eq x y = true → eq y z = true → eq x z = true) : ∀ {l l' l'' : List α},
    listEquals eq l l' = true → listEquals eq l' l'' = true → listEquals eq l l'' = true
  | [], [], [], _, _ => rfl
  | x :: l, y :: l', z :: l'', h1, h2 => by
    rw [listEquals, Bool.and_eq_true] at h1 h2 ⊢
    exact ⟨h _ _ _ h1.1 h2.1, listEquals_trans h h1.2 h2.2⟩
  | [], _ :: _, _, h1, _ => by cases h1
  | _ :: _, [], _, h1, _ => by cases h1
  | _, [], _ :: _, _, h2 => by cases h2
  | _, _ :: _, [], _, h2 => by cases h2

theorem listEquals_refl {α : Type} {eq : α → α → Bool} : ∀ {l : List α}, (∀ x ∈ l, eq x x = true) →
    listEquals eq l l = true
  | [], _ => rfl
  | x :: l, h => by
    rw [listEquals, Bool.and_eq_true]
    exact ⟨h x List.mem_cons_self, listEquals_refl fun y hy => h y (List.mem_cons_of_mem _ hy)⟩

theorem floatEquals_symm {half inf a b : Nat} (h : floatEquals half inf a b = true) :
    floatEquals half inf b a = true := by
  simp only [floatEquals, Bool.and_eq_true, Bool.or_eq_true, decide_eq_true_eq, beq_iff_eq] at h ⊢
  obtain ⟨⟨h1, h2⟩, h3⟩ := h
  exact ⟨⟨h2, h1⟩, h3.elim (fun h => .inl h.symm) fun h => .inr ⟨h.2, h.1⟩⟩

theorem floatEquals_trans {half inf a b c : Nat} (h : floatEquals half inf a b = true)
    (h' : floatEquals half inf b c = true) : floatEquals half inf a c = true := by
  simp only [floatEquals, Bool.and_eq_true, Bool.or_eq_true, decide_eq_true_eq, beq_iff_eq] at h h' ⊢
  obtain ⟨⟨h1, h2⟩, h3⟩ := h
  obtain ⟨⟨h4, h5⟩, h6⟩ := h'
  refine ⟨⟨h1, h5⟩, ?_⟩
  rcases h3 with rfl | h3
  · exact h6
  · rcases h6 with rfl | h6
    · exact .inr h3
    · exact .inr ⟨h3.1, h6.2⟩

theorem mapEquals_symm {α β : Type} {eqK : α → α → Bool} {eqV : β → β → Bool}
    (hk : ∀ x y, eqK x y = true → x = y) (hv : ∀ x y, eqV x y = true → eqV y x = true)
    {l l' : List (α × β)} (hn : (l.map Prod.fst).Nodup) (h : mapEquals eqK eqV l l' = true) :
    mapEquals eqK eqV l' l = true := by
  obtain ⟨l'', hp, hl⟩ := mapEquals_order hk hn h
  rw [mapEquals, Bool.and_eq_true] at h
  rw [mapEquals, Bool.and_eq_true, List.all_eq_true]
  refine ⟨by simpa using (eq_of_beq h.1).symm, fun q hq => ?_⟩
  obtain ⟨p, hp', he⟩ := listEquals_mem_right hl q (hp.mem_iff.mpr hq)
  have he := Bool.and_eq_true_iff.mp he
  rw [List.any_eq_true]
  exact ⟨p, hp', Bool.and_eq_true_iff.mpr ⟨symm_of_eq (hk _ _ he.1) he.1, hv _ _ he.2⟩⟩

theorem setEquals_symm {α : Type} {eqK : α → α → Bool} (hk : ∀ x y, eqK x y = true → x = y)
    {l l' : List α} (hn : l.Nodup) (h : setEquals eqK l l' = true) : setEquals eqK l' l = true := by
  obtain ⟨l'', hp, hl⟩ := setEquals_order hk hn h
  rw [setEquals, Bool.and_eq_true] at h
  rw [setEquals, Bool.and_eq_true, List.all_eq_true]
  refine ⟨by simpa using (eq_of_beq h.1).symm, fun q hq => ?_⟩
  obtain ⟨p, hp', he⟩ := listEquals_mem_right hl q (hp.mem_iff.mpr hq)
  rw [List.any_eq_true]
  exact ⟨p, hp', symm_of_eq (hk _ _ he) he⟩

theorem mapEquals_trans {α β : Type} {eqK : α → α → Bool} {eqV : β → β → Bool}
    (hk : ∀ x y z, eqK x y = true → eqK y z = true → eqK x z = true)
    (hv : ∀ x y z, eqV x y = true → eqV y z = true → eqV x z = true) {l l' l'' : List (α × β)}
    (h : mapEquals eqK eqV l l' = true) (h' : mapEquals eqK eqV l' l'' = true) :
    mapEquals eqK eqV l l'' = true := by
  rw [mapEquals, Bool.and_eq_true, List.all_eq_true] at h h' ⊢
  refine ⟨by simpa using (eq_of_beq h.1).trans (eq_of_beq h'.1), fun p hp => ?_⟩
  obtain ⟨q, hq, he⟩ := List.any_eq_true.mp (h.2 p hp)
  obtain ⟨r, hr, he'⟩ := List.any_eq_true.mp (h'.2 q hq)
  have he := Bool.and_eq_true_iff.mp he
  have he' := Bool.and_eq_true_iff.mp he'
  exact List.any_eq_true.mpr ⟨r, hr, Bool.and_eq_true_iff.mpr ⟨hk _ _ _ he.1 he'.1, hv _ _ _ he.2 he'.2⟩⟩

theorem setEquals_trans {α : Type} {eqK : α → α → Bool}
    (hk : ∀ x y z, eqK x y = true → eqK y z = true → eqK x z = true) {l l' l'' : List α}
    (h : setEquals eqK l l' = true) (h' : setEquals eqK l' l'' = true) : setEquals eqK l l'' = true := by
  rw [setEquals, Bool.and_eq_true, List.all_eq_true] at h h' ⊢
  refine ⟨by simpa using (eq_of_beq h.1).trans (eq_of_beq h'.1), fun p hp => ?_⟩
  obtain ⟨q, hq, he⟩ := List.any_eq_true.mp (h.2 p hp)
  obtain ⟨r, hr, he'⟩ := List.any_eq_true.mp (h'.2 q hq)
  exact List.any_eq_true.mpr ⟨r, hr, hk _ _ _ he he'⟩

mutual

/-- `==` is symmetric. -/
theorem Ty.equals_symm : (t : Ty) → t.hasEq = true → (v w : t.Val) → t.equals v w = true →
    t.equals w v = true
  | .num (.int _), _, v, w, he => symm_of_eq (Ty.equals_eq (.num (.int _)) ⟨id, id⟩ v w he) he
  | .num .f32, _, v, w, he => floatEquals_symm he
  | .num .f64, _, v, w, he => floatEquals_symm he
  | .bool, _, v, w, he => symm_of_eq (Ty.equals_eq .bool ⟨id, id⟩ v w he) he
  | .char, _, v, w, he => symm_of_eq (Ty.equals_eq .char ⟨id, id⟩ v w he) he
  | .usize, _, v, w, he => symm_of_eq (Ty.equals_eq .usize ⟨id, id⟩ v w he) he
  | .isize, _, v, w, he => symm_of_eq (Ty.equals_eq .isize ⟨id, id⟩ v w he) he
  | .nonZero r, _, v, w, he => symm_of_eq (Ty.equals_eq (.nonZero r) ⟨id, id⟩ v w he) he
  | .duration, _, v, w, he => symm_of_eq (Ty.equals_eq .duration ⟨id, id⟩ v w he) he
  | .systemTime p, _, v, w, he => symm_of_eq (Ty.equals_eq (.systemTime p) ⟨id, id⟩ v w he) he
  | .ipv4, _, v, w, he => symm_of_eq (Ty.equals_eq .ipv4 ⟨id, id⟩ v w he) he
  | .ipv6, _, v, w, he => symm_of_eq (Ty.equals_eq .ipv6 ⟨id, id⟩ v w he) he
  | .ipAddr, _, v, w, he => symm_of_eq (Ty.equals_eq .ipAddr ⟨id, id⟩ v w he) he
  | .socketAddrV4, _, v, w, he => symm_of_eq (Ty.equals_eq .socketAddrV4 ⟨id, id⟩ v w he) he
  | .socketAddrV6, _, v, w, he => symm_of_eq (Ty.equals_eq .socketAddrV6 ⟨id, id⟩ v w he) he
  | .socketAddr, _, v, w, he => symm_of_eq (Ty.equals_eq .socketAddr ⟨id, id⟩ v w he) he
  | .str k, _, v, w, he => symm_of_eq (Ty.equals_eq (.str k) ⟨id, id⟩ v w he) he
  | .cStr k, _, v, w, he => symm_of_eq (Ty.equals_eq (.cStr k) ⟨id, id⟩ v w he) he
  | .sizedStr n, _, v, w, he => symm_of_eq (Ty.equals_eq (.sizedStr n) ⟨id, id⟩ v w he) he
  | .unit _, _, v, w, he => rfl
  | .infallible, _, v, _, _ => nomatch v
  | .wrap k t, h, v, w, he => Ty.equals_symm t (by cases k <;> first | exact h | cases h) v w he
  | .array t _, h, v, w, he => listEquals_symm (Ty.equals_symm t h) he
  | .seq _ t, h, v, w, he => listEquals_symm (Ty.equals_symm t h) he
  | .hashMap k v, h, ⟨l, hn⟩, ⟨l', hn'⟩, he =>
    mapEquals_symm (fun x y => Ty.key_eq (Bool.and_eq_true_iff.mp h).1)
      (Ty.equals_symm v (Bool.and_eq_true_iff.mp h).2) hn he
  | .hashSet k, h, ⟨l, hn⟩, ⟨l', hn'⟩, he => setEquals_symm (fun x y => Ty.key_eq h) hn he
  | .option t, h, none, none, _ => rfl
  | .option t, h, some v, some w, he => Ty.equals_symm t h v w he
  | .option t, h, none, some w, he => by cases he
  | .option t, h, some v, none, he => by cases he
  | .result t e, h, .ok v, .ok w, he => Ty.equals_symm t (Bool.and_eq_true_iff.mp h).1 v w he
  | .result t e, h, .err v, .err w, he => Ty.equals_symm e (Bool.and_eq_true_iff.mp h).2 v w he
  | .result t e, h, .ok v, .err w, he => by cases he
  | .result t e, h, .err v, .ok w, he => by cases he
  | .bound t, h, .included v, .included w, he => Ty.equals_symm t h v w he
  | .bound t, h, .excluded v, .excluded w, he => Ty.equals_symm t h v w he
  | .bound t, h, .unbounded, .unbounded, he => rfl
  | .bound t, h, .included v, .excluded w, he => by cases he
  | .bound t, h, .included v, .unbounded, he => by cases he
  | .bound t, h, .excluded v, .included w, he => by cases he
  | .bound t, h, .excluded v, .unbounded, he => by cases he
  | .bound t, h, .unbounded, .included w, he => by cases he
  | .bound t, h, .unbounded, .excluded w, he => by cases he
  | .range t, h, ⟨a, b⟩, ⟨a', b'⟩, he => by
    have he := Bool.and_eq_true_iff.mp he
    exact Bool.and_eq_true_iff.mpr ⟨Ty.equals_symm t h _ _ he.1, Ty.equals_symm t h _ _ he.2⟩
  | .rangeInclusive t, h, ⟨a, b, c⟩, ⟨a', b', c'⟩, he => by
    have he := Bool.and_eq_true_iff.mp he
    have he := And.intro (Bool.and_eq_true_iff.mp he.1) he.2
    exact Bool.and_eq_true_iff.mpr ⟨Bool.and_eq_true_iff.mpr ⟨Ty.equals_symm t h _ _ he.1.1,
      Ty.equals_symm t h _ _ he.1.2⟩, beq_iff_eq.mpr (eq_of_beq he.2).symm⟩
  | .lock _ _, _, _, _, he => by cases he
  | .refCell t, h, ⟨a, b⟩, ⟨a', b'⟩, he => by
    have he := Bool.and_eq_true_iff.mp he
    have he := And.intro (Bool.and_eq_true_iff.mp he.1) he.2
    exact Bool.and_eq_true_iff.mpr ⟨Bool.and_eq_true_iff.mpr ⟨he.1.2, he.1.1⟩,
      Ty.equals_symm t h _ _ he.2⟩
  | .sizedSlice t _, h, v, w, he => listEquals_symm (Ty.equals_symm t h) he
  | .tuple fs, h, v, w, he => Fields.equals_symm fs h v w he
  | .struct fs, h, v, w, he => Fields.equals_symm fs h v w he
  | .enum r vs, h, v, w, he => Variants.equals_symm vs h v w he

/-- See `Ty.equals_symm`. -/
theorem Fields.equals_symm : (fs : Fields) → fs.hasEq = true → (v w : fs.Val) → fs.equals v w = true →
    fs.equals w v = true
  | .nil, _, _, _, _ => rfl
  | .cons t fs, h, (a, b), (a', b'), he => by
    have h := Bool.and_eq_true_iff.mp h
    have he := Bool.and_eq_true_iff.mp he
    exact Bool.and_eq_true_iff.mpr ⟨Ty.equals_symm t h.1 _ _ he.1, Fields.equals_symm fs h.2 b b' he.2⟩

/-- See `Ty.equals_symm`. -/
theorem Variants.equals_symm : (vs : Variants) → vs.hasEq = true → (v w : vs.Val) →
    vs.equals v w = true → vs.equals w v = true
  | .nil, _, v, _, _ => nomatch v
  | .cons _ fs vs, h, .inl v, .inl w, he => Fields.equals_symm fs (Bool.and_eq_true_iff.mp h).1 v w he
  | .cons _ fs vs, h, .inr v, .inr w, he => Variants.equals_symm vs (Bool.and_eq_true_iff.mp h).2 v w he
  | .cons _ fs vs, h, .inl v, .inr w, he => by cases he
  | .cons _ fs vs, h, .inr v, .inl w, he => by cases he

end

mutual

/-- `==` is transitive. -/
theorem Ty.equals_trans : (t : Ty) → (u v w : t.Val) → t.equals u v = true → t.equals v w = true →
    t.equals u w = true
  | .num (.int _), u, v, w, h1, h2 => Ty.equals_eq (.num (.int _)) ⟨id, id⟩ u v h1 ▸ h2
  | .num .f32, u, v, w, h1, h2 => floatEquals_trans h1 h2
  | .num .f64, u, v, w, h1, h2 => floatEquals_trans h1 h2
  | .bool, u, v, w, h1, h2 => Ty.equals_eq .bool ⟨id, id⟩ u v h1 ▸ h2
  | .char, u, v, w, h1, h2 => Ty.equals_eq .char ⟨id, id⟩ u v h1 ▸ h2
  | .usize, u, v, w, h1, h2 => Ty.equals_eq .usize ⟨id, id⟩ u v h1 ▸ h2
  | .isize, u, v, w, h1, h2 => Ty.equals_eq .isize ⟨id, id⟩ u v h1 ▸ h2
  | .nonZero r, u, v, w, h1, h2 => Ty.equals_eq (.nonZero r) ⟨id, id⟩ u v h1 ▸ h2
  | .duration, u, v, w, h1, h2 => Ty.equals_eq .duration ⟨id, id⟩ u v h1 ▸ h2
  | .systemTime p, u, v, w, h1, h2 => Ty.equals_eq (.systemTime p) ⟨id, id⟩ u v h1 ▸ h2
  | .ipv4, u, v, w, h1, h2 => Ty.equals_eq .ipv4 ⟨id, id⟩ u v h1 ▸ h2
  | .ipv6, u, v, w, h1, h2 => Ty.equals_eq .ipv6 ⟨id, id⟩ u v h1 ▸ h2
  | .ipAddr, u, v, w, h1, h2 => Ty.equals_eq .ipAddr ⟨id, id⟩ u v h1 ▸ h2
  | .socketAddrV4, u, v, w, h1, h2 => Ty.equals_eq .socketAddrV4 ⟨id, id⟩ u v h1 ▸ h2
  | .socketAddrV6, u, v, w, h1, h2 => Ty.equals_eq .socketAddrV6 ⟨id, id⟩ u v h1 ▸ h2
  | .socketAddr, u, v, w, h1, h2 => Ty.equals_eq .socketAddr ⟨id, id⟩ u v h1 ▸ h2
  | .str k, u, v, w, h1, h2 => Ty.equals_eq (.str k) ⟨id, id⟩ u v h1 ▸ h2
  | .cStr k, u, v, w, h1, h2 => Ty.equals_eq (.cStr k) ⟨id, id⟩ u v h1 ▸ h2
  | .sizedStr n, u, v, w, h1, h2 => Ty.equals_eq (.sizedStr n) ⟨id, id⟩ u v h1 ▸ h2
  | .unit _, _, _, _, _, _ => rfl
  | .infallible, v, _, _, _, _ => nomatch v
  | .wrap _ t, u, v, w, h1, h2 => Ty.equals_trans t u v w h1 h2
  | .array t _, u, v, w, h1, h2 => listEquals_trans (Ty.equals_trans t) h1 h2
  | .seq _ t, u, v, w, h1, h2 => listEquals_trans (Ty.equals_trans t) h1 h2
  | .hashMap k v, _, _, _, h1, h2 => mapEquals_trans (Ty.equals_trans k) (Ty.equals_trans v) h1 h2
  | .hashSet k, _, _, _, h1, h2 => setEquals_trans (Ty.equals_trans k) h1 h2
  | .option t, none, none, none, _, _ => rfl
  | .option t, some u, some v, some w, h1, h2 => Ty.equals_trans t u v w h1 h2
  | .option t, none, some _, _, h1, _ => by cases h1
  | .option t, some _, none, _, h1, _ => by cases h1
  | .option t, _, none, some _, _, h2 => by cases h2
  | .option t, _, some _, none, _, h2 => by cases h2
  | .result t e, .ok u, .ok v, .ok w, h1, h2 => Ty.equals_trans t u v w h1 h2
  | .result t e, .err u, .err v, .err w, h1, h2 => Ty.equals_trans e u v w h1 h2
  | .result t e, .ok _, .err _, _, h1, _ => by cases h1
  | .result t e, .err _, .ok _, _, h1, _ => by cases h1
  | .result t e, _, .ok _, .err _, _, h2 => by cases h2
  | .result t e, _, .err _, .ok _, _, h2 => by cases h2
  | .bound t, .included u, .included v, .included w, h1, h2 => Ty.equals_trans t u v w h1 h2
  | .bound t, .excluded u, .excluded v, .excluded w, h1, h2 => Ty.equals_trans t u v w h1 h2
  | .bound t, .unbounded, .unbounded, .unbounded, _, _ => rfl
  | .bound t, .included _, .excluded _, _, h1, _ => by cases h1
  | .bound t, .included _, .unbounded, _, h1, _ => by cases h1
  | .bound t, .excluded _, .included _, _, h1, _ => by cases h1
  | .bound t, .excluded _, .unbounded, _, h1, _ => by cases h1
  | .bound t, .unbounded, .included _, _, h1, _ => by cases h1
  | .bound t, .unbounded, .excluded _, _, h1, _ => by cases h1
  | .bound t, _, .included _, .excluded _, _, h2 => by cases h2
  | .bound t, _, .included _, .unbounded, _, h2 => by cases h2
  | .bound t, _, .excluded _, .included _, _, h2 => by cases h2
  | .bound t, _, .excluded _, .unbounded, _, h2 => by cases h2
  | .bound t, _, .unbounded, .included _, _, h2 => by cases h2
  | .bound t, _, .unbounded, .excluded _, _, h2 => by cases h2
  | .range t, u, v, w, h1, h2 => by
    have h1 := Bool.and_eq_true_iff.mp h1
    have h2 := Bool.and_eq_true_iff.mp h2
    exact Bool.and_eq_true_iff.mpr ⟨Ty.equals_trans t _ _ _ h1.1 h2.1, Ty.equals_trans t _ _ _ h1.2 h2.2⟩
  | .rangeInclusive t, u, v, w, h1, h2 => by
    have h1 := Bool.and_eq_true_iff.mp h1
    have h1 := And.intro (Bool.and_eq_true_iff.mp h1.1) h1.2
    have h2 := Bool.and_eq_true_iff.mp h2
    have h2 := And.intro (Bool.and_eq_true_iff.mp h2.1) h2.2
    exact Bool.and_eq_true_iff.mpr ⟨Bool.and_eq_true_iff.mpr ⟨Ty.equals_trans t _ _ _ h1.1.1 h2.1.1,
      Ty.equals_trans t _ _ _ h1.1.2 h2.1.2⟩, beq_iff_eq.mpr ((eq_of_beq h1.2).trans (eq_of_beq h2.2))⟩
  | .lock _ _, _, _, _, h1, _ => by cases h1
  | .refCell t, u, v, w, h1, h2 => by
    have h1 := Bool.and_eq_true_iff.mp h1
    have h1 := And.intro (Bool.and_eq_true_iff.mp h1.1) h1.2
    have h2 := Bool.and_eq_true_iff.mp h2
    have h2 := And.intro (Bool.and_eq_true_iff.mp h2.1) h2.2
    exact Bool.and_eq_true_iff.mpr ⟨Bool.and_eq_true_iff.mpr ⟨h1.1.1, h2.1.2⟩,
      Ty.equals_trans t _ _ _ h1.2 h2.2⟩
  | .sizedSlice t _, u, v, w, h1, h2 => listEquals_trans (Ty.equals_trans t) h1 h2
  | .tuple fs, u, v, w, h1, h2 => Fields.equals_trans fs u v w h1 h2
  | .struct fs, u, v, w, h1, h2 => Fields.equals_trans fs u v w h1 h2
  | .enum r vs, u, v, w, h1, h2 => Variants.equals_trans vs u v w h1 h2

/-- See `Ty.equals_trans`. -/
theorem Fields.equals_trans : (fs : Fields) → (u v w : fs.Val) → fs.equals u v = true →
    fs.equals v w = true → fs.equals u w = true
  | .nil, _, _, _, _, _ => rfl
  | .cons t fs, u, v, w, h1, h2 => by
    have h1 := Bool.and_eq_true_iff.mp h1
    have h2 := Bool.and_eq_true_iff.mp h2
    exact Bool.and_eq_true_iff.mpr ⟨Ty.equals_trans t _ _ _ h1.1 h2.1,
      Fields.equals_trans fs _ _ _ h1.2 h2.2⟩

/-- See `Ty.equals_trans`. -/
theorem Variants.equals_trans : (vs : Variants) → (u v w : vs.Val) → vs.equals u v = true →
    vs.equals v w = true → vs.equals u w = true
  | .nil, v, _, _, _, _ => nomatch v
  | .cons _ fs vs, .inl u, .inl v, .inl w, h1, h2 => Fields.equals_trans fs u v w h1 h2
  | .cons _ fs vs, .inr u, .inr v, .inr w, h1, h2 => Variants.equals_trans vs u v w h1 h2
  | .cons _ fs vs, .inl _, .inr _, _, h1, _ => by cases h1
  | .cons _ fs vs, .inr _, .inl _, _, h1, _ => by cases h1
  | .cons _ fs vs, _, .inl _, .inr _, _, h2 => by cases h2
  | .cons _ fs vs, _, .inr _, .inl _, _, h2 => by cases h2

end

/-- Not a floating-point number. -/
abbrev NotFloat (t : Ty) : Prop := ¬ IsFloat t

theorem mapEquals_refl {α β : Type} {eqK : α → α → Bool} {eqV : β → β → Bool} {l : List (α × β)}
    (h : ∀ p ∈ l, eqK p.1 p.1 = true ∧ eqV p.2 p.2 = true) : mapEquals eqK eqV l l = true := by
  rw [mapEquals, Bool.and_eq_true, List.all_eq_true]
  exact ⟨beq_self_eq_true _, fun p hp => List.any_eq_true.mpr ⟨p, hp, Bool.and_eq_true_iff.mpr (h p hp)⟩⟩

theorem setEquals_refl {α : Type} {eqK : α → α → Bool} {l : List α}
    (h : ∀ p ∈ l, eqK p p = true) : setEquals eqK l l = true := by
  rw [setEquals, Bool.and_eq_true, List.all_eq_true]
  exact ⟨beq_self_eq_true _, fun p hp => List.any_eq_true.mpr ⟨p, hp, h p hp⟩⟩

mutual

/-- Keys have `==`. -/
theorem Ty.hasEq_of_isKey : (t : Ty) → t.isKey = true → t.hasEq = true
  | .num _, _ => rfl
  | .bool, _ => rfl
  | .char, _ => rfl
  | .usize, _ => rfl
  | .isize, _ => rfl
  | .nonZero r, _ => rfl
  | .duration, _ => rfl
  | .systemTime p, _ => rfl
  | .ipv4, _ => rfl
  | .ipv6, _ => rfl
  | .ipAddr, _ => rfl
  | .socketAddrV4, _ => rfl
  | .socketAddrV6, _ => rfl
  | .socketAddr, _ => rfl
  | .str k, _ => rfl
  | .cStr k, _ => rfl
  | .sizedStr n, _ => rfl
  | .unit _, _ => rfl
  | .infallible, _ => rfl
  | .wrap w t, h => by
    have := fun h' => Ty.hasEq_of_isKey t h'
    cases w <;> first | exact this h | cases h
  | .array t _, h => Ty.hasEq_of_isKey t h
  | .seq _ t, h => Ty.hasEq_of_isKey t h
  | .hashMap _ _, h => by cases h
  | .hashSet _, h => by cases h
  | .option t, h => Ty.hasEq_of_isKey t h
  | .result t e, h => Bool.and_eq_true_iff.mpr ⟨Ty.hasEq_of_isKey t (Bool.and_eq_true_iff.mp h).1,
      Ty.hasEq_of_isKey e (Bool.and_eq_true_iff.mp h).2⟩
  | .bound t, h => Ty.hasEq_of_isKey t h
  | .range t, h => Ty.hasEq_of_isKey t h
  | .rangeInclusive t, h => Ty.hasEq_of_isKey t h
  | .lock _ _, h => by cases h
  | .refCell _, h => by cases h
  | .sizedSlice t _, h => Ty.hasEq_of_isKey t h
  | .tuple fs, h => Fields.hasEq_of_isKey fs h
  | .struct fs, h => Fields.hasEq_of_isKey fs h
  | .enum _ vs, h => Variants.hasEq_of_isKey vs h

/-- See `Ty.hasEq_of_isKey`. -/
theorem Fields.hasEq_of_isKey : (fs : Fields) → fs.isKey = true → fs.hasEq = true
  | .nil, _ => rfl
  | .cons t fs, h => Bool.and_eq_true_iff.mpr ⟨Ty.hasEq_of_isKey t (Bool.and_eq_true_iff.mp h).1,
      Fields.hasEq_of_isKey fs (Bool.and_eq_true_iff.mp h).2⟩

/-- See `Ty.hasEq_of_isKey`. -/
theorem Variants.hasEq_of_isKey : (vs : Variants) → vs.isKey = true → vs.hasEq = true
  | .nil, _ => rfl
  | .cons _ fs vs, h => Bool.and_eq_true_iff.mpr ⟨Fields.hasEq_of_isKey fs (Bool.and_eq_true_iff.mp h).1,
      Variants.hasEq_of_isKey vs (Bool.and_eq_true_iff.mp h).2⟩

end

mutual

/-- `==` is reflexive, but for floats and borrowed cells. -/
theorem Ty.equals_refl : (t : Ty) → t.hasEq = true → Everywhere NotFloat t → (v : t.Val) →
    Encodable t v → t.equals v v = true
  | .num (.int _), _, _, v, _ => beq_self_eq_true (α := Nat) _
  | .num .f32, _, h, _, _ => absurd trivial h
  | .num .f64, _, h, _, _ => absurd trivial h
  | .bool, _, _, v, _ => beq_self_eq_true (α := Bool) v
  | .char, _, _, v, _ => beq_self_eq_true (α := Char) v
  | .usize, _, _, v, _ => beq_self_eq_true (α := Nat) v
  | .isize, _, _, v, _ => beq_self_eq_true (α := Int) v
  | .nonZero r, _, _, v, _ => beq_self_eq_true v.val
  | .duration, _, _, v, _ => Bool.and_eq_true_iff.mpr ⟨beq_self_eq_true v.secs, beq_self_eq_true v.nanos⟩
  | .systemTime p, _, _, v, _ => beq_self_eq_true v.val
  | .ipv4, _, _, v, _ => beq_self_eq_true v.val
  | .ipv6, _, _, v, _ => beq_self_eq_true v.val
  | .ipAddr, _, _, v, _ => decide_eq_true rfl
  | .socketAddrV4, _, _, v, _ => decide_eq_true rfl
  | .socketAddrV6, _, _, v, _ => decide_eq_true rfl
  | .socketAddr, _, _, v, _ => decide_eq_true rfl
  | .str k, _, _, v, _ => beq_self_eq_true v.val
  | .cStr k, _, _, v, _ => beq_self_eq_true v.val
  | .sizedStr n, _, _, v, _ => beq_self_eq_true v.val
  | .unit _, _, _, _, _ => rfl
  | .infallible, _, _, v, _ => nomatch v
  | .wrap k t, h, hf, v, he =>
    Ty.equals_refl t (by cases k <;> first | exact h | cases h) hf.2 v he
  | .array t _, h, hf, v, he => listEquals_refl fun x hx => Ty.equals_refl t h hf.2 x (he x hx)
  | .seq _ t, h, hf, v, he => listEquals_refl fun x hx => Ty.equals_refl t h hf.2 x (he.2 x hx)
  | .hashMap k v, h, hf, m, he => mapEquals_refl fun p hp =>
    ⟨Ty.equals_refl k (Ty.hasEq_of_isKey k (Bool.and_eq_true_iff.mp h).1) hf.2.1 _ (he p hp).1,
      Ty.equals_refl v (Bool.and_eq_true_iff.mp h).2 hf.2.2 _ (he p hp).2⟩
  | .hashSet k, h, hf, m, he => setEquals_refl fun p hp =>
    Ty.equals_refl k (Ty.hasEq_of_isKey k h) hf.2 _ (he p hp)
  | .option t, h, hf, none, _ => rfl
  | .option t, h, hf, some v, he => Ty.equals_refl t h hf.2 v he
  | .result t e, h, hf, .ok v, he => Ty.equals_refl t (Bool.and_eq_true_iff.mp h).1 hf.2.1 v he
  | .result t e, h, hf, .err v, he => Ty.equals_refl e (Bool.and_eq_true_iff.mp h).2 hf.2.2 v he
  | .bound t, h, hf, .included v, he => Ty.equals_refl t h hf.2 v he
  | .bound t, h, hf, .excluded v, he => Ty.equals_refl t h hf.2 v he
  | .bound t, h, hf, .unbounded, he => rfl
  | .range t, h, hf, v, he =>
    Bool.and_eq_true_iff.mpr ⟨Ty.equals_refl t h hf.2 _ he.1, Ty.equals_refl t h hf.2 _ he.2⟩
  | .rangeInclusive t, h, hf, v, he =>
    Bool.and_eq_true_iff.mpr ⟨Bool.and_eq_true_iff.mpr ⟨Ty.equals_refl t h hf.2 _ he.1,
      Ty.equals_refl t h hf.2 _ he.2⟩, beq_self_eq_true v.exhausted⟩
  | .lock _ _, h, _, _, _ => by cases h
  | .refCell t, h, hf, ⟨a, b⟩, he => by
    have h1 : a = false := he.1
    subst h1
    exact Bool.and_eq_true_iff.mpr ⟨rfl, Ty.equals_refl t h hf.2 b he.2⟩
  | .sizedSlice t _, h, hf, v, he => listEquals_refl fun x hx => Ty.equals_refl t h hf.2 x (he.2 x hx)
  | .tuple fs, h, hf, v, he => Fields.equals_refl fs h hf.2 v he
  | .struct fs, h, hf, v, he => Fields.equals_refl fs h hf.2 v he
  | .enum r vs, h, hf, v, he => Variants.equals_refl vs h hf.2 _ _ _ v he

/-- See `Ty.equals_refl`. -/
theorem Fields.equals_refl : (fs : Fields) → fs.hasEq = true → EverywhereFields NotFloat fs →
    (v : fs.Val) → EncodableFields fs v → fs.equals v v = true
  | .nil, _, _, _, _ => rfl
  | .cons t fs, h, hf, v, he => by
    have h := Bool.and_eq_true_iff.mp h
    exact Bool.and_eq_true_iff.mpr ⟨Ty.equals_refl t h.1 hf.1 _ he.1, Fields.equals_refl fs h.2 hf.2 _ he.2⟩

/-- See `Ty.equals_refl`. -/
theorem Variants.equals_refl : (vs : Variants) → vs.hasEq = true → EverywhereVariants NotFloat vs →
    (r : Repr) → (ex : List (Option Nat)) → (j : Nat) → (v : vs.Val) → EncodableVariants r ex vs j v →
    vs.equals v v = true
  | .nil, _, _, _, _, _, v, _ => nomatch v
  | .cons _ fs vs, h, hf, r, ex, j, .inl v, he =>
    Fields.equals_refl fs (Bool.and_eq_true_iff.mp h).1 hf.1 v he.2
  | .cons _ fs vs, h, hf, r, ex, j, .inr v, he =>
    Variants.equals_refl vs (Bool.and_eq_true_iff.mp h).2 hf.2 r ex (j + 1) v he

end

mutual

/-- What `Ty.isKey` says. -/
theorem Ty.isKey_iff : (t : Ty) → (t.isKey = true ↔ Everywhere (fun t => ¬ IsNoKey t) t)
  | .bool => ⟨fun _ => id, fun _ => rfl⟩
  | .char => ⟨fun _ => id, fun _ => rfl⟩
  | .usize => ⟨fun _ => id, fun _ => rfl⟩
  | .isize => ⟨fun _ => id, fun _ => rfl⟩
  | .nonZero _ => ⟨fun _ => id, fun _ => rfl⟩
  | .unit _ => ⟨fun _ => id, fun _ => rfl⟩
  | .infallible => ⟨fun _ => id, fun _ => rfl⟩
  | .duration => ⟨fun _ => id, fun _ => rfl⟩
  | .systemTime _ => ⟨fun _ => id, fun _ => rfl⟩
  | .ipv4 => ⟨fun _ => id, fun _ => rfl⟩
  | .ipv6 => ⟨fun _ => id, fun _ => rfl⟩
  | .ipAddr => ⟨fun _ => id, fun _ => rfl⟩
  | .socketAddrV4 => ⟨fun _ => id, fun _ => rfl⟩
  | .socketAddrV6 => ⟨fun _ => id, fun _ => rfl⟩
  | .socketAddr => ⟨fun _ => id, fun _ => rfl⟩
  | .str _ => ⟨fun _ => id, fun _ => rfl⟩
  | .cStr _ => ⟨fun _ => id, fun _ => rfl⟩
  | .sizedStr _ => ⟨fun _ => id, fun _ => rfl⟩
  | .array t _ => (Ty.isKey_iff t).trans ⟨fun h => ⟨id, h⟩, And.right⟩
  | .seq _ t => (Ty.isKey_iff t).trans ⟨fun h => ⟨id, h⟩, And.right⟩
  | .option t => (Ty.isKey_iff t).trans ⟨fun h => ⟨id, h⟩, And.right⟩
  | .bound t => (Ty.isKey_iff t).trans ⟨fun h => ⟨id, h⟩, And.right⟩
  | .range t => (Ty.isKey_iff t).trans ⟨fun h => ⟨id, h⟩, And.right⟩
  | .rangeInclusive t => (Ty.isKey_iff t).trans ⟨fun h => ⟨id, h⟩, And.right⟩
  | .sizedSlice t _ => (Ty.isKey_iff t).trans ⟨fun h => ⟨id, h⟩, And.right⟩
  | .num (.int _) => ⟨fun _ => id, fun _ => rfl⟩
  | .num .f32 => ⟨(fun h => nomatch h), fun h => absurd trivial h⟩
  | .num .f64 => ⟨(fun h => nomatch h), fun h => absurd trivial h⟩
  | .hashMap _ _ => ⟨(fun h => nomatch h), fun h => absurd trivial h.1⟩
  | .hashSet _ => ⟨(fun h => nomatch h), fun h => absurd trivial h.1⟩
  | .lock _ _ => ⟨(fun h => nomatch h), fun h => absurd trivial h.1⟩
  | .refCell _ => ⟨(fun h => nomatch h), fun h => absurd trivial h.1⟩
  | .wrap w t => by
    have ih := Ty.isKey_iff t
    cases w <;> first | exact ih.trans ⟨fun h => ⟨id, h⟩, And.right⟩ | exact ⟨(fun h => nomatch h), fun h => absurd trivial h.1⟩
  | .result t e => by
    rw [Ty.isKey, Bool.and_eq_true, Ty.isKey_iff t, Ty.isKey_iff e]
    exact ⟨fun h => ⟨id, h⟩, And.right⟩
  | .tuple fs => (Fields.isKey_iff fs).trans ⟨fun h => ⟨id, h⟩, And.right⟩
  | .struct fs => (Fields.isKey_iff fs).trans ⟨fun h => ⟨id, h⟩, And.right⟩
  | .enum _ vs => (Variants.isKey_iff vs).trans ⟨fun h => ⟨id, h⟩, And.right⟩

/-- See `Ty.isKey_iff`. -/
theorem Fields.isKey_iff : (fs : Fields) →
    (fs.isKey = true ↔ EverywhereFields (fun t => ¬ IsNoKey t) fs)
  | .nil => ⟨fun _ => trivial, fun _ => rfl⟩
  | .cons t fs => by
    rw [Fields.isKey, Bool.and_eq_true, Ty.isKey_iff t, Fields.isKey_iff fs]
    exact .rfl

/-- See `Ty.isKey_iff`. -/
theorem Variants.isKey_iff : (vs : Variants) →
    (vs.isKey = true ↔ EverywhereVariants (fun t => ¬ IsNoKey t) vs)
  | .nil => ⟨fun _ => trivial, fun _ => rfl⟩
  | .cons _ fs vs => by
    rw [Variants.isKey, Bool.and_eq_true, Fields.isKey_iff fs, Variants.isKey_iff vs]
    exact .rfl

end

mutual

/-- What `Ty.hasEq` says. -/
theorem Ty.hasEq_iff : (t : Ty) → (t.hasEq = true ↔ Everywhere (fun t => ¬ IsNoEq t) t)
  | .bool => ⟨fun _ => id, fun _ => rfl⟩
  | .char => ⟨fun _ => id, fun _ => rfl⟩
  | .usize => ⟨fun _ => id, fun _ => rfl⟩
  | .isize => ⟨fun _ => id, fun _ => rfl⟩
  | .nonZero _ => ⟨fun _ => id, fun _ => rfl⟩
  | .unit _ => ⟨fun _ => id, fun _ => rfl⟩
  | .infallible => ⟨fun _ => id, fun _ => rfl⟩
  | .duration => ⟨fun _ => id, fun _ => rfl⟩
  | .systemTime _ => ⟨fun _ => id, fun _ => rfl⟩
  | .ipv4 => ⟨fun _ => id, fun _ => rfl⟩
  | .ipv6 => ⟨fun _ => id, fun _ => rfl⟩
  | .ipAddr => ⟨fun _ => id, fun _ => rfl⟩
  | .socketAddrV4 => ⟨fun _ => id, fun _ => rfl⟩
  | .socketAddrV6 => ⟨fun _ => id, fun _ => rfl⟩
  | .socketAddr => ⟨fun _ => id, fun _ => rfl⟩
  | .str _ => ⟨fun _ => id, fun _ => rfl⟩
  | .cStr _ => ⟨fun _ => id, fun _ => rfl⟩
  | .sizedStr _ => ⟨fun _ => id, fun _ => rfl⟩
  | .array t _ => (Ty.hasEq_iff t).trans ⟨fun h => ⟨id, h⟩, And.right⟩
  | .seq _ t => (Ty.hasEq_iff t).trans ⟨fun h => ⟨id, h⟩, And.right⟩
  | .option t => (Ty.hasEq_iff t).trans ⟨fun h => ⟨id, h⟩, And.right⟩
  | .bound t => (Ty.hasEq_iff t).trans ⟨fun h => ⟨id, h⟩, And.right⟩
  | .range t => (Ty.hasEq_iff t).trans ⟨fun h => ⟨id, h⟩, And.right⟩
  | .rangeInclusive t => (Ty.hasEq_iff t).trans ⟨fun h => ⟨id, h⟩, And.right⟩
  | .sizedSlice t _ => (Ty.hasEq_iff t).trans ⟨fun h => ⟨id, h⟩, And.right⟩
  | .num _ => ⟨fun _ => id, fun _ => rfl⟩
  | .refCell t => (Ty.hasEq_iff t).trans ⟨fun h => ⟨id, h⟩, And.right⟩
  | .lock _ _ => ⟨(fun h => nomatch h), fun h => absurd trivial h.1⟩
  | .wrap w t => by
    have ih := Ty.hasEq_iff t
    cases w <;> first | exact ih.trans ⟨fun h => ⟨id, h⟩, And.right⟩ | exact ⟨(fun h => nomatch h), fun h => absurd trivial h.1⟩
  | .hashMap k v => by
    rw [Ty.hasEq, Bool.and_eq_true, Ty.hasEq_iff v]
    constructor
    · rintro ⟨h1, h2⟩
      exact ⟨fun h => h ((Ty.isKey_iff k).mp h1), (Ty.hasEq_iff k).mp (Ty.hasEq_of_isKey k h1), h2⟩
    · rintro ⟨h1, _, h2⟩
      exact ⟨(Ty.isKey_iff k).mpr (Classical.not_not.mp h1), h2⟩
  | .hashSet k => by
    rw [Ty.hasEq]
    constructor
    · intro h1
      exact ⟨fun h => h ((Ty.isKey_iff k).mp h1), (Ty.hasEq_iff k).mp (Ty.hasEq_of_isKey k h1)⟩
    · rintro ⟨h1, _⟩
      exact (Ty.isKey_iff k).mpr (Classical.not_not.mp h1)
  | .result t e => by
    rw [Ty.hasEq, Bool.and_eq_true, Ty.hasEq_iff t, Ty.hasEq_iff e]
    exact ⟨fun h => ⟨id, h⟩, And.right⟩
  | .tuple fs => (Fields.hasEq_iff fs).trans ⟨fun h => ⟨id, h⟩, And.right⟩
  | .struct fs => (Fields.hasEq_iff fs).trans ⟨fun h => ⟨id, h⟩, And.right⟩
  | .enum _ vs => (Variants.hasEq_iff vs).trans ⟨fun h => ⟨id, h⟩, And.right⟩

/-- See `Ty.hasEq_iff`. -/
theorem Fields.hasEq_iff : (fs : Fields) →
    (fs.hasEq = true ↔ EverywhereFields (fun t => ¬ IsNoEq t) fs)
  | .nil => ⟨fun _ => trivial, fun _ => rfl⟩
  | .cons t fs => by
    rw [Fields.hasEq, Bool.and_eq_true, Ty.hasEq_iff t, Fields.hasEq_iff fs]
    exact .rfl

/-- See `Ty.hasEq_iff`. -/
theorem Variants.hasEq_iff : (vs : Variants) →
    (vs.hasEq = true ↔ EverywhereVariants (fun t => ¬ IsNoEq t) vs)
  | .nil => ⟨fun _ => trivial, fun _ => rfl⟩
  | .cons _ fs vs => by
    rw [Variants.hasEq, Bool.and_eq_true, Fields.hasEq_iff fs, Variants.hasEq_iff vs]
    exact .rfl

end

end Oct
