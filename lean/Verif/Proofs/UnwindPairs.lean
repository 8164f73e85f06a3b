import Verif.Proofs.UnwindMap
/-
What a hash map or set consists of once it has been decoded, by code that may do anything.
-/
namespace Oct

/-- If the code comes to its end, it has made so many items, and the result is such. -/
def Makes {α : Type} (n : α → Nat) (P : α → Prop) (m : Act α) : Prop :=
  ∀ s a s', m s = (.ok a, s') → P a ∧ s'.fresh = s.fresh + n a

namespace Makes
variable {α β : Type}

theorem bind {n : α → Nat} {P : α → Prop} {k : β → Nat} {Q : β → Prop} {m : Act α} {f : α → Act β}
    (hm : Makes n P m) (hf : ∀ a, P a → ∀ s b s', f a s = (.ok b, s') → Q b ∧ s'.fresh + n a = s.fresh + k b) :
    Makes k Q (m >>= f) := by
  intro s b s' h
  have h : Act.bind m f s = (.ok b, s') := h
  unfold Act.bind at h
  split at h
  · rename_i a s₁ e
    obtain ⟨hp, e1⟩ := hm s a s₁ e
    obtain ⟨hq, e2⟩ := hf a hp s₁ b s' h
    exact ⟨hq, by omega⟩
  · cases h
  · cases h
  · cases h

theorem pure {P : α → Prop} {a : α} (h : P a) : Makes (fun _ => 0) P (Pure.pure a : Act α) := by
  intro s b s' e
  cases e
  exact ⟨h, rfl⟩

theorem guard {n : α → Nat} {P : α → Prop} {m : Act α} {c : Act Unit} (h : Makes n P m) :
    Makes n P (m.guard c) := by
  intro s a s' e
  unfold Act.guard at e
  split at e
  · split at e <;> cases e
  · exact h s a s' e

theorem andThen {P : α → Prop} {k : β → Nat} {Q : β → Prop} {m : Act α} {f : α → Act β}
    (hm : Makes (fun _ => 0) P m) (hf : ∀ a, P a → Makes k Q (f a)) : Makes k Q (m >>= f) :=
  hm.bind fun a ha s b s' h => by
    have := hf a ha s b s' h
    exact ⟨this.1, by omega⟩

theorem weaken {n : α → Nat} {P Q : α → Prop} {m : Act α} (h : Makes n P m) (hq : ∀ a, P a → Q a) : Makes n Q m :=
  fun s a s' e => ⟨hq a (h s a s' e).1, (h s a s' e).2⟩

end Makes

theorem userCall_makes : Makes (fun _ => 0) (fun _ => True) userCall := by
  intro s a s' e
  refine ⟨trivial, ?_⟩
  unfold userCall at e
  split at e <;> cases e <;> rfl

theorem touch_makes (x : Nat) : Makes (fun _ => 0) (fun _ => True) (touch x) := by
  intro s a s' e
  refine ⟨trivial, ?_⟩
  unfold touch at e
  split at e <;> cases e
  rfl

theorem markDropped_makes (x : Nat) : Makes (fun _ => 0) (fun _ => True) (markDropped x) := by
  intro s a s' e
  cases e
  exact ⟨trivial, rfl⟩

theorem userDrop_makes (x : Nat) : Makes (fun _ => 0) (fun _ => True) (userDrop x) :=
  (touch_makes x).andThen fun _ _ => (markDropped_makes x).andThen fun _ _ =>
    userCall_makes.andThen fun _ _ => Makes.pure trivial

theorem quietDrop_makes (x : Nat) : Makes (fun _ => 0) (fun _ => True) (quietDrop x) :=
  (touch_makes x).andThen fun _ _ => markDropped_makes x

section
variable {d : Nat → Act Unit} (hd : ∀ x, Makes (fun _ => 0) (fun _ => True) (d x))
include hd

theorem glueWith_makes : ∀ xs : List Nat, Makes (fun _ => 0) (fun _ => True) (glueWith d xs)
  | [] => Makes.pure trivial
  | x :: xs => (hd x).guard.andThen fun _ _ => glueWith_makes xs

theorem dropSlots_makes : ∀ m : List TableSlot, Makes (fun _ => 0) (fun _ => True) (dropSlots d m)
  | [] => Makes.pure trivial
  | e :: es => (glueWith_makes hd e.items).andThen fun _ _ => dropSlots_makes es

theorem dropTable_makes (T : TableOf) (m : List TableSlot) : Makes (fun _ => 0) (fun _ => True) (dropTable T d m) := by
  unfold dropTable
  split
  · exact dropSlots_makes hd _
  · exact glueWith_makes hd _

end

theorem findEqual_makes (k : Nat) (m : List TableSlot) : ∀ is : List Nat,
    Makes (fun _ => 0) (fun r => ∀ i, r = some i → i < m.length) (findEqual k m is)
  | [] => Makes.pure fun _ h => nomatch h
  | i :: is => by
    unfold findEqual
    split
    · exact findEqual_makes k m is
    · rename_i e he
      refine (touch_makes k).andThen fun _ _ => (touch_makes e.key).andThen fun _ _ =>
        userCall_makes.andThen fun b _ => ?_
      cases b with
      | true =>
        refine Makes.pure fun j hj => ?_
        cases hj
        exact (List.getElem?_eq_some_iff.mp he).1
      | false => exact findEqual_makes k m is

theorem userDecode_makes : Makes (fun r => if r = none then 0 else 1) (fun _ => True) userDecode := by
  refine userCall_makes.andThen fun b _ => ?_
  cases b with
  | true =>
    intro s a s' e
    cases e
    exact ⟨trivial, rfl⟩
  | false =>
    intro s a s' e
    cases e
    exact ⟨trivial, rfl⟩

theorem decodeOne_makes (pairs : Bool) :
    Makes (fun r : Option (List Nat) => (r.getD []).length)
      (fun r => ∀ v, r = some v → v.length = if pairs then 1 else 0) (decodeOne pairs) := by
  cases pairs with
  | false =>
    intro s a s' e
    cases e
    exact ⟨fun v hv => by cases hv; rfl, rfl⟩
  | true =>
    refine userDecode_makes.bind fun r _ s b s' h => ?_
    cases r with
    | none =>
      cases h
      exact ⟨fun _ hv => (nomatch hv), rfl⟩
    | some x =>
      cases h
      exact ⟨fun v hv => by cases hv; rfl, rfl⟩

/-- Tables of this kind: with so many values to each key. -/
def Even (c : Nat) (m : List TableSlot) : Prop := ∀ e ∈ m, e.value.length = c

theorem Even.replaceAt {c : Nat} {m : List TableSlot} (h : Even c m) {v : List Nat} (hv : v.length = c) (i : Nat) :
    Even c (replaceAt m i v) := by
  intro e he
  rw [Oct.replaceAt] at he
  obtain ⟨j, hj⟩ := List.mem_iff_getElem?.mp he
  rw [List.getElem?_modify] at hj
  cases hm : m[j]? with
  | none => rw [hm] at hj; cases hj
  | some e' =>
    rw [hm] at hj
    have hj := Option.some.inj hj
    simp only at hj
    by_cases hij : i = j
    · rw [if_pos hij] at hj
      rw [← hj]
      exact hv
    · rw [if_neg hij] at hj
      rw [← hj]
      exact h e' (List.mem_of_getElem? hm)

theorem insertSlot_makes (T : TableOf) {d : Nat → Act Unit} (hd : ∀ x, Makes (fun _ => 0) (fun _ => True) (d x))
    (round : Nat) {c : Nat} {m : List TableSlot} (hm : Even c m) (k : Nat) {v : List Nat} (hv : v.length = c) :
    Makes (fun _ => 0) (fun r => Even c r ∧ m.length ≤ r.length ∧ r.length ≤ m.length + 1 ∧ 0 < r.length)
      (insertSlot T d round m k v) := by
  unfold insertSlot
  refine Makes.andThen (Makes.guard ((touch_makes k).andThen fun _ _ => userCall_makes.andThen fun _ _ =>
    findEqual_makes k m (T.candidates round m))) fun r hr => ?_
  cases r with
  | none =>
    refine Makes.pure ⟨?_, by simp, by simp, by simp⟩
    intro e he
    rcases List.mem_append.mp he with he | he
    · exact hm e he
    · rw [List.mem_singleton.mp he]
      exact hv
  | some i =>
    have hi := hr i rfl
    refine (hd k).guard.andThen fun _ _ => (glueWith_makes hd _).guard.andThen fun _ _ =>
      Makes.pure ⟨hm.replaceAt hv i, ?_⟩
    simp only [replaceAt, List.length_modify]
    omega

theorem decodeSlots_makes (T : TableOf) {d : Nat → Act Unit} (hd : ∀ x, Makes (fun _ => 0) (fun _ => True) (d x))
    (pairs : Bool) : ∀ (n : Nat) (m : List TableSlot), Even (if pairs then 1 else 0) m →
    ∀ s m' s', decodeSlots T d pairs n m s = (.ok (some m'), s') →
      (Even (if pairs then 1 else 0) m' ∧ m.length ≤ m'.length ∧ m'.length ≤ m.length + n ∧ (0 < n → 0 < m'.length)) ∧
      s'.fresh = s.fresh + n * (1 + if pairs then 1 else 0)
  | 0, m, hm, s, m', s', h => by
    cases h
    exact ⟨⟨hm, Nat.le_refl _, by omega, fun h => absurd h (by omega)⟩, by omega⟩
  | n + 1, m, hm, s, m', s', h => by
    rw [decodeSlots, bind_eq] at h
    split at h
    · rename_i r s₁ e
      have e1 := ((userDecode_makes.guard) s r s₁ e).2
      cases r with
      | none =>
        simp only at h
        rw [bind_eq] at h
        split at h <;> cases h
      | some k =>
        simp only at h e1
        rw [bind_eq] at h
        split at h
        · rename_i r₂ s₂ e₂
          obtain ⟨p2, f2⟩ := ((decodeOne_makes pairs).guard) s₁ r₂ s₂ e₂
          cases r₂ with
          | none =>
            simp only at h
            rw [bind_eq] at h
            split at h
            · rw [bind_eq] at h
              split at h <;> cases h
            · cases h
            · cases h
            · cases h
          | some v =>
            simp only at h f2
            rw [bind_eq] at h
            split at h
            · rename_i m₃ s₃ e₃
              have hv := p2 v rfl
              obtain ⟨⟨q1, q2, q3, q4⟩, f3⟩ := insertSlot_makes T hd n hm k hv s₂ m₃ s₃ e₃
              obtain ⟨⟨r1, r2, r3, _⟩, f4⟩ := decodeSlots_makes T hd pairs n m₃ q1 s₃ m' s' h
              refine ⟨⟨r1, by omega, by omega, fun _ => by omega⟩, ?_⟩
              simp only [Option.getD_some, reduceCtorEq, if_false] at f2 e1 f3
              rw [f4, f3, f2, e1, hv, Nat.add_mul]
              omega
            · cases h
            · cases h
            · cases h
        · cases h
        · cases h
        · cases h
    · cases h
    · cases h
    · cases h

end Oct
