import Verif.Spec.View
import Verif.Proofs.Utf8
import Verif.Proofs.SizedSlice
/-
Indices and the parts they stand for; boundaries between chars.
-/
namespace Oct
open Spec

theorem means_total (len : Nat) (ix : Ix) : ∃ a b, Means len ix a b := by
  cases ix
  · exact ⟨_, _, .at⟩
  · exact ⟨_, _, .range⟩
  · exact ⟨_, _, .inclusive⟩
  · exact ⟨_, _, .from⟩
  · exact ⟨_, _, .to⟩
  · exact ⟨_, _, .toInclusive⟩
  · exact ⟨_, _, .full⟩

theorem window_means {len : Nat} {ix : Ix} {a b : Nat} (h : Means len ix a b) :
    ix.window len = if a ≤ b ∧ b ≤ len then some (a, b) else none := by
  have key : ∀ (p q : Prop) [Decidable p] [Decidable q] (x : Option (Nat × Nat)), (p ↔ q) →
      (if p then x else none) = if q then x else none := by
    intro p q _ _ x h
    by_cases hp : p
    · rw [if_pos hp, if_pos (h.mp hp)]
    · rw [if_neg hp, if_neg fun hq => hp (h.mpr hq)]
  cases h with
  | full => rw [if_pos (by omega)]; rfl
  | range => rfl
  | inclusive => rfl
  | _ => exact key _ _ _ (by omega)

section
variable {ε α : Type}

theorem isPart_iff {l r : List α} {a b : Nat} :
    IsPart l r a b ↔ a ≤ b ∧ b ≤ l.length ∧ r = (l.drop a).take (b - a) := by
  constructor
  · rintro ⟨p, q, rfl, rfl, rfl⟩
    refine ⟨by simp, by simp, ?_⟩
    rw [List.append_assoc, List.drop_left, List.length_append, Nat.add_sub_cancel_left, List.take_left']
    rfl
  · rintro ⟨h1, h2, rfl⟩
    refine ⟨l.take a, l.drop b, ?_, ?_, ?_⟩
    · have e : l.drop b = (l.drop a).drop (b - a) := by rw [List.drop_drop]; congr 1; omega
      rw [e, List.append_assoc, List.take_append_drop, List.take_append_drop]
    · rw [List.length_take]; omega
    · simp only [List.length_append, List.length_take, List.length_drop]; omega

theorem replaced_mk {l : List α} (data : List α) {a b : Nat} (h1 : a ≤ b) (h2 : b ≤ l.length) :
    Replaced l (l.take a ++ data ++ l.drop b) data a b := by
  refine ⟨l.take a, (l.drop a).take (b - a), l.drop b, ?_, rfl, ?_, ?_⟩
  · have e : l.drop b = (l.drop a).drop (b - a) := by rw [List.drop_drop]; congr 1; omega
    rw [e, List.append_assoc, List.take_append_drop, List.take_append_drop]
  · rw [List.length_take]; omega
  · simp only [List.length_append, List.length_take, List.length_drop]; omega

theorem replaced_eq {l l' data : List α} {a b : Nat} (h : Replaced l l' data a b) :
    l' = l.take a ++ data ++ l.drop b := by
  obtain ⟨p, m, q, rfl, rfl, rfl, rfl⟩ := h
  rw [List.drop_left, List.append_assoc p m q, List.take_left]

theorem getPart_spec (l : List α) (ix : Ix) {a b : Nat} (hm : Means l.length ix a b) :
    (a ≤ b ∧ b ≤ l.length → ∃ r, (getPart l ix : Res ε _) = .ok r ∧ IsPart l r a b) ∧
    (¬ (a ≤ b ∧ b ≤ l.length) → (getPart l ix : Res ε _) = .panic .indexOutOfBounds) := by
  unfold getPart
  rw [window_means hm]
  constructor
  · intro h
    rw [if_pos h]
    exact ⟨_, rfl, isPart_iff.mpr ⟨h.1, h.2, rfl⟩⟩
  · intro h
    rw [if_neg h]

theorem setPart_spec (l : List α) (ix : Ix) (data : List α) {a b : Nat} (hm : Means l.length ix a b) :
    (a ≤ b ∧ b ≤ l.length ∧ data.length = b - a →
      ∃ l', (setPart l ix data : Res ε _) = .ok l' ∧ Replaced l l' data a b) ∧
    (¬ (a ≤ b ∧ b ≤ l.length ∧ data.length = b - a) → ∃ p, (setPart l ix data : Res ε _) = .panic p) := by
  unfold setPart
  rw [window_means hm]
  constructor
  · intro h
    rw [if_pos ⟨h.1, h.2.1⟩]
    simp only
    rw [if_pos h.2.2]
    exact ⟨_, rfl, replaced_mk data h.1 h.2.1⟩
  · intro h
    by_cases hw : a ≤ b ∧ b ≤ l.length
    · rw [if_pos hw]
      simp only
      rw [if_neg fun hl => h ⟨hw.1, hw.2, hl⟩]
      exact ⟨_, rfl⟩
    · rw [if_neg hw]
      exact ⟨_, rfl⟩

theorem replaced_length {l l' data : List α} {a b : Nat} (h : Replaced l l' data a b)
    (hd : data.length = b - a) : l'.length = l.length := by
  obtain ⟨p, m, q, rfl, rfl, rfl, rfl⟩ := h
  simp only [List.length_append] at hd ⊢
  omega

/-- What was assigned is read back. -/
theorem replaced_part {l l' data : List α} {a b : Nat} (h : Replaced l l' data a b)
    (hd : data.length = b - a) : IsPart l' data a b := by
  obtain ⟨p, m, q, rfl, rfl, rfl, rfl⟩ := h
  refine ⟨p, q, rfl, rfl, ?_⟩
  simp only [List.length_append] at hd ⊢
  omega

theorem isPart_unique {l r r' : List α} {a b : Nat} (h : IsPart l r a b) (h' : IsPart l r' a b) :
    r = r' := by
  rw [(isPart_iff.mp h).2.2, (isPart_iff.mp h').2.2]

theorem isPart_take {l r : List α} {a b n : Nat} (h : IsPart l r a b) (hn : b ≤ n) :
    IsPart (l.take n) r a b := by
  obtain ⟨p, q, rfl, rfl, rfl⟩ := h
  refine ⟨p, q.take (n - (p ++ r).length), ?_, rfl, rfl⟩
  rw [List.take_append, List.take_of_length_le hn]

end

namespace Utf8

/-- The octets of a char: one that does not continue a char, then ones that do. -/
theorem encode_shape (c : Char) : ∃ x t, String.utf8EncodeChar c = x :: t ∧
    (x.toNat < 0x80 ∨ 0xC0 ≤ x.toNat ∧ x.toNat < 0xF8) ∧ ∀ y ∈ t, 0x80 ≤ y.toNat ∧ y.toNat < 0xC0 := by
  have hv : c.val.toNat < 0xD800 ∨ (0xDFFF < c.val.toNat ∧ c.val.toNat < 0x110000) := c.valid
  unfold String.utf8EncodeChar
  generalize c.val.toNat = v at hv ⊢
  simp only
  have hk : ∀ x, 0x80 ≤ (UInt8.ofNat (x % 64 + 128)).toNat ∧ (UInt8.ofNat (x % 64 + 128)).toNat < 0xC0 :=
    fun x => by rw [toNat_ofNat_lt _ (by omega)]; omega
  by_cases h1 : v ≤ 0x7f
  · rw [if_pos h1]
    exact ⟨_, _, rfl, by rw [toNat_ofNat_lt _ (by omega)]; omega, by simp⟩
  rw [if_neg h1]
  by_cases h2 : v ≤ 0x7ff
  · rw [if_pos h2]
    refine ⟨_, _, rfl, by rw [toNat_ofNat_lt _ (by omega)]; omega, ?_⟩
    intro y hy
    simp only [List.mem_cons, List.not_mem_nil, or_false] at hy
    rw [hy]; exact hk _
  rw [if_neg h2]
  by_cases h3 : v ≤ 0xffff
  · rw [if_pos h3]
    refine ⟨_, _, rfl, by rw [toNat_ofNat_lt _ (by omega)]; omega, ?_⟩
    intro y hy
    simp only [List.mem_cons, List.not_mem_nil, or_false] at hy
    rcases hy with rfl | rfl <;> exact hk _
  · rw [if_neg h3]
    refine ⟨_, _, rfl, by rw [toNat_ofNat_lt _ (by omega)]; omega, ?_⟩
    intro y hy
    simp only [List.mem_cons, List.not_mem_nil, or_false] at hy
    rcases hy with rfl | rfl | rfl <;> exact hk _

theorem utf8_append (a b : List Char) : utf8 (a ++ b) = utf8 a ++ utf8 b := by simp [utf8]

theorem utf8_cons (c : Char) (cs : List Char) : utf8 (c :: cs) = String.utf8EncodeChar c ++ utf8 cs := by
  simp [utf8]

/-- A boundary is between chars. -/
theorem boundary_split : (cs : List Char) → (i : Nat) → charBoundary (utf8 cs) i = true →
    ∃ c1 c2, cs = c1 ++ c2 ∧ (utf8 c1).length = i
  | [], i, h => by
    unfold charBoundary at h
    by_cases hi : i = 0
    · exact ⟨[], [], rfl, by rw [hi]; rfl⟩
    · rw [if_neg (by simpa [utf8] using hi)] at h
      simp [utf8] at h
  | c :: cs, i, h => by
    by_cases hi : i = 0
    · exact ⟨[], c :: cs, rfl, by rw [hi]; rfl⟩
    · obtain ⟨x, t, hx, -, ht⟩ := encode_shape c
      have hlen : (String.utf8EncodeChar c).length = t.length + 1 := by rw [hx]; rfl
      by_cases hl : i < (String.utf8EncodeChar c).length
      · exfalso
        unfold charBoundary at h
        have hne : i ≠ (utf8 (c :: cs)).length := by
          rw [utf8_cons, List.length_append]; omega
        rw [if_neg (by simp [hi, hne])] at h
        rw [utf8_cons, List.getElem?_append_left hl, hx] at h
        obtain ⟨j, rfl⟩ : ∃ j, i = j + 1 := ⟨i - 1, by omega⟩
        rw [List.getElem?_cons_succ] at h
        have hj : j < t.length := by omega
        rw [List.getElem?_eq_getElem hj] at h
        have := ht _ (List.getElem_mem hj)
        simp only [Bool.or_eq_true, decide_eq_true_eq] at h
        omega
      · have hb : charBoundary (utf8 cs) (i - (String.utf8EncodeChar c).length) = true := by
          unfold charBoundary at h ⊢
          rw [utf8_cons, List.length_append, List.getElem?_append_right (Nat.not_lt.mp hl)] at h
          by_cases h1 : i - (String.utf8EncodeChar c).length = 0
          · rw [if_pos (.inl h1)]
          · by_cases h2 : i - (String.utf8EncodeChar c).length = (utf8 cs).length
            · rw [if_pos (.inr h2)]
            · rw [if_neg (not_or.mpr ⟨h1, h2⟩)]
              rw [if_neg (by omega)] at h
              exact h
        obtain ⟨c1, c2, rfl, h2⟩ := boundary_split cs _ hb
        refine ⟨c :: c1, c2, rfl, ?_⟩
        rw [utf8_cons, List.length_append, h2]
        omega

/-- And the ends of chars are boundaries. -/
theorem boundary_of_split (c1 c2 : List Char) :
    charBoundary (utf8 (c1 ++ c2)) (utf8 c1).length = true := by
  unfold charBoundary
  cases c2 with
  | nil => rw [if_pos (.inr (by simp))]
  | cons c cs =>
    split
    · rfl
    · obtain ⟨x, t, hx, hx', -⟩ := encode_shape c
      rw [utf8_append, utf8_cons, hx]
      rw [List.getElem?_append_right (Nat.le_refl _), Nat.sub_self]
      simp only [List.cons_append, List.getElem?_cons_zero]
      simpa using hx'.imp_right And.left

/-- A text cut at two boundaries. -/
theorem boundaries_split (cs : List Char) (a b : Nat) (h : a ≤ b) (ha : charBoundary (utf8 cs) a = true)
    (hb : charBoundary (utf8 cs) b = true) :
    ∃ c1 c2 c3, cs = c1 ++ c2 ++ c3 ∧ (utf8 c1).length = a ∧ (utf8 (c1 ++ c2)).length = b := by
  obtain ⟨d1, d2, rfl, h2⟩ := boundary_split cs b hb
  have ha' : charBoundary (utf8 d1) a = true := by
    unfold charBoundary at ha ⊢
    rw [utf8_append] at ha
    by_cases h0 : a = 0 ∨ a = (utf8 d1).length
    · rw [if_pos h0]
    · rw [if_neg h0]
      rw [List.getElem?_append_left (by omega), List.length_append] at ha
      rw [if_neg (by omega)] at ha
      exact ha
  obtain ⟨c1, c2, rfl, h4⟩ := boundary_split d1 a ha'
  exact ⟨c1, c2, d2, rfl, h4, h2⟩

/-- No text has the octet 0xFF. -/
theorem no_ff {l : List Byte} (h : IsUtf8 l) : (0xFF : Byte) ∉ l := by
  obtain ⟨cs, rfl⟩ := h
  intro h
  obtain ⟨c, -, hc⟩ := List.mem_flatMap.mp h
  obtain ⟨x, t, e, hx, ht⟩ := encode_shape c
  rw [e] at hc
  have hn : (0xFF : Byte).toNat = 255 := rfl
  rcases List.mem_cons.mp hc with h | h
  · rw [← h, hn] at hx; omega
  · have := ht _ h
    omega

end Utf8

/-- The window of a text is there exactly if the text can be cut so. -/
theorem strWindow_cut (l : List Byte) (hu : IsUtf8 l) (ix : Ix) (hi : IsRange ix) (a b : Nat)
    (hm : Means l.length ix a b) :
    (∀ c1 c2 c3, Cut l a b c1 c2 c3 → ix.strWindow l = some (a, b)) ∧
    ((∀ c1 c2 c3, ¬ Cut l a b c1 c2 c3) → ix.strWindow l = none) := by
  have hw : ix.strWindow l = match ix.window l.length with
      | some (a, b) => if charBoundary l a && charBoundary l b then some (a, b) else none
      | none => none := by
    cases ix with
    | «at» i => exact hi.elim
    | _ => rfl
  rw [hw, window_means hm]
  constructor
  · rintro c1 c2 c3 ⟨rfl, rfl, rfl⟩
    have h1 : charBoundary (utf8 (c1 ++ c2 ++ c3)) (utf8 c1).length = true := by
      rw [List.append_assoc]; exact Utf8.boundary_of_split c1 (c2 ++ c3)
    have h2 := Utf8.boundary_of_split (c1 ++ c2) c3
    rw [if_pos]
    · simp only [h1, h2, Bool.and_self, if_true]
    · simp only [Utf8.utf8_append, List.length_append]; omega
  · intro h
    by_cases hf : a ≤ b ∧ b ≤ l.length
    · rw [if_pos hf]
      simp only
      rw [if_neg]
      intro hb
      rw [Bool.and_eq_true] at hb
      obtain ⟨cs, rfl⟩ := hu
      obtain ⟨c1, c2, c3, rfl, e2, e3⟩ := Utf8.boundaries_split cs a b hf.1 hb.1 hb.2
      exact h c1 c2 c3 ⟨rfl, e2, e3⟩
    · rw [if_neg hf]

/-- Slices of octets are equal as lists are. -/
theorem eqSlice_bytes (l m : List Byte) : SizedSlice.eqSlice (· == ·) l m = true ↔ l = m := by
  induction l generalizing m with
  | nil => cases m <;> simp [SizedSlice.eqSlice]
  | cons x l ih =>
    cases m with
    | nil => simp [SizedSlice.eqSlice]
    | cons y m => rw [SizedSlice.eqSlice, Bool.and_eq_true, ih]; simp

end Oct
