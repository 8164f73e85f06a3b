import Verif.Model.Prim
import Verif.Spec.Text
/- UTF-8 validation accepts exactly the encodings of char sequences. -/
namespace Oct
open Spec
namespace Utf8

theorem toNat_ofNat_lt (x : Nat) (h : x < 256) : (UInt8.ofNat x).toNat = x := by
  rw [UInt8.toNat_ofNat', Nat.mod_eq_of_lt (by simpa using h)]

theorem eq_ofNat (a : UInt8) (x : Nat) (h : a.toNat = x) : a = UInt8.ofNat x := by
  rw [← h, UInt8.ofNat_toNat]

theorem isCont_of (b : UInt8) (h : 0x80 ≤ b.toNat ∧ b.toNat ≤ 0xBF) : isCont b = true := by
  simp only [isCont, Bool.and_eq_true, decide_eq_true_eq]; exact h

theorem seqLen_one (a : UInt8) (r : List UInt8) (h : a.toNat < 0x80) :
    seqLen (a :: r) = some 1 := by
  simp only [seqLen]; rw [if_pos h]

theorem seqLen_two (a b : UInt8) (r : List UInt8) (h : 0xC2 ≤ a.toNat ∧ a.toNat ≤ 0xDF)
    (hb : isCont b = true) : seqLen (a :: b :: r) = some 2 := by
  simp only [seqLen]; rw [if_neg (by omega), if_pos h, if_pos hb]

theorem seqLen_three (a b c : UInt8) (r : List UInt8) (h : 0xE0 ≤ a.toNat ∧ a.toNat ≤ 0xEF)
    (hb : 0x80 ≤ b.toNat ∧ b.toNat ≤ 0xBF) (h1 : a.toNat = 0xE0 → 0xA0 ≤ b.toNat)
    (h2 : a.toNat = 0xED → b.toNat ≤ 0x9F)
    (hc : isCont c = true) : seqLen (a :: b :: c :: r) = some 3 := by
  simp only [seqLen]
  rw [if_neg (by omega), if_neg (by omega), if_pos h, if_pos ⟨by omega, hc⟩]

theorem seqLen_four (a b c d : UInt8) (r : List UInt8) (h : 0xF0 ≤ a.toNat ∧ a.toNat ≤ 0xF4)
    (hb : 0x80 ≤ b.toNat ∧ b.toNat ≤ 0xBF) (h1 : a.toNat = 0xF0 → 0x90 ≤ b.toNat)
    (h2 : a.toNat = 0xF4 → b.toNat ≤ 0x8F)
    (hc : isCont c = true) (hd : isCont d = true) : seqLen (a :: b :: c :: d :: r) = some 4 := by
  simp only [seqLen]
  rw [if_neg (by omega), if_neg (by omega), if_neg (by omega), if_pos h,
    if_pos ⟨by omega, hc, hd⟩]

/-- The sequence at the start of an encoded char has the length of its encoding. -/
theorem seqLen_encode (c : Char) (r : List UInt8) :
    seqLen (String.utf8EncodeChar c ++ r) = some (String.utf8EncodeChar c).length := by
  have hv : c.val.toNat < 0xD800 ∨ (0xDFFF < c.val.toNat ∧ c.val.toNat < 0x110000) := c.valid
  unfold String.utf8EncodeChar
  generalize c.val.toNat = v at hv ⊢
  simp only
  by_cases h1 : v ≤ 0x7f
  · rw [if_pos h1]
    exact seqLen_one _ _ (by rw [toNat_ofNat_lt _ (by omega)]; omega)
  rw [if_neg h1]
  have hk : ∀ x, isCont (UInt8.ofNat (x % 64 + 128)) = true := fun x =>
    isCont_of _ (by rw [toNat_ofNat_lt _ (by omega)]; omega)
  by_cases h2 : v ≤ 0x7ff
  · rw [if_pos h2]
    exact seqLen_two _ _ _ (by rw [toNat_ofNat_lt _ (by omega)]; omega) (hk _)
  rw [if_neg h2]
  by_cases h3 : v ≤ 0xffff
  · rw [if_pos h3]
    apply seqLen_three
    · rw [toNat_ofNat_lt _ (by omega)]; omega
    · rw [toNat_ofNat_lt _ (by omega)]; omega
    · rw [toNat_ofNat_lt _ (by omega), toNat_ofNat_lt _ (by omega)]; omega
    · rw [toNat_ofNat_lt _ (by omega), toNat_ofNat_lt _ (by omega)]; omega
    · exact hk _
  · rw [if_neg h3]
    apply seqLen_four
    · rw [toNat_ofNat_lt _ (by omega)]; omega
    · rw [toNat_ofNat_lt _ (by omega)]; omega
    · rw [toNat_ofNat_lt _ (by omega), toNat_ofNat_lt _ (by omega)]; omega
    · rw [toNat_ofNat_lt _ (by omega), toNat_ofNat_lt _ (by omega)]; omega
    · exact hk _
    · exact hk _

/-- A char with a given number. -/
theorem exists_char (v : Nat) (h : v < 0xD800 ∨ (0xDFFF < v ∧ v < 0x110000)) :
    ∃ c : Char, c.val.toNat = v :=
  ⟨Char.ofNatAux v h, by simp [Char.ofNatAux]⟩

/-- Each well-formed sequence is the encoding of a char. -/
theorem seqLen_sound (bs : List UInt8) (n : Nat) (h : seqLen bs = some n) :
    ∃ c : Char, bs = String.utf8EncodeChar c ++ bs.drop n ∧
      n = (String.utf8EncodeChar c).length := by
  cases bs with
  | nil => simp [seqLen] at h
  | cons a r =>
    have ha := a.toNat_lt
    simp only [seqLen] at h
    split at h
    · obtain ⟨c, hc⟩ := exists_char a.toNat (by omega)
      refine ⟨c, ?_⟩
      unfold String.utf8EncodeChar
      simp only [hc]
      rw [if_pos (by omega)]
      cases h
      simp
    · split at h
      · split at h
        · rename_i b r
          split at h
          · rename_i h1 h2 hb
            simp only [isCont, Bool.and_eq_true, decide_eq_true_eq] at hb
            obtain ⟨c, hc⟩ := exists_char ((a.toNat - 0xC0) * 64 + (b.toNat - 0x80)) (by omega)
            refine ⟨c, ?_⟩
            unfold String.utf8EncodeChar
            simp only [hc]
            rw [if_neg (by omega), if_pos (by omega)]
            cases h
            simp only [List.drop_succ_cons, List.drop_zero, List.cons_append, List.nil_append,
              List.cons.injEq, and_true, List.length_cons, List.length_nil]
            exact ⟨eq_ofNat _ _ (by omega), eq_ofNat _ _ (by omega)⟩
          · simp at h
        · simp at h
      · split at h
        · split at h
          · rename_i b c' r
            split at h
            · rename_i h1 h2 h3 hb
              simp only [isCont, Bool.and_eq_true, decide_eq_true_eq] at hb
              obtain ⟨c, hc⟩ := exists_char ((a.toNat - 0xE0) * 4096 + (b.toNat - 0x80) * 64
                + (c'.toNat - 0x80)) (by omega)
              refine ⟨c, ?_⟩
              unfold String.utf8EncodeChar
              simp only [hc]
              rw [if_neg (by omega), if_neg (by omega), if_pos (by omega)]
              cases h
              simp only [List.drop_succ_cons, List.drop_zero, List.cons_append, List.nil_append,
                List.cons.injEq, and_true, List.length_cons, List.length_nil]
              exact ⟨eq_ofNat _ _ (by omega), eq_ofNat _ _ (by omega), eq_ofNat _ _ (by omega)⟩
            · simp at h
          · simp at h
        · split at h
          · split at h
            · rename_i b c' d r
              split at h
              · rename_i h1 h2 h3 h4 hb
                simp only [isCont, Bool.and_eq_true, decide_eq_true_eq] at hb
                obtain ⟨c, hc⟩ := exists_char ((a.toNat - 0xF0) * 262144 + (b.toNat - 0x80) * 4096
                  + (c'.toNat - 0x80) * 64 + (d.toNat - 0x80)) (by omega)
                refine ⟨c, ?_⟩
                unfold String.utf8EncodeChar
                simp only [hc]
                rw [if_neg (by omega), if_neg (by omega), if_neg (by omega)]
                cases h
                simp only [List.drop_succ_cons, List.drop_zero, List.cons_append, List.nil_append,
                  List.cons.injEq, and_true, List.length_cons, List.length_nil]
                exact ⟨eq_ofNat _ _ (by omega), eq_ofNat _ _ (by omega), eq_ofNat _ _ (by omega),
                  eq_ofNat _ _ (by omega)⟩
              · simp at h
            · simp at h
          · simp at h

theorem encode_ne_nil (c : Char) : String.utf8EncodeChar c ≠ [] := by
  unfold String.utf8EncodeChar
  simp only
  split
  · simp
  · split
    · simp
    · split <;> simp

theorem encode_length_pos (c : Char) : 0 < (String.utf8EncodeChar c).length :=
  List.length_pos_iff.2 (encode_ne_nil c)

theorem checkFrom_cons (fuel i : Nat) (a : UInt8) (l : List UInt8) :
    checkFrom (fuel + 1) i (a :: l) =
      match seqLen (a :: l) with
      | none => some i
      | some n => checkFrom fuel (i + n) ((a :: l).drop n) := rfl

/-- One step of the scan over an encoded char. -/
theorem checkFrom_encode (fuel i : Nat) (c : Char) (r : List UInt8) :
    checkFrom (fuel + 1) i (String.utf8EncodeChar c ++ r)
      = checkFrom fuel (i + (String.utf8EncodeChar c).length) r := by
  have h := seqLen_encode c r
  have hd : (String.utf8EncodeChar c ++ r).drop (String.utf8EncodeChar c).length = r :=
    List.drop_left
  have hn : String.utf8EncodeChar c ++ r ≠ [] := by simp
  generalize hb : String.utf8EncodeChar c ++ r = bs at h hd hn ⊢
  cases bs with
  | nil => exact absurd rfl hn
  | cons a l =>
    rw [checkFrom_cons, h]
    simp only [hd]

/-- Scanning over encoded chars. -/
theorem checkFrom_utf8 (cs : List Char) (fuel i : Nat) (r : List UInt8)
    (hf : (utf8 cs ++ r).length ≤ fuel) :
    ∃ fuel', r.length ≤ fuel' ∧
      checkFrom fuel i (utf8 cs ++ r) = checkFrom fuel' (i + (utf8 cs).length) r := by
  induction cs generalizing fuel i with
  | nil => exact ⟨fuel, by simpa [utf8] using hf, by simp [utf8]⟩
  | cons c cs ih =>
    have e : utf8 (c :: cs) = String.utf8EncodeChar c ++ utf8 cs := by simp [utf8]
    rw [e] at hf ⊢
    have := encode_length_pos c
    simp only [List.length_append] at hf
    cases fuel with
    | zero => omega
    | succ fuel =>
      obtain ⟨f', h1, h2⟩ := ih fuel (i + (String.utf8EncodeChar c).length)
        (by simp only [List.length_append]; omega)
      refine ⟨f', h1, ?_⟩
      rw [List.append_assoc, checkFrom_encode, h2, List.length_append, Nat.add_assoc]

/-- What the scan finds out. -/
theorem checkFrom_sound (fuel i : Nat) (bs : List UInt8) (hf : bs.length ≤ fuel) :
    match checkFrom fuel i bs with
    | none => IsUtf8 bs
    | some j => i ≤ j ∧ j < i + bs.length ∧ IsUtf8 (bs.take (j - i)) ∧
        seqLen (bs.drop (j - i)) = none := by
  induction fuel generalizing i bs with
  | zero =>
    cases bs with
    | nil => simp only [checkFrom]; exact ⟨[], rfl⟩
    | cons a l => simp at hf
  | succ fuel ih =>
    cases bs with
    | nil => simp only [checkFrom]; exact ⟨[], rfl⟩
    | cons a l =>
      rw [checkFrom_cons]
      cases hs : seqLen (a :: l) with
      | none =>
        simp only [Nat.le_refl, Nat.sub_self, List.drop_zero, List.take_zero, List.length_cons]
        exact ⟨trivial, by omega, ⟨[], rfl⟩, hs⟩
      | some n =>
        obtain ⟨c, hc, hn⟩ := seqLen_sound _ _ hs
        have hpos := encode_length_pos c
        have hlen : (a :: l).length = n + ((a :: l).drop n).length := by
          have := congrArg List.length hc
          rw [List.length_append] at this; omega
        simp only
        generalize (a :: l).drop n = r at hc hlen ⊢
        have hi := ih (i + n) r (by omega)
        cases hk : checkFrom fuel (i + n) r with
        | none =>
          rw [hk] at hi
          obtain ⟨cs, hcs⟩ := hi
          refine ⟨c :: cs, ?_⟩
          rw [hc, hcs]; simp [utf8]
        | some j =>
          rw [hk] at hi
          obtain ⟨h1, h2, ⟨cs, hcs⟩, h4⟩ := hi
          refine ⟨by omega, by omega, ⟨c :: cs, ?_⟩, ?_⟩
          · have : j - i = (String.utf8EncodeChar c).length + (j - (i + n)) := by omega
            rw [hc, this, List.take_length_add_append, hcs]; simp [utf8]
          · have : j - i = (String.utf8EncodeChar c).length + (j - (i + n)) := by omega
            rw [hc, this, List.drop_append, List.drop_eq_nil_of_le (by omega)]
            simpa using h4

/-- Validation accepts exactly the encodings of char sequences. -/
theorem check_none_iff (bs : List UInt8) : check bs = none ↔ IsUtf8 bs := by
  constructor
  · intro h
    have := checkFrom_sound bs.length 0 bs (Nat.le_refl _)
    unfold check at h
    rw [h] at this
    exact this
  · rintro ⟨cs, rfl⟩
    obtain ⟨f, h1, h2⟩ := checkFrom_utf8 cs (utf8 cs).length 0 [] (by simp)
    rw [List.append_nil] at h2
    unfold check
    rw [h2]
    cases f <;> rfl

theorem valid_iff (bs : List UInt8) : valid bs = true ↔ IsUtf8 bs := by
  rw [← check_none_iff]
  unfold valid
  cases check bs <;> simp

/-- A failing validation points at the end of the longest valid prefix. -/
theorem check_some (bs : List UInt8) (j : Nat) (h : check bs = some j) :
    j < bs.length ∧ IsUtf8 (bs.take j) ∧
      ∀ k ≤ bs.length, IsUtf8 (bs.take k) → k ≤ j := by
  have hs := checkFrom_sound bs.length 0 bs (Nat.le_refl _)
  unfold check at h
  rw [h] at hs
  simp only [Nat.sub_zero, Nat.zero_add] at hs
  refine ⟨hs.2.1, hs.2.2.1, ?_⟩
  rintro k hk ⟨cs, hcs⟩
  have e : bs = utf8 cs ++ bs.drop k := by rw [← hcs, List.take_append_drop]
  have hl : (utf8 cs).length = k := by rw [← hcs, List.length_take]; omega
  obtain ⟨f, h1, h2⟩ := checkFrom_utf8 cs bs.length 0 (bs.drop k) (by rw [← e]; omega)
  rw [← e, h] at h2
  have := checkFrom_sound f (0 + (utf8 cs).length) (bs.drop k) h1
  rw [← h2] at this
  simp only at this
  omega

end Utf8
end Oct
