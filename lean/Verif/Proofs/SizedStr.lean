import Verif.Model.SizedStr
import Verif.Proofs.SizedSlice
import Verif.Proofs.Utf8
/- Sized strings as stored. -/
namespace Oct
open Spec

theorem Spec.isUtf8_char (c : Char) : IsUtf8 (charUtf8 c) := ⟨[c], by simp [utf8, charUtf8]⟩

namespace SizedStr
variable {ε ε' : Type}

theorem fromRawParts_asBytes (buf : List Byte) (len : Nat) (h : len ≤ buf.length) :
    ((fromRawParts buf len).asBytes : Res ε _) = .ok (buf.take len) := by
  refine SizedSlice.asSlice_ok.mpr ⟨?_, ?_⟩
  · show len ≤ (buf.map some).length
    rw [List.length_map]; exact h
  · show (buf.map some).take len = _
    rw [List.map_take]

theorem fromUtf8Unchecked_ok (n : Nat) (s : List Byte) (h : s.length ≤ n) :
    ∃ r, (fromUtf8Unchecked n s : Res ε _) = .ok r ∧ r.capacity = n ∧ r.len = s.length ∧
      (r.asBytes : Res ε' _) = .ok s ∧ initAll r.inner.buf = some (s ++ List.replicate (n - s.length) 0) := by
  have hl : (s ++ (List.replicate n (0 : Byte)).drop s.length).length = n := by
    rw [List.length_append, List.length_drop, List.length_replicate]; omega
  refine ⟨_, if_neg (Nat.not_lt.mpr h), ?_, rfl, ?_, ?_⟩
  · show (List.map some _).length = n
    rw [List.length_map, hl]
  · rw [fromRawParts_asBytes _ _ (by rw [hl]; exact h), List.take_left' rfl]
  · show initAll (List.map some _) = _
    rw [initAll_map_some, List.drop_replicate]

theorem collectLoop_spec (n : Nat) : ∀ (cs : List Char) (buf : List Byte) (len : Nat),
    buf.length = n → len ≤ n →
    ∃ k buf', k ≤ cs.length ∧
      collectLoop n cs buf len = .ok (buf', len + (utf8 (cs.take k)).length) ∧
      buf'.length = n ∧ len + (utf8 (cs.take k)).length ≤ n ∧
      buf'.take (len + (utf8 (cs.take k)).length) = buf.take len ++ utf8 (cs.take k) ∧
      ∀ j ≤ cs.length, len + (utf8 (cs.take j)).length ≤ n → j ≤ k
  | [], buf, len, hb, hl => by
    refine ⟨0, buf, Nat.le_refl _, by simp [collectLoop, utf8], hb, by simpa [utf8] using hl,
      by simp [utf8], fun j hj _ => by simpa using hj⟩
  | c :: cs, buf, len, hb, hl => by
    rw [collectLoop]
    simp only
    by_cases hr : n - len < (charUtf8 c).length
    · rw [if_pos hr]
      refine ⟨0, buf, Nat.zero_le _, by simp [utf8], hb, by simpa [utf8] using hl, by simp [utf8], ?_⟩
      intro j hj h
      cases j with
      | zero => exact Nat.le_refl _
      | succ j =>
        rw [List.take_succ_cons, utf8, List.flatMap_cons, List.length_append] at h
        unfold charUtf8 at hr
        omega
    · rw [if_neg hr, if_neg (by omega)]
      generalize hb' : buf.take len ++ charUtf8 c ++ buf.drop (len + (charUtf8 c).length) = buf1
      have hlen1 : buf1.length = n := by
        rw [← hb', List.length_append, List.length_append, List.length_take, List.length_drop]
        omega
      have htake1 : buf1.take (len + (charUtf8 c).length) = buf.take len ++ charUtf8 c := by
        rw [← hb']
        apply List.take_left'
        rw [List.length_append, List.length_take]
        omega
      obtain ⟨k, buf', hk, h1, h2, h3, h4, h5⟩ :=
        collectLoop_spec n cs buf1 (len + (charUtf8 c).length) hlen1 (by omega)
      have hu : ∀ j, utf8 ((c :: cs).take (j + 1)) = charUtf8 c ++ utf8 (cs.take j) := by
        intro j; rw [List.take_succ_cons, utf8, List.flatMap_cons]; rfl
      have hul : ∀ j, len + (utf8 ((c :: cs).take (j + 1))).length
          = len + (charUtf8 c).length + (utf8 (cs.take j)).length := by
        intro j; rw [hu, List.length_append]; omega
      refine ⟨k + 1, buf', by simpa using hk, ?_, h2, ?_, ?_, ?_⟩
      · rw [h1, hul]
      · rw [hul]; exact h3
      · rw [hul, h4, htake1, hu, List.append_assoc]
      · intro j hj h
        cases j with
        | zero => exact Nat.zero_le _
        | succ j =>
          rw [hul] at h
          have := h5 j (by simpa using hj) h
          omega

end SizedStr
end Oct
