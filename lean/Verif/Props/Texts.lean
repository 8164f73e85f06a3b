import Verif.Proofs.Yields
import Verif.Proofs.EncodesTo
/-
C31, C32: strings and C strings.
-/
namespace Oct.Props
open Oct Spec
set_option linter.unusedVariables false

/-- C31. Decoding a `String` succeeds, with the announced octets as text, if they are the UTF-8
encoding of some chars; else it reports the index of the first octet at which they stop being so (the
octets before are, and no longer prefix is), and that octet. -/
theorem C31_string_decode (k : StrKind) (data : List Byte) (hd : data.length ≤ 65535) :
    (∀ cs : List Char, data = utf8 cs → ∃ h, Yields (Ty.str k).decode (leBytes 2 data.length ++ data)
      (.ok ⟨data, h⟩)) ∧
    ((¬ ∃ cs : List Char, data = utf8 cs) → ∃ (j : Nat) (hj : j < data.length),
      Yields (Ty.str k).decode (leBytes 2 data.length ++ data) (.err (.badItem (.utf8 data[j] j))) ∧
      (∃ cs, data.take j = utf8 cs) ∧ ∀ i ≤ data.length, (∃ cs, data.take i = utf8 cs) → i ≤ j) := by
  constructor
  · rintro cs hcs
    have hv : Utf8.valid data = true := (Utf8.valid_iff data).mpr ⟨cs, hcs⟩
    exact ⟨hv, (decUsize_yields data.length hd).bind ((Yields.read data).map (strOf_yields_valid data hv))⟩
  · intro hn
    cases hc : Utf8.check data with
    | none => exact absurd ((Utf8.check_none_iff data).mp hc) hn
    | some j =>
      obtain ⟨hj, h1, h2⟩ := Utf8.check_some data j hc
      exact ⟨j, hj, (decUsize_yields data.length hd).bind
        ((Yields.read data).map (strOf_yields_invalid data j hc hj)), h1, h2⟩

/-- C31: success and UTF-8 validity are equivalent. -/
theorem C31_accepts_iff (k : StrKind) (data : List Byte) (hd : data.length ≤ 65535) :
    (∃ v, Yields (Ty.str k).decode (leBytes 2 data.length ++ data) (.ok v)) ↔
      ∃ cs : List Char, data = utf8 cs := by
  obtain ⟨h1, h2⟩ := C31_string_decode k data hd
  constructor
  · rintro ⟨v, hv⟩
    apply Classical.byContradiction
    intro hn
    obtain ⟨j, hj, h3, _⟩ := h2 hn
    cases hv.unique h3
  · rintro ⟨cs, hcs⟩
    obtain ⟨h, h3⟩ := h1 cs hcs
    exact ⟨_, h3⟩

/-- C31: if fewer octets than announced follow, decoding panics. -/
theorem C31_string_short (k : StrKind) (pre data : List Byte) (len : Nat) (hl : len ≤ 65535)
    (hd : data.length < len) :
    ((Ty.str k).decode ⟨pre ++ (leBytes 2 len ++ data), pre.length⟩).1 = .panic .shortInput := by
  have h1 := decUsize_yields len hl pre data
  show (Dec.bind _ _ _).1 = _
  unfold Dec.bind
  rw [h1]
  show (Dec.bind _ _ _).1 = _
  have hs : Dec.read len ⟨pre ++ (leBytes 2 len ++ data), pre.length + (leBytes 2 len).length⟩
      = (.panic .shortInput, ⟨pre ++ (leBytes 2 len ++ data), pre.length + (leBytes 2 len).length⟩) := by
    unfold Dec.read Input.read
    have : (pre ++ (leBytes 2 len ++ data)).length - (pre.length + (leBytes 2 len).length) < len := by
      simp only [List.length_append]; omega
    simp only [if_pos this]
  unfold Dec.bind
  rw [hs]
  rfl

example : Yields (Ty.str .string).decode [3, 0, 0x61, 0xC3, 0xA9] (.ok ⟨[0x61, 0xC3, 0xA9], by decide⟩) := by
  obtain ⟨h, hy⟩ := (C31_string_decode .string [0x61, 0xC3, 0xA9] (by decide)).1 ['a', 'é'] (by decide)
  exact hy
example : (Ty.str .string).decode (Input.new [3, 0, 0x61, 0xC3, 0x20])
    = (.err (.badItem (.utf8 0xC3 1)), ⟨[3, 0, 0x61, 0xC3, 0x20], 5⟩) := by rfl

/-- C32. Decoding a `CString` succeeds, with the announced octets, if none of them is zero; else it
reports the index of the first zero. -/
theorem C32_c_string_decode (k : CStrKind) (data : List Byte) (hd : data.length ≤ 65535) :
    (∀ h : 0 ∉ data, Yields (Ty.cStr k).decode (leBytes 2 data.length ++ data) (.ok ⟨data, h⟩)) ∧
    (0 ∈ data → ∃ (j : Nat) (hj : j < data.length),
      Yields (Ty.cStr k).decode (leBytes 2 data.length ++ data) (.err (.cString j)) ∧
      data[j] = 0 ∧ ∀ (i : Nat) (hi : i < data.length), i < j → data[i] ≠ 0) := by
  constructor
  · intro h
    refine (decUsize_yields data.length hd).bind ((Yields.read data).map ?_)
    rw [dif_pos h]
    exact Yields.pure _
  · intro h
    have hj : data.findIdx (· == 0) < data.length := List.findIdx_lt_length_of_exists ⟨0, h, by decide⟩
    refine ⟨data.findIdx (· == 0), hj, ?_, ?_, ?_⟩
    · refine (decUsize_yields data.length hd).bind ((Yields.read data).map ?_)
      rw [dif_neg (not_not_intro h)]
      exact Yields.fail _
    · exact eq_of_beq (List.findIdx_getElem (w := hj))
    · intro i hi hlt h0
      have := List.not_of_lt_findIdx hlt
      simp [h0] at this

example : (Ty.cStr .cString).decode (Input.new [3, 0, 0x61, 0, 0])
    = (.err (.cString 1), ⟨[3, 0, 0x61, 0, 0], 5⟩) := by rfl

end Oct.Props
