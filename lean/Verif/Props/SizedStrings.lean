import Verif.Proofs.SizedStr
import Verif.Proofs.RoundTrip
import Verif.Proofs.Yields
import Verif.Props.SizedSlices
/-
C29, C30, C48 (strings), C51: sized strings as stored. `s.asBytes = .ok bs` says that `s` holds the
octets `bs`: its first `len` cells are within the buffer, initialised, and contain `bs`.
-/
namespace Oct.Props
open Oct Spec
set_option linter.unusedVariables false

variable {ε ε' : Type}

/-- C29. From text (`new`, `FromStr`, `TryFrom<&str>`, `TryFrom<String>`): succeeds exactly if there
are at most `N` octets, and then holds the text. -/
theorem C29_from_text (n : Nat) (text : Str) :
    (text.val.length ≤ n → ∃ s, SizedStr.new n text = .ok s ∧ SizedStr.fromStr n text = .ok s ∧
      s.capacity = n ∧ s.len = text.val.length ∧ (s.asBytes : Res ε _) = .ok text.val ∧
      IsUtf8 text.val) ∧
    (n < text.val.length →
      SizedStr.new n text = .err (.smallBuffer ⟨n, text.val.length⟩) ∧
      SizedStr.fromStr n text = .err (.smallBuffer ⟨n, text.val.length⟩)) := by
  constructor
  · intro h
    obtain ⟨s, h1, h2, h3, h4, _⟩ := SizedStr.fromUtf8Unchecked_ok (ε := StringError) (ε' := ε) n text.val h
    exact ⟨s, (if_neg (Nat.not_lt.mpr h)).trans h1, (if_neg (Nat.not_lt.mpr h)).trans h1, h2, h3, h4, (Utf8.valid_iff _).mp text.property⟩
  · intro h
    exact ⟨if_pos h, if_pos h⟩

/-- C29. From octets: succeeds exactly if there are at most `N` of them and they are valid UTF-8, and
then holds them. Too many octets are reported first; else the index of the first octet that does not
belong to valid text, and its value. -/
theorem C29_from_utf8 (n : Nat) (bs : List Byte) :
    (n < bs.length → SizedStr.fromUtf8 n bs = .err (.smallBuffer ⟨n, bs.length⟩)) ∧
    (bs.length ≤ n → IsUtf8 bs → ∃ s, SizedStr.fromUtf8 n bs = .ok s ∧ s.capacity = n ∧
      s.len = bs.length ∧ (s.asBytes : Res ε _) = .ok bs) ∧
    (bs.length ≤ n → ¬ IsUtf8 bs → ∃ (j : Nat) (hj : j < bs.length),
      SizedStr.fromUtf8 n bs = .err (.badUtf8 bs[j] j) ∧ IsUtf8 (bs.take j) ∧
      ∀ k ≤ bs.length, IsUtf8 (bs.take k) → k ≤ j) := by
  refine ⟨fun h => if_pos h, ?_, ?_⟩
  · intro h hu
    obtain ⟨s, h1, h2, h3, h4, _⟩ := SizedStr.fromUtf8Unchecked_ok (ε := StringError) (ε' := ε) n bs h
    refine ⟨s, ?_, h2, h3, h4⟩
    unfold SizedStr.fromUtf8
    rw [if_neg (Nat.not_lt.mpr h), (Utf8.check_none_iff bs).mpr hu]
    exact h1
  · intro h hu
    cases hc : Utf8.check bs with
    | none => exact absurd ((Utf8.check_none_iff bs).mp hc) hu
    | some j =>
      obtain ⟨hj, h1, h2⟩ := Utf8.check_some bs j hc
      refine ⟨j, hj, ?_, h1, h2⟩
      unfold SizedStr.fromUtf8
      rw [if_neg (Nat.not_lt.mpr h), hc]
      simp only
      rw [List.getElem?_eq_getElem hj]

/-- C29. From a char: succeeds exactly if its encoding fits. -/
theorem C29_from_char (n : Nat) (c : Char) :
    ∃ h : Utf8.valid (String.utf8EncodeChar c) = true,
    ((String.utf8EncodeChar c).length ≤ n → ∃ s, SizedStr.tryFromChar n c h = .ok s ∧
      s.capacity = n ∧ (s.asBytes : Res ε _) = .ok (String.utf8EncodeChar c)) ∧
    (n < (String.utf8EncodeChar c).length → SizedStr.tryFromChar n c h
      = .err (.smallBuffer ⟨n, (String.utf8EncodeChar c).length⟩)) := by
  have hv : Utf8.valid (String.utf8EncodeChar c) = true := (Utf8.valid_iff _).mpr (isUtf8_char c)
  have := C29_from_text (ε := ε) n ⟨String.utf8EncodeChar c, hv⟩
  refine ⟨hv, ?_, fun h => (this.2 h).2⟩
  intro h
  obtain ⟨s, _, h2, h3, _, h5, _⟩ := this.1 h
  exact ⟨s, h2, h3, h5⟩

/-- C30. Collecting chars gives the longest prefix that fits: it holds the UTF-8 of the first `k`
chars, and no longer prefix has at most `N` octets. (It never panics and is never undefined.) -/
theorem C30_collect (n : Nat) (cs : List Char) :
    ∃ s k, SizedStr.fromIter n cs = .ok s ∧ s.capacity = n ∧ k ≤ cs.length ∧
      (s.asBytes : Res ε _) = .ok (utf8 (cs.take k)) ∧ (utf8 (cs.take k)).length ≤ n ∧
      ∀ j ≤ cs.length, (utf8 (cs.take j)).length ≤ n → j ≤ k := by
  obtain ⟨k, buf', hk, h1, h2, h3, h4, h5⟩ :=
    SizedStr.collectLoop_spec n cs (List.replicate n 0) 0 List.length_replicate (Nat.zero_le _)
  rw [Nat.zero_add] at h1 h3 h4
  refine ⟨SizedStr.fromRawParts buf' (utf8 (cs.take k)).length, k, ?_, ?_, hk, ?_, h3, ?_⟩
  · unfold SizedStr.fromIter
    rw [h1]; rfl
  · show (buf'.map some).length = n
    rw [List.length_map, h2]
  · rw [SizedStr.fromRawParts_asBytes _ _ (by omega), h4]
    rfl
  · intro j hj h
    exact h5 j hj (by omega)

example : SizedStr.fromIter 4 ['a', 'é', '€', 'b'] = .ok ⟨⟨[some 0x61, some 0xC3, some 0xA9, some 0], 3⟩⟩ := by
  decide

/-- C29. Decoding (stored form): the announced octets are taken exactly as by `from_utf8`. -/
theorem C29_decode (n : Nat) (data : List Byte) (hd : data.length ≤ 65535) :
    (n < data.length → Yields (SizedStr.decode n) (leBytes 2 data.length ++ data)
      (.err (.badLength (.length n data.length)))) ∧
    (data.length ≤ n → IsUtf8 data → ∃ s,
      Yields (SizedStr.decode n) (leBytes 2 data.length ++ data) (.ok s) ∧ s.capacity = n ∧
        s.len = data.length ∧ (s.asBytes : Res ε _) = .ok data) ∧
    (data.length ≤ n → ¬ IsUtf8 data → ∃ (j : Nat) (hj : j < data.length),
      Yields (SizedStr.decode n) (leBytes 2 data.length ++ data)
        (.err (.badItem (.utf8 data[j] j))) ∧ IsUtf8 (data.take j) ∧
        ∀ k ≤ data.length, IsUtf8 (data.take k) → k ≤ j) := by
  obtain ⟨h1, h2, h3⟩ := C29_from_utf8 (ε := ε) n data
  have key := fun r => (decUsize_yields data.length hd).bind (f := fun len => Dec.read len >>= fun data =>
      match SizedStr.fromUtf8 n data with
      | .ok s => pure s
      | .err (.badUtf8 value index) => Dec.fail (.badItem (.utf8 value index))
      | .err (.smallBuffer e) => Dec.fail (.badLength (.length e.capacity e.len))
      | .err (.badUtf16 _ _) => Dec.panic .unreachable
      | .panic p => Dec.panic p
      | .ub u => Dec.ub u) (r := r) ∘ (Yields.read data).map
  refine ⟨?_, ?_, ?_⟩
  · intro h
    exact key _ (by rw [h1 h]; exact Yields.fail _)
  · intro h hu
    obtain ⟨s, e1, e2, e3, e4⟩ := h2 h hu
    exact ⟨s, key _ (by rw [e1]; exact Yields.pure _), e2, e3, e4⟩
  · intro h hu
    obtain ⟨j, hj, e1, e2⟩ := h3 h hu
    exact ⟨j, hj, key _ (by rw [e1]; exact Yields.fail _), e2⟩

example : IsUtf8 [0x61, 0xC3, 0xA9] ∧ ¬ IsUtf8 [0xC3] :=
  ⟨⟨['a', 'é'], by decide⟩, fun h => absurd ((Utf8.valid_iff _).mpr h) (by decide)⟩
example : ∃ s, SizedStr.fromUtf8 4 [0x61, 0xC3, 0xA9] = .ok s ∧
    (s.asBytes : Res Empty _) = .ok [0x61, 0xC3, 0xA9] := ⟨_, rfl, rfl⟩
example : SizedStr.fromUtf8 4 [0x61, 0xC3, 0x20] = .err (.badUtf8 0xC3 1) := by decide

/-- The sized strings of capacity `n` that safe code can make. -/
inductive SafeStr (n : Nat) : SizedStr → Prop where
  | new {text s} : SizedStr.new n text = .ok s → SafeStr n s
  | fromStr {text s} : SizedStr.fromStr n text = .ok s → SafeStr n s
  | fromUtf8 {bs s} : SizedStr.fromUtf8 n bs = .ok s → SafeStr n s
  | fromChar {c h s} : SizedStr.tryFromChar n c h = .ok s → SafeStr n s
  | collect {cs s} : SizedStr.fromIter n cs = .ok s → SafeStr n s
  | decode {i i' s} : SizedStr.decode n i = (.ok s, i') → SafeStr n s
  | default : SafeStr n (SizedStr.default n)
  | clone {s s'} : SafeStr n s → (s.clone : Res Empty _) = .ok s' → SafeStr n s'
  | mutate {s s' text} : SafeStr n s → s.setText text = some s' → SafeStr n s'

/-- C29. Whatever safe code makes of sized strings, they have capacity `N` and hold valid UTF-8 of at
most `N` octets; looking at them and cloning them has no undefined behaviour. -/
theorem C29_always_valid (n : Nat) (s : SizedStr) (h : SafeStr n s) :
    ∃ bs, (s.asBytes : Res ε _) = .ok bs ∧ IsUtf8 bs ∧ bs.length ≤ n ∧ s.len = bs.length ∧
      s.capacity = n ∧ ∃ s', (s.clone : Res ε _) = .ok s' := by
  suffices hs : ∃ bs, (s.asBytes : Res Empty _) = .ok bs ∧ IsUtf8 bs ∧ s.capacity = n by
    obtain ⟨bs, h1, h2, h3⟩ := hs
    have ha := SizedSlice.asSlice_ok.mp h1
    have hl := SizedSlice.asSlice_len h1
    obtain ⟨c, hc, _, _⟩ := SizedSlice.copyCells_spec s.inner.len s.inner.buf bs ha.1 ha.2
    refine ⟨bs, SizedSlice.asSlice_any h1, h2, ?_, hl, h3, ⟨{ buf := c, len := s.inner.len }⟩, ?_⟩
    · rw [← hl, ← h3]; exact ha.1
    · unfold SizedStr.clone SizedSlice.clone
      rw [hc]; rfl
  have utf : ∀ (bs : List Byte) (s : SizedStr), SizedStr.fromUtf8 n bs = .ok s →
      ∃ bs, (s.asBytes : Res Empty _) = .ok bs ∧ IsUtf8 bs ∧ s.capacity = n := by
    intro bs s h
    obtain ⟨h1, h2, h3⟩ := C29_from_utf8 (ε := Empty) n bs
    by_cases hl : n < bs.length
    · rw [h1 hl] at h; cases h
    · by_cases hu : IsUtf8 bs
      · obtain ⟨s', e1, e2, _, e4⟩ := h2 (Nat.not_lt.mp hl) hu
        rw [e1] at h; cases h
        exact ⟨bs, e4, hu, e2⟩
      · obtain ⟨j, hj, e1, _⟩ := h3 (Nat.not_lt.mp hl) hu
        rw [e1] at h; cases h
  have txt : ∀ (text : Str) (s : SizedStr), SizedStr.fromStr n text = .ok s →
      ∃ bs, (s.asBytes : Res Empty _) = .ok bs ∧ IsUtf8 bs ∧ s.capacity = n := by
    intro text s h
    obtain ⟨h1, h2⟩ := C29_from_text (ε := Empty) n text
    by_cases hl : n < text.val.length
    · rw [(h2 hl).2] at h; cases h
    · obtain ⟨s', _, e2, e3, _, e5, e6⟩ := h1 (Nat.not_lt.mp hl)
      rw [e2] at h; cases h
      exact ⟨_, e5, e6, e3⟩
  induction h with
  | new h => exact txt _ _ h
  | fromStr h => exact txt _ _ h
  | fromUtf8 h => exact utf _ _ h
  | fromChar h => exact txt _ _ h
  | @collect cs s h =>
    obtain ⟨s', k, e1, e2, _, e4, _⟩ := C30_collect (ε := Empty) n cs
    rw [e1] at h; cases h
    exact ⟨_, e4, ⟨_, rfl⟩, e2⟩
  | @decode i i' s h =>
    obtain ⟨len, i1, _, h⟩ := Dec.bind_ok h
    obtain ⟨data, i2, _, h⟩ := Dec.bind_ok h
    cases hf : SizedStr.fromUtf8 n data with
    | ok s' =>
      rw [hf] at h
      obtain ⟨rfl, _⟩ := Dec.pure_ok h
      exact utf _ _ hf
    | err e => rw [hf] at h; cases e <;> cases h
    | panic p => rw [hf] at h; cases h
    | ub u => rw [hf] at h; cases h
  | default => exact ⟨[], rfl, ⟨[], rfl⟩, List.length_replicate⟩
  | @clone s s' _ h ih =>
    obtain ⟨bs, h1, h2, h3⟩ := ih
    have ha := SizedSlice.asSlice_ok.mp h1
    obtain ⟨c, hc, hl, ht⟩ := SizedSlice.copyCells_spec s.inner.len s.inner.buf bs ha.1 ha.2
    unfold SizedStr.clone SizedSlice.clone at h
    rw [hc] at h
    cases h
    refine ⟨bs, SizedSlice.asSlice_ok.mpr ⟨?_, ht⟩, h2, ?_⟩
    · show s.inner.len ≤ c.length
      rw [hl]; exact ha.1
    · show c.length = n
      rw [hl]; exact h3
  | @mutate s s' text _ h ih =>
    obtain ⟨bs, h1, h2, h3⟩ := ih
    have ha := SizedSlice.asSlice_ok.mp h1
    unfold SizedStr.setText at h
    split at h
    · rename_i hl
      cases h
      have hb : (text.val.map some ++ s.inner.buf.drop s.inner.len).length = s.inner.buf.length := by
        rw [List.length_append, List.length_map, List.length_drop]; omega
      refine ⟨text.val, SizedSlice.asSlice_ok.mpr ⟨?_, ?_⟩, (Utf8.valid_iff _).mp text.property, ?_⟩
      · show s.inner.len ≤ (text.val.map some ++ s.inner.buf.drop s.inner.len).length
        rw [hb]; exact ha.1
      · show (text.val.map some ++ s.inner.buf.drop s.inner.len).take s.inner.len = _
        rw [List.take_left' (by rw [List.length_map]; exact hl)]
      · exact hb.trans h3
    · cases h

example : SafeStr 3 ⟨⟨[some 0x61, some 0x62, some 0], 2⟩⟩ := .fromUtf8 (bs := [0x61, 0x62]) rfl

/-- C29. Decoding in the model of values (`Ty.sizedStr`) agrees with decoding the stored form. -/
theorem C29_decode_values (n : Nat) (i : Input) (s : SizedStr) (i' : Input)
    (h : SizedStr.decode n i = (.ok s, i')) :
    ∃ v : (Ty.sizedStr n).Val, (Ty.sizedStr n).decode i = (.ok v, i') ∧
      (s.asBytes : Res ε _) = .ok v.val := by
  obtain ⟨len, i1, e1, h⟩ := Dec.bind_ok h
  obtain ⟨data, i2, e2, h⟩ := Dec.bind_ok h
  obtain ⟨h1, h2, h3⟩ := C29_from_utf8 (ε := ε) n data
  have main : data.length ≤ n ∧ IsUtf8 data := by
    by_cases hl : n < data.length
    · rw [h1 hl] at h; cases h
    · by_cases hu : IsUtf8 data
      · exact ⟨Nat.not_lt.mp hl, hu⟩
      · obtain ⟨j, hj, e, _⟩ := h3 (Nat.not_lt.mp hl) hu
        rw [e] at h; cases h
  obtain ⟨s', e3, _, _, e4⟩ := h2 main.1 main.2
  rw [e3] at h
  obtain ⟨rfl, rfl⟩ := Dec.pure_ok h
  have hv := (Utf8.valid_iff _).mpr main.2
  refine ⟨⟨data, hv, main.1⟩, ?_, e4⟩
  show Dec.bind _ _ i = _
  unfold Dec.bind
  rw [e1]
  show Dec.bind _ _ i1 = _
  unfold Dec.bind
  rw [e2]
  have : sizedStrFromUtf8 n data = some (.ok ⟨data, hv, main.1⟩) := by
    unfold sizedStrFromUtf8
    rw [dif_neg (Nat.not_lt.mpr main.1)]
    have hc := (Utf8.check_none_iff data).mpr main.2
    split
    · rfl
    · rename_i j hj; rw [hc] at hj; cases hj
  simp only
  rw [this]
  rfl

/-- C48. Sized strings, of whatever capacities, are equal exactly if their texts are. -/
theorem C48_str_eq (a b : SizedStr) (l m : List Byte)
    (ha : (a.asBytes : Res ε _) = .ok l) (hb : (b.asBytes : Res ε _) = .ok m) :
    ∃ r, (SizedStr.eq a b : Res ε Bool) = .ok r ∧ (r = true ↔ l = m) := by
  obtain ⟨r, h1, h2⟩ := C48_slice_eq_lawful a.inner b.inner l m ha hb
  refine ⟨r, ?_, h2⟩
  unfold SizedSlice.eq at h1
  rw [show (a.inner.asSlice : Res ε _) = .ok l from ha,
    show (b.inner.asSlice : Res ε _) = .ok m from hb] at h1
  unfold SizedStr.eq
  rw [ha, hb]
  exact h1

/-- C48. They are ordered like their texts: lexicographically by octets. -/
theorem C48_str_cmp (a b : SizedStr) (l m : List Byte)
    (ha : (a.asBytes : Res ε _) = .ok l) (hb : (b.asBytes : Res ε _) = .ok m) :
    (SizedStr.cmp a b : Res ε _)
      = .ok (some (List.compareLex (fun x y => compare x.toNat y.toNat) l m)) := by
  have h1 := C48_slice_cmp (ε := ε) (fun (x y : Byte) => compare x.toNat y.toNat) a.inner b.inner l m ha hb
  unfold SizedSlice.partialCmp at h1
  rw [show (a.inner.asSlice : Res ε _) = .ok l from ha,
    show (b.inner.asSlice : Res ε _) = .ok m from hb] at h1
  unfold SizedStr.cmp
  rw [ha, hb]
  exact h1

/-- C48. They hash like their texts. -/
theorem C48_str_hash (a : SizedStr) (l : List Byte) (ha : (a.asBytes : Res ε _) = .ok l) :
    (a.hash : Res ε _) = .ok (SizedStr.hashStr l) := by
  unfold SizedStr.hash; rw [ha]; rfl

example : ∃ a b : SizedStr, SizedStr.fromUtf8 4 [0x61, 0x62] = .ok a ∧ SizedStr.fromUtf8 2 [0x61, 0x62] = .ok b ∧
    (SizedStr.eq a b : Res Empty _) = .ok true ∧ (SizedStr.cmp a b : Res Empty _) = .ok (some .eq) :=
  ⟨_, _, rfl, rfl, rfl, rfl⟩

/-- Sized strings of capacity `n` made in any safe way but by `default` and `clone`. -/
inductive FilledStr (n : Nat) : SizedStr → Prop where
  | new {text s} : SizedStr.new n text = .ok s → FilledStr n s
  | fromStr {text s} : SizedStr.fromStr n text = .ok s → FilledStr n s
  | fromUtf8 {bs s} : SizedStr.fromUtf8 n bs = .ok s → FilledStr n s
  | fromChar {c h s} : SizedStr.tryFromChar n c h = .ok s → FilledStr n s
  | collect {cs s} : SizedStr.fromIter n cs = .ok s → FilledStr n s
  | decode {i i' s} : SizedStr.decode n i = (.ok s, i') → FilledStr n s
  | mutate {s s' text} : FilledStr n s → s.setText text = some s' → FilledStr n s'

/-- C51. A sized string made in any safe way but by `default` and `clone` gives a fully initialised
array of the capacity, which begins with the text; and giving the parts back gives the same sized
string. Missing: the default sized string and clones, see below. -/
theorem C51_into_raw_parts_partial (n : Nat) (s : SizedStr) (h : FilledStr n s) :
    ∃ buf bs, (s.intoRawParts : Res ε _) = .ok (buf, s.len) ∧ buf.length = n ∧
      (s.asBytes : Res ε _) = .ok bs ∧ buf.take s.len = bs ∧
      SizedStr.fromRawParts buf s.len = s := by
  have main : ∃ buf len, s = SizedStr.fromRawParts buf len ∧ buf.length = n ∧ len ≤ n := by
    have unck : ∀ (bs : List Byte) (s : SizedStr),
        (SizedStr.fromUtf8Unchecked n bs : Res StringError _) = .ok s →
        ∃ buf len, s = SizedStr.fromRawParts buf len ∧ buf.length = n ∧ len ≤ n := by
      intro bs s h
      unfold SizedStr.fromUtf8Unchecked at h
      split at h
      · cases h
      · rename_i hl
        cases h
        refine ⟨_, _, rfl, ?_, by omega⟩
        rw [List.length_append, List.length_drop, List.length_replicate]; omega
    have str : ∀ (text : Str) (s : SizedStr), SizedStr.fromStr n text = .ok s →
        ∃ buf len, s = SizedStr.fromRawParts buf len ∧ buf.length = n ∧ len ≤ n := by
      intro text s h
      unfold SizedStr.fromStr at h
      split at h
      · cases h
      · exact unck _ _ h
    have utf : ∀ (bs : List Byte) (s : SizedStr), SizedStr.fromUtf8 n bs = .ok s →
        ∃ buf len, s = SizedStr.fromRawParts buf len ∧ buf.length = n ∧ len ≤ n := by
      intro bs s h
      unfold SizedStr.fromUtf8 at h
      split at h
      · cases h
      · split at h
        · exact unck _ _ h
        · split at h <;> cases h
    induction h with
    | new h =>
      unfold SizedStr.new at h
      split at h
      · cases h
      · exact unck _ _ h
    | fromStr h => exact str _ _ h
    | fromUtf8 h => exact utf _ _ h
    | fromChar h => exact str _ _ h
    | @collect cs s h =>
      obtain ⟨k, buf', hk, h1, h2, h3, h4, h5⟩ :=
        SizedStr.collectLoop_spec n cs (List.replicate n 0) 0 List.length_replicate (Nat.zero_le _)
      unfold SizedStr.fromIter at h
      rw [h1] at h
      cases h
      exact ⟨buf', _, rfl, h2, h3⟩
    | decode h =>
      obtain ⟨len, i1, e1, h⟩ := Dec.bind_ok h
      obtain ⟨data, i2, e2, h⟩ := Dec.bind_ok h
      cases hu : SizedStr.fromUtf8 n data with
      | ok s' =>
        rw [hu] at h
        obtain ⟨rfl, rfl⟩ := Dec.pure_ok h
        exact utf _ _ hu
      | err e => rw [hu] at h; cases e <;> cases h
      | panic p => rw [hu] at h; cases h
      | ub u => rw [hu] at h; cases h
    | @mutate s s' text _ h ih =>
      obtain ⟨buf, len, rfl, hb, hl⟩ := ih
      unfold SizedStr.setText at h
      split at h
      · rename_i ht
        have ht : text.val.length = len := ht
        cases h
        refine ⟨text.val ++ buf.drop len, len, ?_, ?_, hl⟩
        · unfold SizedStr.fromRawParts
          rw [List.map_append, List.map_drop]
        · rw [List.length_append, List.length_drop]; omega
      · cases h
  obtain ⟨buf, len, rfl, hb, hl⟩ := main
  refine ⟨buf, buf.take len, ?_, hb, SizedStr.fromRawParts_asBytes _ _ (by omega), rfl, rfl⟩
  unfold SizedStr.intoRawParts
  rw [show (SizedStr.fromRawParts buf len).inner.buf = buf.map some from rfl, initAll_map_some]
  rfl

example : FilledStr 3 ⟨⟨[some 0x61, some 0x62, some 0], 2⟩⟩ := .fromUtf8 (bs := [0x61, 0x62]) rfl

/-- C51 is false of default sized strings of positive capacity: uninitialised octets are read. -/
theorem C51_false_default (n : Nat) :
    ((SizedStr.default (n + 1)).intoRawParts : Res ε _) = .ub .uninitRead := rfl

/-- C51 is false of clones of sized strings that are not full. -/
theorem C51_false_clone : ∃ s s' : SizedStr, SizedStr.fromUtf8 2 [0x61] = .ok s ∧
    (s.clone : Res ε _) = .ok s' ∧ (s.intoRawParts : Res ε _) = .ok ([0x61, 0], 1) ∧
    (s'.intoRawParts : Res ε _) = .ub .uninitRead := ⟨_, _, rfl, rfl, rfl, rfl⟩

/-- Sized strings of capacity `n` made in any safe way, with whether they come from `default` or `clone`. -/
inductive MadeStr (n : Nat) : SizedStr → Bool → Prop where
  | filled {s} : FilledStr n s → MadeStr n s false
  | default : MadeStr n (SizedStr.default n) true
  | clone {s s' b} : MadeStr n s b → (s.clone : Res Empty _) = .ok s' → MadeStr n s' true
  | mutate {s s' b text} : MadeStr n s b → s.setText text = some s' → MadeStr n s' b

/-- C51, exactly. Of all sized strings that safe code can make, those give a fully initialised array that are full or do
not come from `default` or `clone`; of the others, uninitialised octets are read. -/
theorem C51_exactly (n : Nat) (s : SizedStr) (b : Bool) (h : MadeStr n s b) :
    ((∃ parts, (s.intoRawParts : Res ε _) = .ok parts) ↔ b = false ∨ s.len = n) ∧
    (¬ (b = false ∨ s.len = n) → (s.intoRawParts : Res ε _) = .ub .uninitRead) := by
  have inv : ∃ l : List Byte, l.length = s.len ∧ s.len ≤ n ∧
      if b then s.inner.buf = l.map some ++ SizedSlice.uninit (n - s.len)
      else ∃ tail : List Byte, l.length + tail.length = n ∧ s.inner.buf = l.map some ++ tail.map some := by
    induction h with
    | @filled s h =>
      obtain ⟨buf, bs, _, h2, h3, h4, h5⟩ := C51_into_raw_parts_partial (ε := ε) n s h
      have hb : s.inner.buf = buf.map some := by rw [← h5]; rfl
      have hl : s.len ≤ n := by
        have h3 : (sliceOf s.inner.buf s.inner.len : Res ε _) = .ok bs := h3
        unfold sliceOf at h3
        split at h3
        · cases h3
        · rename_i hl
          rw [hb, List.length_map, h2] at hl
          exact Nat.not_lt.mp hl
      refine ⟨buf.take s.len, by rw [List.length_take, h2]; omega, hl, ?_⟩
      rw [if_neg (by simp)]
      refine ⟨buf.drop s.len, ?_, ?_⟩
      · rw [List.length_take, List.length_drop]; omega
      · rw [hb, ← List.map_append, List.take_append_drop]
    | default => exact ⟨[], rfl, Nat.zero_le _, by rw [if_pos rfl]; rfl⟩
    | @clone s s' b _ h ih =>
      obtain ⟨l, hl, hn, hb⟩ := ih
      have hc : ∀ (l : List Byte) (rest : List (MaybeUninit Byte)),
          SizedSlice.copyCells l.length (l.map some ++ rest)
            = some (l.map some ++ SizedSlice.uninit rest.length) := by
        intro l rest
        induction l with
        | nil => rfl
        | cons a l ih => simp [SizedSlice.copyCells, ih]
      have hr : ∃ rest : List (MaybeUninit Byte), s.inner.buf = l.map some ++ rest ∧
          rest.length = n - s.len := by
        cases b with
        | true => exact ⟨_, hb, List.length_replicate⟩
        | false =>
          obtain ⟨tail, ht, hb⟩ := hb
          exact ⟨_, hb, by rw [List.length_map]; omega⟩
      obtain ⟨rest, hr, hrl⟩ := hr
      unfold SizedStr.clone SizedSlice.clone at h
      rw [hr, show s.inner.len = l.length from hl.symm, hc] at h
      cases h
      refine ⟨l, rfl, ?_, ?_⟩
      · show l.length ≤ n
        omega
      · rw [if_pos rfl]
        show l.map some ++ SizedSlice.uninit rest.length = l.map some ++ SizedSlice.uninit (n - l.length)
        rw [hrl, hl]
    | @mutate s s' b text _ h ih =>
      obtain ⟨l, hl, hn, hb⟩ := ih
      unfold SizedStr.setText at h
      split at h
      · rename_i ht
        cases h
        have ht : text.val.length = s.len := ht
        have drop : ∀ rest : List (MaybeUninit Byte),
            (l.map some ++ rest).drop s.inner.len = rest := by
          intro rest
          rw [show s.inner.len = (l.map (some : Byte → _)).length by rw [List.length_map, hl]; rfl]
          exact List.drop_left
        refine ⟨text.val, ht, hn, ?_⟩
        cases b with
        | true =>
          rw [if_pos rfl] at hb ⊢
          show text.val.map some ++ s.inner.buf.drop s.inner.len = _
          rw [hb, drop]
          rfl
        | false =>
          rw [if_neg (by simp)] at hb ⊢
          obtain ⟨tail, ht', hb⟩ := hb
          refine ⟨tail, by omega, ?_⟩
          show text.val.map some ++ s.inner.buf.drop s.inner.len = _
          rw [hb, drop]
      · cases h
  obtain ⟨l, hl, hn, hb⟩ := inv
  cases b with
  | false =>
    rw [if_neg (by simp)] at hb
    obtain ⟨tail, _, hb⟩ := hb
    refine ⟨⟨fun _ => .inl rfl, fun _ => ?_⟩, fun h => absurd (.inl rfl) h⟩
    unfold SizedStr.intoRawParts
    rw [hb, ← List.map_append, initAll_map_some]
    exact ⟨_, rfl⟩
  | true =>
    rw [if_pos rfl] at hb
    by_cases he : s.len = n
    · refine ⟨⟨fun _ => .inr he, fun _ => ?_⟩, fun h => absurd (.inr he) h⟩
      unfold SizedStr.intoRawParts
      rw [hb, he, Nat.sub_self]
      rw [show (SizedSlice.uninit 0 : List (MaybeUninit Byte)) = [] from rfl, List.append_nil, initAll_map_some]
      exact ⟨_, rfl⟩
    · have hu : (s.intoRawParts : Res ε _) = .ub .uninitRead := by
        unfold SizedStr.intoRawParts
        have hi : ∀ (l : List Byte) (k : Nat),
            initAll (l.map some ++ (SizedSlice.uninit (k + 1) : List (MaybeUninit Byte))) = none := by
          intro l k
          induction l with
          | nil => rfl
          | cons a l ih =>
            show (initAll (l.map some ++ SizedSlice.uninit (k + 1))).map (a :: ·) = none
            rw [ih]
            rfl
        rw [hb, show n - s.len = (n - s.len - 1) + 1 by omega, hi]
      refine ⟨⟨fun ⟨_, h⟩ => ?_, fun h => ?_⟩, fun _ => hu⟩
      · rw [hu] at h; cases h
      · exact (h.elim (fun h => nomatch h) he).elim

/-- The clone of a full string, and the clone of that, are fully initialised; the clone of one that is not full is not. -/
example : MadeStr 1 ⟨⟨[some 0x61], 1⟩⟩ true ∧ MadeStr 2 ⟨⟨[some 0x61, none], 1⟩⟩ true :=
  ⟨.clone (.clone (.filled (.fromUtf8 (bs := [0x61]) rfl)) rfl) rfl,
    .clone (.filled (.fromUtf8 (bs := [0x61]) rfl)) rfl⟩

end Oct.Props
