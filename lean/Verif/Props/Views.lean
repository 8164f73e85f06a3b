import Verif.Proofs.View
import Verif.Props.Slots
import Verif.Props.SizedStrings
/-
C84: indexing and assignment through borrows. C85: comparisons of outputs and slots.
-/
namespace Oct.Props
open Oct Spec
set_option linter.unusedVariables false
variable {ε α : Type}

/-- C84. Every index stands for some positions. -/
theorem C84_means (len : Nat) (ix : Ix) : ∃ a b, Means len ix a b := means_total len ix

/-- C84, reading a slot: the part of the contents that the index stands for, or a panic if there is
none. -/
theorem C84_slot_index (s : Slot) (l : List Byte) (hl : s.asSlice = .ok l) (ix : Ix) (a b : Nat)
    (hm : Means l.length ix a b) :
    (a ≤ b ∧ b ≤ l.length → ∃ r, s.indexBy ix = .ok r ∧ IsPart l r a b) ∧
    (¬ (a ≤ b ∧ b ≤ l.length) → s.indexBy ix = .panic .indexOutOfBounds) := by
  unfold Slot.indexBy
  rw [hl]
  exact getPart_spec l ix hm

/-- C84, reading an octet of a slot. -/
theorem C84_slot_index_one (s : Slot) (l : List Byte) (hl : s.asSlice = .ok l) (i : Nat) :
    (∀ h : i < l.length, s.index i = .ok l[i]) ∧
    (l.length ≤ i → s.index i = .panic .indexOutOfBounds) := by
  unfold Slot.index
  rw [hl]
  constructor
  · intro h
    simp only [List.getElem?_eq_getElem h]
  · intro h
    simp only [List.getElem?_eq_none h]

/-- C84, writing to a slot: exactly the octets of the buffer that the index stands for are replaced, if
the data fits; otherwise it panics and nothing happens. The length stays. -/
theorem C84_slot_assign (s : Slot) (ix : Ix) (data : List Byte) (a b : Nat)
    (hm : Means s.capacity ix a b) :
    (s.assignBy ix data).2.len = s.len ∧ (s.assignBy ix data).2.capacity = s.capacity ∧
    (a ≤ b ∧ b ≤ s.capacity ∧ data.length = b - a →
      (s.assignBy ix data).1 = .ok () ∧ Replaced s.buf (s.assignBy ix data).2.buf data a b) ∧
    (¬ (a ≤ b ∧ b ≤ s.capacity ∧ data.length = b - a) →
      (∃ p, (s.assignBy ix data).1 = .panic p) ∧ (s.assignBy ix data).2 = s) := by
  obtain ⟨h1, h2⟩ := setPart_spec (ε := Empty) s.buf ix data hm
  by_cases h : a ≤ b ∧ b ≤ s.capacity ∧ data.length = b - a
  · obtain ⟨l', e, hr⟩ := h1 h
    unfold Slot.assignBy
    rw [e]
    exact ⟨rfl, replaced_length hr h.2.2, fun _ => ⟨rfl, hr⟩, fun hn => absurd h hn⟩
  · obtain ⟨p, e⟩ := h2 h
    unfold Slot.assignBy
    rw [e]
    exact ⟨rfl, rfl, fun hn => absurd hn h, fun _ => ⟨⟨p, rfl⟩, rfl⟩⟩

/-- C84, writing an octet of a slot. -/
theorem C84_slot_set_byte (s : Slot) (i : Nat) (x : Byte) :
    s.setByte i x = if i < s.capacity then (.ok (), { s with buf := s.buf.set i x })
      else (.panic .indexOutOfBounds, s) := rfl

/-- C84 is false for slots: an octet can be assigned that then cannot be read. -/
theorem C84_false_slot : ∃ (s s' : Slot) (ix : Ix) (x : Byte), s.assignBy ix [x] = (.ok (), s') ∧
    s'.indexBy ix = .panic .indexOutOfBounds :=
  ⟨Slot.withCapacity 1, ⟨[7], 0⟩, .at 0, 7, rfl, rfl⟩

/-- C84 is false for slots: the same index may read one thing and write another. What `slot[..]` reads
cannot be assigned to `slot[..]`. -/
theorem C84_false_slot_full : ∃ (s : Slot) (l : List Byte), s.indexBy .full = .ok l ∧
    (s.assignBy .full l).1 = .panic .assertion :=
  ⟨⟨[1, 2], 1⟩, [1], rfl, rfl⟩

/-- C84. What was assigned to a part of a slot is read back. Missing: parts that are not within the
contents, and indices whose end is that of the slice. -/
theorem C84_slot_read_back_partial (s : Slot) (l : List Byte) (hl : s.asSlice = .ok l) (ix : Ix)
    (data : List Byte) (a b : Nat) (hm : Means l.length ix a b) (hc : Means s.capacity ix a b)
    (hab : a ≤ b ∧ b ≤ l.length) (hd : data.length = b - a) :
    (s.assignBy ix data).1 = .ok () ∧ (s.assignBy ix data).2.indexBy ix = .ok data := by
  have hlen : s.len ≤ s.buf.length ∧ l = s.buf.take s.len := by
    unfold Slot.asSlice at hl
    split at hl
    · cases hl
    · cases hl; exact ⟨by omega, rfl⟩
  have hll : l.length = s.len := by rw [hlen.2, List.length_take]; omega
  have hcap : b ≤ s.capacity := by
    have : s.capacity = s.buf.length := rfl
    omega
  obtain ⟨h1, h2, h3, -⟩ := C84_slot_assign s ix data a b hc
  obtain ⟨h4, h5⟩ := h3 ⟨hab.1, hcap, hd⟩
  refine ⟨h4, ?_⟩
  have hs : (s.assignBy ix data).2.asSlice = .ok ((s.assignBy ix data).2.buf.take s.len) := by
    unfold Slot.asSlice
    rw [h1, if_neg]
    have : (s.assignBy ix data).2.capacity = (s.assignBy ix data).2.buf.length := rfl
    have : s.capacity = s.buf.length := rfl
    omega
  have hlb : ((s.assignBy ix data).2.buf.take s.len).length = l.length := by
    rw [List.length_take]
    have : (s.assignBy ix data).2.capacity = (s.assignBy ix data).2.buf.length := rfl
    have : s.capacity = s.buf.length := rfl
    omega
  obtain ⟨r, hr, hp⟩ := (C84_slot_index _ _ hs ix a b (hlb ▸ hm)).1 ⟨hab.1, by omega⟩
  rw [hr, isPart_unique hp (isPart_take (replaced_part h5 hd) (by omega))]

example : (⟨[1, 2, 3], 2⟩ : Slot).asSlice = .ok [1, 2] ∧ Means 2 (.range 1 2) 1 2 ∧
    (⟨[1, 2, 3], 2⟩ : Slot).indexBy (.range 1 2) = .ok [2] ∧
    (⟨[1, 2, 3], 2⟩ : Slot).indexBy (.from 3) = .panic .indexOutOfBounds ∧
    (⟨[1, 2, 3], 2⟩ : Slot).assignBy (.range 1 2) [9] = (.ok (), ⟨[1, 9, 3], 2⟩) :=
  ⟨rfl, .range, rfl, rfl, rfl⟩

/-- C84, sized slices: reading. -/
theorem C84_slice_index (s : SizedSlice α) (l : List α) (hl : (s.asSlice : Res ε _) = .ok l) (ix : Ix)
    (a b : Nat) (hm : Means l.length ix a b) :
    (a ≤ b ∧ b ≤ l.length → ∃ r, (s.indexBy ix : Res ε _) = .ok r ∧ IsPart l r a b) ∧
    (¬ (a ≤ b ∧ b ≤ l.length) → (s.indexBy ix : Res ε _) = .panic .indexOutOfBounds) := by
  unfold SizedSlice.indexBy
  rw [hl]
  exact getPart_spec l ix hm

/-- C84, sized slices: exactly the items that the index stands for are replaced, if the data fits; and
then they are read back. -/
theorem C84_slice_assign (s : SizedSlice α) (l : List α) (hl : (s.asSlice : Res ε _) = .ok l) (ix : Ix)
    (data : List α) (a b : Nat) (hm : Means l.length ix a b) :
    (a ≤ b ∧ b ≤ l.length ∧ data.length = b - a → ∃ (s' : SizedSlice α) (l' : List α),
      (s.assignBy ix data : Res ε _) = .ok s' ∧ (s'.asSlice : Res ε _) = .ok l' ∧
      Replaced l l' data a b ∧ s'.len = s.len ∧ s'.capacity = s.capacity ∧
      s'.buf.drop s.len = s.buf.drop s.len ∧ (s'.indexBy ix : Res ε _) = .ok data) ∧
    (¬ (a ≤ b ∧ b ≤ l.length ∧ data.length = b - a) →
      ∃ p, (s.assignBy ix data : Res ε _) = .panic p) := by
  obtain ⟨h1, h2⟩ := setPart_spec (ε := ε) l ix data hm
  have ha := SizedSlice.asSlice_ok.mp hl
  have hlen := SizedSlice.asSlice_len hl
  constructor
  · intro h
    obtain ⟨l', e, hr⟩ := h1 h
    have hl' := replaced_length hr h.2.2
    have hs' : (SizedSlice.asSlice (ε := ε)
        (⟨l'.map some ++ s.buf.drop s.len, s.len⟩ : SizedSlice α)) = .ok l' := by
      refine SizedSlice.asSlice_ok.mpr ⟨?_, ?_⟩
      · show s.len ≤ _
        simp only [List.length_append, List.length_map, List.length_drop]; omega
      · show List.take s.len _ = _
        exact List.take_left' (by rw [List.length_map]; omega)
    refine ⟨⟨l'.map some ++ s.buf.drop s.len, s.len⟩, l', ?_, hs', hr, rfl, ?_, ?_, ?_⟩
    · unfold SizedSlice.assignBy
      rw [hl]
      simp only [e]
      rfl
    · unfold SizedSlice.capacity
      simp only [List.length_append, List.length_map, List.length_drop]
      have := ha.1
      omega
    · exact List.drop_left' (by rw [List.length_map]; omega)
    · obtain ⟨r, e2, hp⟩ := (C84_slice_index (ε := ε) _ _ hs' ix a b (hl'.symm ▸ hm)).1 ⟨h.1, by omega⟩
      rw [e2, isPart_unique hp (replaced_part hr h.2.2)]
  · intro h
    obtain ⟨p, e⟩ := h2 h
    refine ⟨p, ?_⟩
    unfold SizedSlice.assignBy
    rw [hl]
    simp only [e]
    rfl

example : ((⟨[some 1, some 2, none], 2⟩ : SizedSlice Nat).assignBy (.from 1) [9] : Res Empty _)
      = .ok ⟨[some 1, some 9, none], 2⟩ ∧
    ((⟨[some 1, some 2, none], 2⟩ : SizedSlice Nat).indexBy (.to 3) : Res Empty _)
      = .panic .indexOutOfBounds := ⟨rfl, rfl⟩

/-- C84, sized strings: reading a range gives the text there, if the range does not cut a char; it
panics otherwise. -/
theorem C84_str_index (s : SizedStr) (l : List Byte) (hl : (s.asBytes : Res ε _) = .ok l)
    (hu : IsUtf8 l) (ix : Ix) (hi : IsRange ix) (a b : Nat) (hm : Means l.length ix a b) :
    (∀ c1 c2 c3, Cut l a b c1 c2 c3 → (s.indexBy ix : Res ε _) = .ok (utf8 c2)) ∧
    ((∀ c1 c2 c3, ¬ Cut l a b c1 c2 c3) → (s.indexBy ix : Res ε _) = .panic .indexOutOfBounds) := by
  obtain ⟨h1, h2⟩ := strWindow_cut l hu ix hi a b hm
  unfold SizedStr.indexBy
  rw [hl]
  constructor
  · intro c1 c2 c3 hc
    simp only
    rw [h1 c1 c2 c3 hc]
    simp only
    obtain ⟨rfl, rfl, rfl⟩ := hc
    simp only [Utf8.utf8_append]
    rw [List.append_assoc, List.drop_left, List.length_append, Nat.add_sub_cancel_left,
      List.take_left' rfl]
  · intro h
    simp only
    rw [h2 h]

/-- C84, sized strings: however a range of a sized string is changed, the string stays valid UTF-8, and
the range is read back. -/
theorem C84_str_assign (s : SizedStr) (l : List Byte) (hl : (s.asBytes : Res Empty _) = .ok l)
    (hu : IsUtf8 l) (ix : Ix) (hi : IsRange ix) (a b : Nat) (hm : Means l.length ix a b) (text : Str)
    (s' : SizedStr) (h : s.assignBy ix text = some (.ok s')) :
    ∃ l', (s'.asBytes : Res Empty _) = .ok l' ∧ IsUtf8 l' ∧ Replaced l l' text.val a b ∧
      l'.length = l.length ∧ (s'.indexBy ix : Res Empty _) = .ok text.val := by
  obtain ⟨h1, h2⟩ := strWindow_cut l hu ix hi a b hm
  by_cases hc : ∃ c1 c2 c3, Cut l a b c1 c2 c3
  · obtain ⟨c1, c2, c3, hc⟩ := hc
    have hw := h1 c1 c2 c3 hc
    unfold SizedStr.assignBy at h
    rw [hl] at h
    simp only at h
    rw [hw] at h
    simp only at h
    split at h
    · rename_i hd
      have hab : a ≤ b ∧ b ≤ l.length := by
        obtain ⟨rfl, rfl, rfl⟩ := hc
        simp only [Utf8.utf8_append, List.length_append]; omega
      injection h with h
      injection h with h
      subst h
      have ha := SizedSlice.asSlice_ok.mp hl
      have hlen := SizedSlice.asSlice_len hl
      have hr := replaced_mk text.val hab.1 hab.2
      have hl' := replaced_length hr hd
      generalize he : l.take a ++ text.val ++ l.drop b = l' at hr hl' ⊢
      obtain ⟨ct, hct⟩ := (Utf8.valid_iff _).mp text.property
      have hl'' : l' = utf8 (c1 ++ ct ++ c3) := by
        obtain ⟨rfl, rfl, rfl⟩ := hc
        rw [← he, hct]
        simp only [Utf8.utf8_append]
        rw [List.append_assoc (utf8 c1), List.take_left' rfl, ← List.append_assoc (utf8 c1),
          List.drop_left' rfl]
      have hs' : (SizedStr.asBytes (ε := Empty)
          (⟨⟨l'.map some ++ s.inner.buf.drop s.inner.len, s.inner.len⟩⟩ : SizedStr)) = .ok l' := by
        refine SizedSlice.asSlice_ok.mpr ⟨?_, ?_⟩
        · show s.inner.len ≤ _
          simp only [List.length_append, List.length_map, List.length_drop]; omega
        · show List.take s.inner.len _ = _
          exact List.take_left' (by rw [List.length_map]; omega)
      refine ⟨l', hs', ⟨_, hl''⟩, hr, hl', ?_⟩
      have hcut : Cut l' a b c1 ct c3 := by
        obtain ⟨-, rfl, rfl⟩ := hc
        refine ⟨hl'', rfl, ?_⟩
        rw [hct] at hd
        simp only [Utf8.utf8_append, List.length_append] at hd ⊢
        omega
      rw [(C84_str_index (ε := Empty) _ l' hs' ⟨_, hl''⟩ ix hi a b (hl'.symm ▸ hm)).1 _ _ _ hcut, hct]
    · cases h
  · have hw := h2 fun c1 c2 c3 hcc => hc ⟨c1, c2, c3, hcc⟩
    unfold SizedStr.assignBy at h
    rw [hl] at h
    simp only at h
    rw [hw] at h
    simp only at h
    cases h

/-- C84, sized strings: a range that does not cut a char can be changed to every text of as many
octets, and to nothing else; a range that cuts one cannot be had. -/
theorem C84_str_assign_when (s : SizedStr) (l : List Byte)
    (hl : (s.asBytes : Res Empty _) = .ok l) (hu : IsUtf8 l) (ix : Ix) (hi : IsRange ix) (a b : Nat)
    (hm : Means l.length ix a b) (text : Str) :
    (∀ c1 c2 c3, Cut l a b c1 c2 c3 →
      ((∃ s', s.assignBy ix text = some (.ok s')) ↔ text.val.length = b - a) ∧
      (s.assignBy ix text = none ↔ text.val.length ≠ b - a)) ∧
    ((∀ c1 c2 c3, ¬ Cut l a b c1 c2 c3) →
      s.assignBy ix text = some (.panic .indexOutOfBounds)) := by
  obtain ⟨h1, h2⟩ := strWindow_cut l hu ix hi a b hm
  unfold SizedStr.assignBy
  rw [hl]
  constructor
  · intro c1 c2 c3 hc
    simp only
    rw [h1 c1 c2 c3 hc]
    simp only
    split <;> simp_all
  · intro h
    simp only
    rw [h2 h]

/-- `aé`: the second char cannot be cut. -/
example : Cut [0x61, 0xC3, 0xA9] 1 3 ['a'] ['é'] [] ∧ IsRange (.from 1) ∧ Means 3 (.from 1) 1 3 ∧
    (SizedStr.indexBy ⟨⟨[some 0x61, some 0xC3, some 0xA9], 3⟩⟩ (.from 1) : Res Empty _)
      = .ok [0xC3, 0xA9] ∧
    (SizedStr.indexBy ⟨⟨[some 0x61, some 0xC3, some 0xA9], 3⟩⟩ (.to 2) : Res Empty _)
      = .panic .indexOutOfBounds := ⟨⟨by decide, by decide, by decide⟩, trivial, .from, rfl, rfl⟩

/-- C85. Outputs are equal if they hold the same octets, whatever their capacities and whatever the
octets after. -/
theorem C85_output_eq (a b : Output) (ha : a.WF) (hb : b.WF) :
    a.eq b = true ↔ ∃ w ra rb, a.buf = w ++ ra ∧ b.buf = w ++ rb ∧ a.pos = w.length ∧ b.pos = w.length := by
  have ha : a.pos ≤ a.buf.length := ha
  have hb : b.pos ≤ b.buf.length := hb
  unfold Output.eq
  rw [eqSlice_bytes]
  show a.buf.take a.pos = b.buf.take b.pos ↔ _
  constructor
  · intro h
    have hl : a.pos = b.pos := by
      have := congrArg List.length h
      simp only [List.length_take] at this
      omega
    exact ⟨a.buf.take a.pos, a.buf.drop a.pos, b.buf.drop b.pos, (List.take_append_drop ..).symm,
      h ▸ (List.take_append_drop ..).symm, by rw [List.length_take]; omega,
      by rw [List.length_take]; omega⟩
  · rintro ⟨w, ra, rb, h1, h2, h3, h4⟩
    rw [h1, h2, h3, h4, List.take_left, List.take_left]

/-- C85. An output is equal to the slice of what it holds. -/
theorem C85_output_eq_slice (a : Output) (ha : a.WF) (l : List Byte) :
    a.eqSlice l = true ↔ ∃ r, a.buf = l ++ r ∧ a.pos = l.length := by
  have ha : a.pos ≤ a.buf.length := ha
  unfold Output.eqSlice
  rw [eqSlice_bytes]
  show a.buf.take a.pos = l ↔ _
  constructor
  · rintro rfl
    exact ⟨a.buf.drop a.pos, (List.take_append_drop ..).symm, by rw [List.length_take]; omega⟩
  · rintro ⟨r, h1, h2⟩
    rw [h1, h2, List.take_left]

/-- C85. A slot is equal to the slices that have its contents. -/
theorem C85_slot_eq (s : Slot) (c l : List Byte) (hc : s.asSlice = .ok c) :
    ∃ r, s.eqSlice l = .ok r ∧ (r = true ↔ c = l) :=
  ⟨_, by unfold Slot.eqSlice; rw [hc]; rfl, eqSlice_bytes c l⟩

example : (Output.mk [1, 2, 3] 2).eq (Output.mk [1, 2] 2) = true ∧
    (Output.mk [1, 2, 3] 2).eq (Output.mk [1, 2, 3] 3) = false ∧
    (Output.mk [1, 2, 3] 2).eqSlice [1, 2] = true ∧ (Output.mk [1, 2, 3] 2).WF ∧
    (Slot.mk [1, 2, 3] 2).eqSlice [1, 2] = .ok true :=
  ⟨by decide, by decide, by decide, (by decide : 2 ≤ 3), by decide⟩

/-- C48. No two texts hash alike, nor does the hash of one begin that of another: pairs of sized strings
hash alike only if they are equal. -/
theorem C48_str_hash_prefix_free (l m : List Byte) (hl : IsUtf8 l) (hm : IsUtf8 m)
    (u v : List (SizedSlice.HashFeed Byte))
    (h : SizedStr.hashStr l ++ u = SizedStr.hashStr m ++ v) : l = m ∧ u = v := by
  have h1 := Utf8.no_ff hl
  have h2 := Utf8.no_ff hm
  clear hl hm
  unfold SizedStr.hashStr at h
  induction l generalizing m with
  | nil =>
    cases m with
    | nil => simpa using h
    | cons y m =>
      simp only [List.map_nil, List.map_cons, List.nil_append, List.cons_append, List.cons.injEq,
        SizedSlice.HashFeed.octet.injEq] at h
      exact absurd (h.1 ▸ List.mem_cons_self) h2
  | cons x l ih =>
    cases m with
    | nil =>
      simp only [List.map_nil, List.map_cons, List.nil_append, List.cons_append, List.cons.injEq,
        SizedSlice.HashFeed.octet.injEq] at h
      exact absurd (h.1 ▸ List.mem_cons_self) h1
    | cons y m =>
      simp only [List.map_cons, List.cons_append, List.cons.injEq,
        SizedSlice.HashFeed.octet.injEq] at h
      obtain ⟨e1, e2⟩ := ih m h.2 (fun h => h1 (List.mem_cons_of_mem _ h))
        (fun h => h2 (List.mem_cons_of_mem _ h))
      exact ⟨by rw [h.1, e1], e2⟩

example : IsUtf8 [0x61] ∧ SizedStr.hashStr [0x61] = [.octet 0x61, .octet 0xFF] := ⟨⟨['a'], rfl⟩, rfl⟩

end Oct.Props
