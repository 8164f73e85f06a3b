import Verif.Proofs.SizedSlice
import Verif.Proofs.RoundTrip
import Verif.Proofs.Outcome
/-
C27, C28, C48 (slices): sized slices as stored. `s.asSlice = .ok l` says that `s` holds `l`: its
first `len` cells are within the buffer, initialised, and contain `l`.
-/
namespace Oct.Props
open Oct Spec
set_option linter.unusedVariables false

variable {α β ε ε' : Type}

/-- C27. `SizedSlice::new` succeeds exactly if there are at most `N` items, and then holds them;
otherwise it reports `N` and the length. -/
theorem C27_new (n : Nat) (data : List α) :
    (data.length ≤ n → ∃ s, SizedSlice.new n data = .ok s ∧ s.capacity = n ∧ s.len = data.length ∧
      (s.asSlice : Res ε (List α)) = .ok data) ∧
    (n < data.length → SizedSlice.new n data = .error { capacity := n, len := data.length }) := by
  constructor
  · intro h
    have hu : (SizedSlice.uninit n : List (MaybeUninit α)).length = n := List.length_replicate
    have hz : (SizedSlice.zipWrite (SizedSlice.uninit n) data).length = n := by
      rw [SizedSlice.zipWrite_length, hu]
    refine ⟨_, if_neg (Nat.not_lt.mpr h), hz, rfl, SizedSlice.asSlice_ok.mpr ⟨?_, ?_⟩⟩
    · show data.length ≤ _; rw [hz]; exact h
    · exact SizedSlice.zipWrite_take _ _ (by rw [hu]; exact h)
  · intro h
    exact if_pos h

/-- C27. Collecting keeps exactly the first `N` items. -/
theorem C27_from_iter (n : Nat) (items : List α) :
    (SizedSlice.fromIter n items).capacity = n ∧
    (SizedSlice.fromIter n items).len = min n items.length ∧
    ((SizedSlice.fromIter n items).asSlice : Res ε (List α)) = .ok (items.take n) := by
  have hu : (SizedSlice.uninit n : List (MaybeUninit α)).length = n := List.length_replicate
  obtain ⟨h1, h2, h3⟩ := SizedSlice.fillFrom_spec (SizedSlice.uninit n) items
  rw [hu] at h1 h2 h3
  refine ⟨h1, h2, SizedSlice.asSlice_ok.mpr ⟨?_, h3⟩⟩
  show (SizedSlice.fillFrom (SizedSlice.uninit n) items).2
    ≤ (SizedSlice.fillFrom (SizedSlice.uninit n) items).1.length
  rw [h1, h2]; omega

/-- C27. The default sized slice is empty. -/
theorem C27_default (n : Nat) :
    (SizedSlice.default n : SizedSlice α).capacity = n ∧
    ((SizedSlice.default n : SizedSlice α).asSlice : Res ε (List α)) = .ok [] :=
  ⟨List.length_replicate, SizedSlice.asSlice_ok.mpr ⟨Nat.zero_le _, rfl⟩⟩

/-- C27. A sized slice made from an array of items that need no dropping holds them. Missing: items
with destructors, see `C27_false_from_array`. -/
theorem C27_from_array_partial (items : List α) :
    (SizedSlice.fromArray false items).capacity = items.length ∧
    ((SizedSlice.fromArray false items).asSlice : Res ε (List α)) = .ok items := by
  refine ⟨List.length_map _, SizedSlice.asSlice_ok.mpr ⟨?_, ?_⟩⟩
  · show items.length ≤ (items.map _).length
    rw [List.length_map]; exact Nat.le_refl _
  · show (items.map _).take items.length = _
    rw [List.take_of_length_le (by rw [List.length_map]; exact Nat.le_refl _)]
    rfl

/-- C27 is false of arrays of items with destructors: they are dropped, and so looking at the items of
the result (or dropping them later) uses dropped items. -/
theorem C27_false_from_array (a : α) (items : List α) :
    ((SizedSlice.fromArray true (a :: items)).asSlice : Res ε (List α)) = .ub .uninitRead := by
  have : ¬ (items.length + 1 > (none :: items.map fun _ => (none : MaybeUninit α)).length) := by
    rw [List.length_cons, List.length_map]; omega
  exact if_neg this

/-- C27. Length, capacity, emptiness, fullness and indexing agree with the held items. -/
theorem C27_observers (s : SizedSlice α) (l : List α)
    (h : (s.asSlice : Res ε (List α)) = .ok l) :
    s.len = l.length ∧ l.length ≤ s.capacity ∧
    (s.isEmpty = true ↔ l = []) ∧ (s.isFull = true ↔ l.length = s.capacity) ∧
    (∀ i, (hi : i < l.length) → (s.index i : Res ε' α) = .ok l[i]) ∧
    (∀ i, l.length ≤ i → (s.index i : Res ε' α) = .panic .indexOutOfBounds) := by
  have hl := SizedSlice.asSlice_len h
  have h1 := (SizedSlice.asSlice_ok.mp h).1
  have ha : (s.asSlice : Res ε' (List α)) = .ok l := SizedSlice.asSlice_any h
  refine ⟨hl, by rw [← hl]; exact h1, ?_, ?_, ?_, ?_⟩
  · rw [show s.isEmpty = (s.len == 0) from rfl, beq_iff_eq, hl]
    exact List.length_eq_zero_iff
  · rw [show s.isFull = (s.len == s.capacity) from rfl, beq_iff_eq, hl]
  · intro i hi
    unfold SizedSlice.index
    rw [ha]
    simp only
    rw [List.getElem?_eq_getElem hi]
  · intro i hi
    unfold SizedSlice.index
    rw [ha]
    simp only
    rw [List.getElem?_eq_none hi]

/-- C27. Replacing an item replaces exactly that item; indices past the end panic. -/
theorem C27_set_index (s : SizedSlice α) (l : List α)
    (h : (s.asSlice : Res ε (List α)) = .ok l) (i : Nat) (a : α) :
    (i < l.length → ∃ s', (s.setIndex i a : Res ε' _) = .ok s' ∧ s'.capacity = s.capacity ∧
      (s'.asSlice : Res ε (List α)) = .ok (l.set i a)) ∧
    (l.length ≤ i → (s.setIndex i a : Res ε' _) = .panic .indexOutOfBounds) := by
  have ha : (s.asSlice : Res ε' (List α)) = .ok l := SizedSlice.asSlice_any h
  have h1 := SizedSlice.asSlice_ok.mp h
  constructor
  · intro hi
    refine ⟨{ s with buf := s.buf.set i (some a) }, ?_, ?_, SizedSlice.asSlice_ok.mpr ⟨?_, ?_⟩⟩
    · unfold SizedSlice.setIndex
      rw [ha]
      exact if_pos hi
    · exact List.length_set
    · rw [List.length_set]; exact h1.1
    · show (s.buf.set i (some a)).take s.len = _
      rw [List.take_set, h1.2, List.map_set]
  · intro hi
    unfold SizedSlice.setIndex
    rw [ha]
    exact if_neg (Nat.not_lt.mpr hi)

/-- C27. Clones and slices of references hold the same items in the same capacity. -/
theorem C27_clone_each_ref (s : SizedSlice α) (l : List α)
    (h : (s.asSlice : Res ε (List α)) = .ok l) :
    (∃ s', (s.clone : Res ε' _) = .ok s' ∧ s'.capacity = s.capacity ∧
      (s'.asSlice : Res ε (List α)) = .ok l) ∧
    (∃ s', (s.eachRef : Res ε' _) = .ok s' ∧ s'.capacity = s.capacity ∧
      (s'.asSlice : Res ε (List α)) = .ok l) := by
  have h1 := SizedSlice.asSlice_ok.mp h
  obtain ⟨c, hc, hlen, ht⟩ := SizedSlice.copyCells_spec s.len s.buf l h1.1 h1.2
  constructor
  · refine ⟨{ buf := c, len := s.len }, ?_, hlen, SizedSlice.asSlice_ok.mpr ⟨?_, ht⟩⟩
    · unfold SizedSlice.clone; rw [hc]
    · rw [hlen]; exact h1.1
  · refine ⟨{ buf := c, len := s.len }, ?_, hlen, SizedSlice.asSlice_ok.mpr ⟨?_, ht⟩⟩
    · unfold SizedSlice.eachRef; rw [hc]
    · rw [hlen]; exact h1.1

/-- C27. Vectors and boxed slices made from a sized slice hold the same items. Missing: no items at
all, or items of size zero, see `C27_false_empty_to_vec`. -/
theorem C27_into_vec_partial (s : SizedSlice α) (l : List α)
    (h : (s.asSlice : Res ε (List α)) = .ok l) (itemSize : Nat) (hi : itemSize ≠ 0) (hl : l ≠ []) :
    (s.intoBoxedSlice itemSize : Res ε' _) = .ok l ∧ (s.intoVec itemSize : Res ε' _) = .ok l := by
  have hlen := SizedSlice.asSlice_len h
  have hne : ¬ (itemSize * s.len = 0) := by
    rw [hlen]
    intro h0
    rcases Nat.mul_eq_zero.mp h0 with h0 | h0
    · exact hi h0
    · exact hl (List.length_eq_zero_iff.mp h0)
  have ha : (sliceOf s.buf s.len : Res ε' (List α)) = .ok l := SizedSlice.asSlice_any h
  have : (s.intoBoxedSlice itemSize : Res ε' _) = .ok l := (if_neg hne).trans ha
  exact ⟨this, this⟩

/-- C27 is false of empty sized slices (and of items of size zero): the conversion to a vector or
boxed slice asks for an allocation of zero octets, which is undefined behaviour. -/
theorem C27_false_empty_to_vec (n itemSize : Nat) :
    ((SizedSlice.default n : SizedSlice α).intoVec itemSize : Res ε _) = .ub .zeroAlloc ∧
    ∀ s : SizedSlice α, (s.intoVec 0 : Res ε _) = .ub .zeroAlloc :=
  ⟨by unfold SizedSlice.intoVec SizedSlice.intoBoxedSlice; exact if_pos (Nat.mul_zero _), fun s => if_pos (Nat.zero_mul _)⟩

/-- C27. Decoding gives a sized slice of capacity `N` whose items are the decoded ones (as in the
model of values, `Ty.sizedSlice`), or the same error or panic. -/
theorem C27_decoded (t : Ty) (n : Nat) (i : Input) :
    (∀ s i', SizedSlice.decode t.decode n i = (.ok s, i') →
      ∃ v : (Ty.sizedSlice t n).Val, (Ty.sizedSlice t n).decode i = (.ok v, i') ∧
        s.capacity = n ∧ (s.asSlice : Res ε _) = .ok v.val) ∧
    (∀ v i', (Ty.sizedSlice t n).decode i = (.ok v, i') →
      ∃ s, SizedSlice.decode t.decode n i = (.ok s, i')) ∧
    (∀ e i', SizedSlice.decode t.decode n i = (.err e, i') ↔
      (Ty.sizedSlice t n).decode i = (.err e, i')) := by
  have hd : (Ty.sizedSlice t n).decode i = decSizedSlice t.decode n i := rfl
  rw [hd]
  unfold SizedSlice.decode decSizedSlice
  show (∀ s i', Dec.bind _ _ i = _ → ∃ v, Dec.bind _ _ i = _ ∧ _) ∧
    (∀ v i', Dec.bind _ _ i = _ → ∃ s, Dec.bind _ _ i = _) ∧
    (∀ e i', Dec.bind _ _ i = _ ↔ Dec.bind _ _ i = _)
  unfold Dec.bind
  generalize decUsize i = r
  obtain ⟨r, i1⟩ := r
  cases r with
  | err e =>
    refine ⟨fun s i' h => ?_, fun s i' h => ?_, fun e i' => ?_⟩
    · cases h
    · cases h
    · constructor <;> (intro h; cases h; rfl)
  | panic p =>
    refine ⟨fun s i' h => ?_, fun s i' h => ?_, fun e i' => ?_⟩
    · cases h
    · cases h
    · constructor <;> (intro h; cases h)
  | ub u =>
    refine ⟨fun s i' h => ?_, fun s i' h => ?_, fun e i' => ?_⟩
    · cases h
    · cases h
    · constructor <;> (intro h; cases h)
  | ok len =>
    simp only
    by_cases hlen : len > n
    · simp only [hlen, if_true]
      refine ⟨fun s i' h => ?_, fun s i' h => ?_, fun e i' => ?_⟩
      · cases h
      · cases h
      · constructor <;> (intro h; cases h; rfl)
    · simp only [hlen, if_false]
      show (∀ s i', Dec.bind _ _ i1 = _ → ∃ v, Dec.bind _ _ i1 = _ ∧ _) ∧
        (∀ v i', Dec.bind _ _ i1 = _ → ∃ s, Dec.bind _ _ i1 = _) ∧
        (∀ e i', Dec.bind _ _ i1 = _ ↔ Dec.bind _ _ i1 = _)
      unfold Dec.bind
      have hu : (SizedSlice.uninit n : List (MaybeUninit t.Val)).length = n := List.length_replicate
      rw [SizedSlice.decodeCells_eq, hu]
      generalize decItems t.decode n 0 i1 = r
      obtain ⟨r, i2⟩ := r
      cases r with
      | err e =>
        refine ⟨fun s i' h => ?_, fun s i' h => ?_, fun e i' => ?_⟩
        · cases h
        · cases h
        · constructor <;> (intro h; cases h; rfl)
      | panic p =>
        refine ⟨fun s i' h => ?_, fun s i' h => ?_, fun e i' => ?_⟩
        · cases h
        · cases h
        · constructor <;> (intro h; cases h)
      | ub u =>
        refine ⟨fun s i' h => ?_, fun s i' h => ?_, fun e i' => ?_⟩
        · cases h
        · cases h
        · constructor <;> (intro h; cases h)
      | ok vs =>
        refine ⟨fun s i' h => ?_, fun s i' h => ?_, fun e i' => ?_⟩
        · cases h
          refine ⟨_, rfl, ?_, SizedSlice.asSlice_ok.mpr ⟨?_, ?_⟩⟩
          · show (vs.val.map some).length = n
            rw [List.length_map, vs.property]
          · show len ≤ (vs.val.map some).length
            rw [List.length_map, vs.property]; omega
          · show (vs.val.map some).take len = (vs.val.take len).map some
            rw [List.map_take]
        · cases h; exact ⟨_, rfl⟩
        · constructor <;> (intro h; cases h)

example : ∃ s : SizedSlice Nat, SizedSlice.new 4 [1, 2, 3] = .ok s ∧
    (s.asSlice : Res Empty _) = .ok [1, 2, 3] ∧ (s.intoVec 8 : Res Empty _) = .ok [1, 2, 3] ∧
    s.isFull = false := ⟨_, rfl, rfl, rfl, rfl⟩
example : SizedSlice.new 2 [1, 2, 3] = .error { capacity := 2, len := 3 } := rfl
example : ∃ (s : SizedSlice (Ty.num (.int .u8)).Val) (i' : Input),
    SizedSlice.decode (Ty.num (.int .u8)).decode 2 (Input.new [1, 0, 7, 8]) = (.ok s, i') ∧
    (s.asSlice : Res Empty _) = .ok [7#8] := ⟨_, _, rfl, rfl⟩

/-- C28. `copy_from_slice` takes over data of at most `N` items. Missing: longer data, see
`C28_false_overflow`. -/
theorem C28_copy_from_slice_partial (s : SizedSlice α) (data : List α)
    (h : data.length ≤ s.capacity) :
    ∃ s', (s.copyFromSlice data : Res ε _) = .ok s' ∧ s'.capacity = s.capacity ∧
      (s'.asSlice : Res ε _) = .ok data := by
  have h' : data.length ≤ s.buf.length := h
  have hl : (data.map some ++ s.buf.drop data.length).length = s.buf.length := by
    rw [List.length_append, List.length_map, List.length_drop]; omega
  refine ⟨_, if_neg (Nat.not_lt.mpr h), hl, SizedSlice.asSlice_ok.mpr ⟨?_, ?_⟩⟩
  · show data.length ≤ (data.map some ++ s.buf.drop data.length).length
    rw [hl]; exact h
  · exact List.take_left' (List.length_map _)

/-- C28 is false: longer data are written past the end of the sized slice, whatever the sized slice
and the data. -/
theorem C28_false_overflow (s : SizedSlice α) (data : List α) (h : s.capacity < data.length) :
    (s.copyFromSlice data : Res ε _) = .ub .outOfBounds := if_pos h

example : ∃ s : SizedSlice Nat, SizedSlice.new 2 [1] = .ok s ∧ s.capacity < [4, 5, 6].length ∧
    (s.copyFromSlice [4, 5, 6] : Res Empty _) = .ub .outOfBounds := ⟨_, rfl, by decide, rfl⟩
example : ∃ s s' : SizedSlice Nat, SizedSlice.new 3 [1, 2, 3] = .ok s ∧
    (s.copyFromSlice [4] : Res Empty _) = .ok s' ∧ (s'.asSlice : Res Empty _) = .ok [4] :=
  ⟨_, _, rfl, rfl, rfl⟩

/-- C28. `set_len`, which the copy ends with: within the capacity, only the length changes, and nothing
panics; beyond it, builds with debug assertions panic. -/
theorem C28_set_len (debug : Bool) (s : SizedSlice α) (len : Nat) :
    (len ≤ s.capacity → (s.setLen debug len : Res ε _) = .ok { buf := s.buf, len := len }) ∧
    (s.capacity < len → (s.setLen true len : Res ε _) = .panic .debugAssertion) :=
  ⟨fun h => if_neg fun h' => Nat.not_lt.mpr h h'.2, fun h => if_pos ⟨rfl, h⟩⟩

example : ((⟨[some 1, some 2], 2⟩ : SizedSlice Nat).setLen true 1 : Res Empty _)
    = .ok ⟨[some 1, some 2], 1⟩ := (C28_set_len true _ 1).1 (by decide)

/-- C48. Two sized slices, of whatever capacities, are equal exactly if they hold as many items and
the items are equal one by one. -/
theorem C48_slice_eq (f : α → β → Bool) (a : SizedSlice α) (b : SizedSlice β) (l : List α) (m : List β)
    (ha : (a.asSlice : Res ε _) = .ok l) (hb : (b.asSlice : Res ε _) = .ok m) :
    ∃ r, (SizedSlice.eq f a b : Res ε Bool) = .ok r ∧
      (r = true ↔ l.length = m.length ∧
        ∀ (i : Nat) (h1 : i < l.length) (h2 : i < m.length), f l[i] m[i] = true) := by
  refine ⟨SizedSlice.eqSlice f l m, by unfold SizedSlice.eq; rw [ha, hb], ?_⟩
  clear ha hb
  induction l generalizing m with
  | nil => cases m <;> simp [SizedSlice.eqSlice]
  | cons x l ih =>
    cases m with
    | nil => simp [SizedSlice.eqSlice]
    | cons y m =>
      rw [SizedSlice.eqSlice, Bool.and_eq_true, ih]
      constructor
      · rintro ⟨h1, h2, h3⟩
        refine ⟨by simp [h2], ?_⟩
        intro i hi1 hi2
        cases i with
        | zero => exact h1
        | succ i => exact h3 i (by simpa using hi1) (by simpa using hi2)
      · rintro ⟨h1, h2⟩
        refine ⟨h2 0 (by simp) (by simp), by simpa using h1, ?_⟩
        intro i hi1 hi2
        exact h2 (i + 1) (by simpa using hi1) (by simpa using hi2)

/-- C48: with a lawful equality of items, that is equality of the held lists. -/
theorem C48_slice_eq_lawful [BEq α] [LawfulBEq α] (a b : SizedSlice α) (l m : List α)
    (ha : (a.asSlice : Res ε _) = .ok l) (hb : (b.asSlice : Res ε _) = .ok m) :
    ∃ r, (SizedSlice.eq (· == ·) a b : Res ε Bool) = .ok r ∧ (r = true ↔ l = m) := by
  obtain ⟨r, h1, h2⟩ := C48_slice_eq (· == ·) a b l m ha hb
  refine ⟨r, h1, h2.trans ⟨?_, ?_⟩⟩
  · rintro ⟨h3, h4⟩
    exact List.ext_getElem h3 fun i h5 h6 => eq_of_beq (h4 i h5 h6)
  · rintro rfl
    exact ⟨rfl, fun i _ _ => beq_self_eq_true _⟩

/-- C48. Sized slices, of whatever capacities, are ordered lexicographically by their items. -/
theorem C48_slice_cmp (cmp : α → α → Ordering) (a b : SizedSlice α) (l m : List α)
    (ha : (a.asSlice : Res ε _) = .ok l) (hb : (b.asSlice : Res ε _) = .ok m) :
    (SizedSlice.partialCmp (fun x y => some (cmp x y)) a b : Res ε _)
      = .ok (some (List.compareLex cmp l m)) := by
  unfold SizedSlice.partialCmp
  rw [ha, hb]
  simp only
  congr 1
  clear ha hb
  induction l generalizing m with
  | nil => cases m <;> simp [SizedSlice.cmpSlice, List.compareLex_nil_nil, List.compareLex_nil_cons]
  | cons x l ih =>
    cases m with
    | nil => simp [SizedSlice.cmpSlice, List.compareLex_cons_nil]
    | cons y m =>
      rw [SizedSlice.cmpSlice, List.compareLex_cons_cons]
      cases hxy : cmp x y
      · rfl
      · exact ih m
      · rfl

/-- C48. Hashing feeds the hasher with exactly the items, so equal sized slices hash alike, whatever
their capacities. Missing: hashing like the slice, see `C48_false_slice_hash`. -/
theorem C48_slice_hash_partial (a b : SizedSlice α) (l : List α)
    (ha : (a.asSlice : Res ε _) = .ok l) (hb : (b.asSlice : Res ε _) = .ok l) :
    (a.hash : Res ε _) = .ok (l.map .item) ∧ (a.hash : Res ε _) = b.hash := by
  have h1 : (a.hash : Res ε _) = .ok (l.map .item) := by unfold SizedSlice.hash; rw [ha]; rfl
  have h2 : (b.hash : Res ε _) = .ok (l.map .item) := by unfold SizedSlice.hash; rw [hb]; rfl
  exact ⟨h1, h1.trans h2.symm⟩

/-- C48 is false: no sized slice feeds the hasher like the slice it holds (and borrows as): the length
is missing. -/
theorem C48_false_slice_hash (a : SizedSlice α) (l : List α)
    (ha : (a.asSlice : Res ε _) = .ok l) :
    (a.hash : Res ε _) ≠ .ok (SizedSlice.hashSlice l) := by
  unfold SizedSlice.hash
  rw [ha]
  intro h
  have h := congrArg List.length (Res.ok.inj h)
  simp [SizedSlice.hashSlice] at h

example : ∃ a b : SizedSlice Nat, SizedSlice.new 4 [1, 2, 3] = .ok a ∧ SizedSlice.new 3 [1, 2, 3] = .ok b ∧
    (SizedSlice.eq (· == ·) a b : Res Empty _) = .ok true ∧
    (SizedSlice.partialCmp (fun x y => some (compare x y)) a b : Res Empty _) = .ok (some .eq) ∧
    (a.hash : Res Empty _) = .ok [.item 1, .item 2, .item 3] ∧
    SizedSlice.hashSlice [1, 2, 3] = [.lengthPrefix 3, .item 1, .item 2, .item 3] :=
  ⟨_, _, rfl, rfl, rfl, rfl, rfl, rfl⟩

end Oct.Props
