import Verif.Proofs.Contracts
import Verif.Props.Memory
/-
C127: what the documentation of the unsafe functions demands, against what they need. A call as
documented leaves an object with which safe code is defined, and one that is not documented may not; but
`SizedStr::from_utf8_unchecked` needs more than it says, and `SizedSlice::set_len` says more than it
needs, and than the crate itself obeys.
-/
namespace Oct.Props
open Oct Spec
set_option linter.unusedVariables false

variable {α : Type}

/-- C127. A sized slice from raw parts as documented can be looked at: it has the first `len` cells, in
each build. -/
theorem C127_from_raw_parts (debug : Bool) (buf : List (MaybeUninit α)) (len : Nat)
    (h : PartsContract buf len) :
    ∃ s l, SizedSlice.fromRawParts debug buf len = .ok s ∧ (s.asSlice : Res Empty _) = .ok l ∧
      s.capacity = buf.length ∧ l.length = len ∧ ∀ i, i < len → buf[i]? = some l[i]? := by
  obtain ⟨l, hl⟩ := SizedSlice.asSlice_iff (s := ⟨buf, len⟩) |>.mpr h
  have hn : len = l.length := SizedSlice.asSlice_len hl
  refine ⟨⟨buf, len⟩, l, if_neg fun h' => absurd h.1 (Nat.not_le.mpr h'.2), hl, rfl, hn.symm,
    fun i hi => ?_⟩
  have := congrArg (fun m => m[i]?) (SizedSlice.asSlice_ok.mp hl).2
  simp only [List.getElem?_take, if_pos hi, List.getElem?_map] at this
  rw [this, List.getElem?_eq_getElem (hn ▸ hi)]
  rfl

example : PartsContract [some 1, some 2, none] 2 :=
  ⟨by decide, fun i hi => by
    match i, hi with
    | 0, _ => exact ⟨1, rfl⟩
    | 1, _ => exact ⟨2, rfl⟩⟩

/-- C127. The condition is needed: without it, a build without debug assertions has a sized slice that
cannot be looked at. -/
theorem C127_from_raw_parts_needed (buf : List (MaybeUninit α)) (len : Nat) (h : ¬ PartsContract buf len) :
    ∃ s u, SizedSlice.fromRawParts false buf len = .ok s ∧ (s.asSlice : Res Empty _) = .ub u := by
  refine ⟨⟨buf, len⟩, ?_⟩
  have h0 : SizedSlice.fromRawParts false buf len = .ok ⟨buf, len⟩ := if_neg fun h => nomatch h.1
  cases e : (SizedSlice.asSlice ⟨buf, len⟩ : Res Empty (List α)) with
  | ok l => exact absurd (SizedSlice.asSlice_iff.mp ⟨l, e⟩) h
  | err x => exact nomatch x
  | panic p =>
    unfold SizedSlice.asSlice sliceOf at e
    split at e
    · exact nomatch e
    · split at e <;> exact nomatch e
  | ub u => exact ⟨u, h0, rfl⟩

example : ¬ PartsContract ([some 1, none] : List (MaybeUninit Nat)) 2 := fun h => by
  obtain ⟨a, ha⟩ := h.2 1 (by decide)
  exact nomatch ha

/-- C127. The parts of a sized slice are as documented, so taking it apart and putting it together again
is fine. -/
theorem C127_into_raw_parts (debug : Bool) (s : SizedSlice α) (l : List α)
    (h : (s.asSlice : Res Empty _) = .ok l) :
    PartsContract s.intoRawParts.1 s.intoRawParts.2 ∧
      SizedSlice.fromRawParts debug s.intoRawParts.1 s.intoRawParts.2 = .ok s := by
  have hp := SizedSlice.asSlice_iff.mp ⟨l, h⟩
  exact ⟨hp, if_neg fun h' => absurd hp.1 (Nat.not_le.mpr h'.2)⟩

example : ((⟨[some 1, none], 1⟩ : SizedSlice Nat).asSlice : Res Empty _) = .ok [1] := rfl

/-- C127. Making a sized slice shorter is always as documented, and leaves the first of its items. -/
theorem C127_set_len_shorter (debug : Bool) (blank : Option α) (s : SizedSlice α) (l : List α) (n : Nat)
    (h : (s.asSlice : Res Empty _) = .ok l) (hn : n ≤ l.length) :
    LenContract blank s n ∧ ∃ s', (s.setLen debug n : Res Empty _) = .ok s' ∧ s'.buf = s.buf ∧
      (s'.asSlice : Res Empty _) = .ok (l.take n) := by
  have hl := SizedSlice.asSlice_len h
  obtain ⟨h1, h2⟩ := SizedSlice.asSlice_ok.mp h
  refine ⟨⟨by omega, fun h' => by omega⟩, _, if_neg fun h' => by omega, rfl,
    SizedSlice.asSlice_ok.mpr ⟨show n ≤ s.buf.length by omega, ?_⟩⟩
  rw [List.map_take, ← h2]
  show s.buf.take n = (s.buf.take s.len).take n
  rw [List.take_take, Nat.min_eq_left (by omega)]

example : ∃ s', ((⟨[some 1, some 2], 2⟩ : SizedSlice Nat).setLen true 1 : Res Empty _) = .ok s' ∧
    s'.buf = [some 1, some 2] ∧ (s'.asSlice : Res Empty _) = .ok [1] :=
  (C127_set_len_shorter true none _ [1, 2] 1 rfl (by decide)).2

/-- C127. After `set_len` the items can be looked at exactly if the length is within the capacity and the
cells hold items, or the type has an uninitialised value. -/
theorem C127_set_len_needed (blank : Option α) (s s' : SizedSlice α) (n : Nat)
    (h : (s.setLen false n : Res Empty _) = .ok s') :
    (∃ l, ((s'.settle blank).asSlice : Res Empty _) = .ok l) ↔
      n ≤ s.buf.length ∧ (blank = none → ∀ i, i < n → ∃ a, s.buf[i]? = some (some a)) := by
  have e : s' = { s with len := n } := by
    have : (s.setLen false n : Res Empty _) = .ok { s with len := n } := if_neg fun h => nomatch h.1
    rw [this] at h
    cases h
    rfl
  subst e
  rw [← SizedSlice.settled_iff]
  constructor
  · rintro ⟨h1, h2⟩
    refine ⟨h1, fun hb i hi => ?_⟩
    subst hb
    obtain ⟨a, ha⟩ := h2 i hi
    rw [SizedSlice.settle_get] at ha
    show ∃ a, s.buf[i]? = _
    revert ha
    show (s.buf[i]?.map fun c => c.or none) = _ → _
    cases s.buf[i]? with
    | none => exact fun h => nomatch h
    | some c => exact fun h => ⟨a, by simpa using h⟩
  · rintro ⟨h1, h2⟩
    refine ⟨h1, fun i hi => ?_⟩
    cases blank with
    | none =>
      obtain ⟨a, ha⟩ := h2 rfl i hi
      refine ⟨a, ?_⟩
      rw [SizedSlice.settle_get]
      show (s.buf[i]?.map fun c => c.or none) = _
      rw [ha]
      rfl
    | some b =>
      have hi : i < s.buf.length := Nat.lt_of_lt_of_le hi h1
      rw [SizedSlice.settle_get]
      show ∃ a, (s.buf[i]?.map fun c => c.or (some b)) = _
      rw [List.getElem?_eq_getElem hi]
      cases s.buf[i] with
      | none => exact ⟨b, rfl⟩
      | some a => exact ⟨a, rfl⟩

example : ((SizedSlice.default 2 : SizedSlice Nat).setLen false 2 : Res Empty _) = .ok ⟨[none, none], 2⟩ :=
  rfl

/-- C127, for sized slices: a program whose unsafe calls are as documented is never undefined, whatever
safe functions it calls in between, and never fails a debug assertion. Missing: `copy_from_slice`, which
is safe but does not look at the capacity (C28). -/
theorem C127_history_partial (debug : Bool) (blank : Option α) (s : SizedSlice α) (l : List α)
    (ops : List (UnsafeOp α)) (hs : ((s.settle blank).asSlice : Res Empty _) = .ok l)
    (hd : Documented debug blank s ops) (hc : CopiesFit debug blank s ops) :
    Fine ops (UnsafeOp.run debug blank s ops) := by
  have h := SizedSlice.settled_iff.mpr ⟨l, hs⟩
  clear hs
  induction ops generalizing s with
  | nil => exact ⟨rfl, fun k x hx => by cases k <;> exact nomatch hx⟩
  | cons op ops ih =>
    obtain ⟨h1, -, h2⟩ := UnsafeOp.step_settled h hd hc
    obtain ⟨i1, i2⟩ := ih _ hd.2 hc.2 h1
    refine ⟨congrArg (· + 1) i1, fun k x hx => ?_⟩
    cases k with
    | zero =>
      have hx : (op.step debug blank s).1 = x := Option.some.inj hx
      subst hx
      rcases h2 with h2 | ⟨h2, i, a, e, -⟩
      · exact .inl h2
      · exact .inr ⟨h2, i, a, congrArg some e⟩
    | succ k => exact i2 k x hx

/-- C127. A new sized slice is enlarged cell by cell: a type with an uninitialised value. -/
example : UnsafeOp.run true (some (none : Option Nat)) (SizedSlice.default 2)
      [.setLen 2, .asSlice, .writePtr 1 (some 7), .asSlice, .clone, .setLen 1, .iter, .set 1 none]
    = [.ok [], .ok [none, none], .ok [], .ok [none, some 7], .ok [], .ok [], .ok [none],
        .panic .indexOutOfBounds] ∧
    Documented true (some (none : Option Nat)) (SizedSlice.default 2)
      [.setLen 2, .asSlice, .writePtr 1 (some 7), .asSlice, .clone, .setLen 1, .iter, .set 1 none] :=
  ⟨rfl, ⟨by decide, fun _ => ⟨none, rfl⟩⟩, trivial, by decide, trivial, trivial,
    ⟨by decide, fun h => absurd h (by decide)⟩, trivial, trivial, trivial⟩

/-- C127 is false for all programs: every call is as documented, and the program is undefined, for the
copy is past the end. -/
theorem C127_false_copy (debug : Bool) (blank : Option α) (n : Nat) (data : List α)
    (h : n < data.length) :
    Documented debug blank (SizedSlice.default n) [.copyFrom data] ∧
      UnsafeOp.run debug blank (SizedSlice.default n) [.copyFrom data] = [.ub .outOfBounds] := by
  refine ⟨⟨trivial, trivial⟩, ?_⟩
  have e : ((SizedSlice.default n).copyFromSlice data : Res Empty (SizedSlice α)) = .ub .outOfBounds :=
    if_pos (by simp [SizedSlice.default, SizedSlice.uninit]; omega)
  simp [UnsafeOp.run, UnsafeOp.step, e, UnsafeOp.replace]

example : 1 < [8, 9].length := by decide

/-- C127 is false the other way: what is documented is not needed. A program writes the second item
through the pointer and sets the length to two; this is defined, though no type of numbers "supports being
in a purely uninitialised state". -/
theorem C127_false_enlarge :
    ∃ ops : List (UnsafeOp Nat), ¬ Documented true none (SizedSlice.default 2) ops ∧
      UnsafeOp.run true none (SizedSlice.default 2) ops = [.ok [], .ok [], .ok [], .ok [4, 5]] := by
  refine ⟨[.writePtr 0 4, .writePtr 1 5, .setLen 2, .asSlice], fun h => ?_, rfl⟩
  obtain ⟨b, hb⟩ := h.2.2.1.2 (by decide)
  exact nomatch hb

/-- C127. The crate does so itself: `copy_from_slice` ends with `set_len` (oct/src/sized_slice/mod.rs:93),
which breaks what is documented whenever more items are copied than there were before and the type has no
uninitialised value; it is defined all the same, if they fit. -/
theorem C127_false_own (debug : Bool) (s : SizedSlice α) (data : List α) (h1 : s.len < data.length)
    (h2 : data.length ≤ s.buf.length) :
    ¬ LenContract none { s with buf := data.map some ++ s.buf.drop data.length } data.length ∧
    ∃ s', (SizedSlice.setLen debug { s with buf := data.map some ++ s.buf.drop data.length } data.length :
        Res Empty _) = .ok s' ∧
      (s.copyFromSlice data : Res Empty _) = .ok s' ∧ (s'.asSlice : Res Empty _) = .ok data := by
  refine ⟨fun h => ?_, _, if_neg fun h => ?_, if_neg (Nat.not_lt.mpr h2),
    SizedSlice.asSlice_ok.mpr ⟨?_, List.take_left' (by simp)⟩⟩
  · obtain ⟨b, hb⟩ := h.2 h1
    exact nomatch hb
  · have := h.2
    simp only [List.length_append, List.length_map] at this
    omega
  · simp

example : (SizedSlice.default 2 : SizedSlice Nat).len < [1, 2].length ∧
    [1, 2].length ≤ (SizedSlice.default 2 : SizedSlice Nat).buf.length := ⟨by decide, by decide⟩

/-- C127. A sized string from raw parts as documented is the text of the first `len` octets, in each
build; and only if so is it a text without debug assertions. -/
theorem C127_text_parts (buf : List Byte) (len : Nat) :
    (∀ debug, TextPartsContract buf len → ∃ s t, SizedStr.fromParts debug buf len = .ok s ∧
      s.asStr = .ok (some t) ∧ t.val = buf.take len) ∧
    ∀ s t, SizedStr.fromParts false buf len = .ok s → s.asStr = .ok (some t) →
      TextPartsContract buf len := by
  have e0 : ∀ debug, len ≤ buf.length →
      SizedStr.fromParts debug buf len = .ok (SizedStr.fromRawParts buf len) := by
    intro debug h
    unfold SizedStr.fromParts SizedSlice.fromRawParts
    rw [if_neg fun h' => absurd h (Nat.not_le.mpr h'.2),
      if_neg fun h' => absurd h (by have := h'.2; rw [List.length_map] at this; omega)]
    rfl
  constructor
  · intro debug h
    refine ⟨_, ⟨buf.take len, (Utf8.valid_iff _).mpr h.2⟩, e0 debug h.1, ?_, rfl⟩
    unfold SizedStr.asStr
    rw [SizedStr.fromRawParts_asBytes _ _ h.1]
    show Res.ok (dite _ _ _) = _
    rw [dif_pos ((Utf8.valid_iff _).mpr h.2)]
  · intro s t h1 h2
    have e : s = SizedStr.fromRawParts buf len := by
      unfold SizedStr.fromParts SizedSlice.fromRawParts at h1
      simp only [Bool.false_eq_true, false_and, if_false] at h1
      cases h1
      rfl
    subst e
    by_cases hl : len ≤ buf.length
    · refine ⟨hl, (Utf8.valid_iff _).mp ?_⟩
      unfold SizedStr.asStr at h2
      rw [SizedStr.fromRawParts_asBytes _ _ hl] at h2
      by_cases hv : Utf8.valid (buf.take len) = true
      · exact hv
      · have h2 : Res.ok (dite _ _ _) = Res.ok (some t) := h2
        rw [dif_neg hv] at h2
        exact nomatch h2
    · exfalso
      have : ((SizedStr.fromRawParts buf len).asBytes : Res Empty _) = .ub .outOfBounds :=
        if_pos (by simpa [SizedStr.fromRawParts] using hl)
      unfold SizedStr.asStr at h2
      rw [this] at h2
      exact nomatch h2

example : TextPartsContract [0x68, 0x69, 0xFF] 2 :=
  ⟨by decide, (Utf8.valid_iff _).mp (by decide)⟩

/-- C127, for `from_utf8_unchecked`: with octets as documented, it gives their text, in each build.
Missing from what is documented: that they fit. -/
theorem C127_unchecked_partial (debug : Bool) (n : Nat) (s : List Byte) (h : OctetsContract s)
    (hn : s.length ≤ n) :
    ∃ S t, SizedStr.fromOctets debug n s = .ok S ∧ S.asStr = .ok (some t) ∧ t.val = s ∧
      S.capacity = n := by
  have hb : (s ++ (List.replicate n (0 : Byte)).drop s.length).length = n := by
    rw [List.length_append, List.length_drop, List.length_replicate]
    omega
  have ht : (s ++ (List.replicate n (0 : Byte)).drop s.length).take s.length = s := List.take_left' rfl
  obtain ⟨S, t, h1, h2, h3⟩ := (C127_text_parts (s ++ (List.replicate n 0).drop s.length) s.length).1 debug
    ⟨by rw [hb]; exact hn, by rw [ht]; exact h⟩
  refine ⟨S, t, ?_, h2, h3.trans ht, ?_⟩
  · unfold SizedStr.fromOctets
    rw [if_neg fun h => absurd hn (Nat.not_le.mpr h.2), if_neg (Nat.not_lt.mpr hn)]
    exact h1
  · unfold SizedStr.fromParts SizedSlice.fromRawParts at h1
    split at h1
    · exact nomatch h1
    · split at h1
      · exact nomatch h1
      · cases h1
        show (List.map some _).length = n
        rw [List.length_map, hb]

example : OctetsContract [0x68, 0x69] := (Utf8.valid_iff _).mp (by decide)

/-- C127 is false for `from_utf8_unchecked`: for every capacity there is text, valid in any reading of what
is documented (each octet is a code point by itself), for which the call is undefined without debug
assertions, and panics with them. -/
theorem C127_false_unchecked (n : Nat) :
    ∃ s : List Byte, OctetsContract s ∧ (∀ b ∈ s, OctetsContract [b]) ∧
      SizedStr.fromOctets false n s = .ub .outOfBounds ∧
      SizedStr.fromOctets true n s = .panic .debugAssertion := by
  have hu : ∀ k, utf8 (List.replicate k 'a') = List.replicate k 0x61 := by
    intro k
    induction k with
    | zero => rfl
    | succ k ih =>
      rw [List.replicate_succ, utf8, List.flatMap_cons]
      show _ ++ utf8 _ = _
      rw [ih]
      rfl
  have hl : (List.replicate (n + 1) (0x61 : Byte)).length > n := by simp
  refine ⟨List.replicate (n + 1) 0x61, ⟨_, (hu (n + 1)).symm⟩, fun b hb => ?_, ?_, if_pos ⟨rfl, hl⟩⟩
  · rw [(List.mem_replicate.mp hb).2]
    exact ⟨['a'], (hu 1).symm⟩
  · unfold SizedStr.fromOctets
    rw [if_neg (show ¬ (false = true ∧ _) from fun h => nomatch h.1)]
    exact if_pos hl

example : SizedStr.fromOctets false 1 [0x61, 0x61] = .ub .outOfBounds := rfl

/-- C127. The safe functions that call it have tested the length before, so they give what is documented;
`SizedStr::from_utf8` does, in each build. -/
theorem C127_unchecked_callers (debug : Bool) (n : Nat) (s : List Byte) (hn : s.length ≤ n) :
    SizedStr.fromOctets debug n s = SizedStr.fromUtf8Unchecked n s := by
  unfold SizedStr.fromOctets SizedStr.fromUtf8Unchecked SizedStr.fromParts SizedSlice.fromRawParts
  have hb : (s ++ (List.replicate n (0 : Byte)).drop s.length).length = n := by
    rw [List.length_append, List.length_drop, List.length_replicate]
    omega
  rw [if_neg fun h => absurd hn (Nat.not_le.mpr h.2), if_neg (Nat.not_lt.mpr hn),
    if_neg (Nat.not_lt.mpr hn), if_neg fun h => absurd hn (by have := h.2; rw [hb] at this; omega),
    if_neg fun h => absurd hn (by have := h.2; rw [List.length_map, hb] at this; omega)]
  rfl

example : [0x68, 0x69].length ≤ 3 := by decide

/-- C127. The iterator made of a buffer and a length gives its items if the length is within the buffer;
else the debug assertion fails, or the iterator cannot be looked at. -/
theorem C127_iter_new (buf : List (MaybeUninit α)) (len : Nat) :
    (len ≤ buf.length → ∀ debug, SizedIter.new debug buf len = .ok { buf := buf, pos := 0, len := len }) ∧
    (buf.length < len → SizedIter.new true buf len = .panic .debugAssertion ∧
      ∃ it, SizedIter.new false buf len = .ok it ∧ it.asSlice = .ub .outOfBounds) :=
  ⟨fun h _ => if_neg fun h' => absurd h (Nat.not_le.mpr h'.2),
   fun h => ⟨if_pos ⟨rfl, h⟩, _, if_neg fun h' => (nomatch h'.1), if_pos h⟩⟩

example : SizedIter.new true [some 1, none] 1 = .ok { buf := [some 1, none], pos := 0, len := 1 } := rfl

/-- C127. `set_len_unchecked` as documented is `set_len`; if the length is beyond the capacity, the slot
cannot be looked at, or the debug assertion fails. -/
theorem C127_slot_len (s : Slot) (len : Nat) :
    (∀ debug, SlotLenContract s len → ∃ s', s.setLenUnchecked debug len = .ok s' ∧
      s.setLen len = (.ok (), s') ∧ s'.asSlice = .ok (s.buf.take len)) ∧
    (¬ SlotLenContract s len → s.setLenUnchecked true len = .panic .debugAssertion ∧
      ∃ s', s.setLenUnchecked false len = .ok s' ∧ s'.asSlice = .ub .outOfBounds) :=
  ⟨fun debug h => ⟨_, if_neg fun h' => absurd h (Nat.not_le.mpr h'.2), if_pos h,
    if_neg (Nat.not_lt.mpr h)⟩,
   fun h => ⟨if_pos ⟨rfl, Nat.lt_of_not_le h⟩, _, if_neg fun h' => (nomatch h'.1),
    if_pos (Nat.lt_of_not_le h)⟩⟩

example : SlotLenContract (Slot.withCapacity 4) 3 := show 3 ≤ 4 by decide

theorem showsHeap_adopt {m : Mem Byte} {ptr : Ptr} {cap len : Nat} {d : List Byte}
    (h : SlotPartsContract m ptr cap len d) :
    ShowsHeap (if cap = 0 then m else m.free ptr.alloc) ⟨[RawSlot.fromRawParts ptr cap len], m⟩ [⟨d, len⟩]
    where
  length := rfl
  shows_ := fun i s S h1 h2 => by
    match i, h1, h2 with
    | 0, h1, h2 =>
      cases h1
      cases h2
      exact ⟨⟨h.1.symm, h.2.1⟩, rfl, by rw [h.1]; exact h.2.2⟩
  apart := fun i j s s' hij h1 h2 => by
    match i, j, h1, h2 with
    | 0, 0, _, _ => exact absurd rfl hij
    | _ + 1, _, h1, _ => exact nomatch h1
    | _, _ + 1, _, h2 => exact nomatch h2
  fresh := fun i s h1 hn => by
    match i, h1 with
    | 0, h1 =>
      cases h1
      have hn : cap ≠ 0 := hn
      show (if cap = 0 then m else m.free ptr.alloc) ptr.alloc = none
      rw [if_neg hn]
      exact if_pos rfl
  rest := fun a ha => by
    show m a = _
    split
    · rfl
    · exact (if_neg fun e => ha 0 _ rfl (by assumption) e.symm).symm

/-- C127. A slot from raw parts as documented is the slot with that array: every history of slots in
memory that begins with it gives what it would with slots as values, and is never undefined (but for an
invalid `char`, C17). When all slots have been dropped, the array has been given back, and memory is
otherwise what it was. -/
theorem C127_slot_parts (m : Mem Byte) (ptr : Ptr) (cap len : Nat) (d : List Byte)
    (h : SlotPartsContract m ptr cap len d) (ops : List HeapOp) (xs : List HeapOut) (h' : SlotHeap)
    (hr : HeapOp.RawRun ops ⟨[RawSlot.fromRawParts ptr cap len], m⟩ xs h') :
    (∃ L, HeapOp.steps ops [⟨d, len⟩] = some (xs, L)) ∧
    (∀ u, .unit (.ub u) ∉ xs ∧ .enc (.ub u) ∉ xs ∧ .bytes (.ub u) ∉ xs ∧
      ∀ t, .dec t (.ub u) ∈ xs → u = .invalidChar) ∧
    (h'.slots = [] → ∀ a, h'.mem a = if cap ≠ 0 ∧ a = ptr.alloc then none else m a) := by
  obtain ⟨L, e, H⟩ := hr.shows (showsHeap_adopt h)
  refine ⟨⟨L, e⟩, C79_undefined_from hr (showsHeap_adopt h), fun hd a => ?_⟩
  rw [H.rest a fun i s hs => by rw [hd] at hs; exact nomatch hs]
  by_cases hc : cap = 0
  · rw [if_pos hc, if_neg fun h => h.1 hc]
  · rw [if_neg hc]
    by_cases ha : a = ptr.alloc
    · rw [if_pos ⟨hc, ha⟩, ha]
      exact if_pos rfl
    · rw [if_neg fun h => ha h.2]
      exact if_neg ha

example : SlotPartsContract sampleMem ⟨0, 0⟩ 4 3 [1, 2, 3, 4] := ⟨rfl, fun _ => ⟨rfl, rfl⟩, by decide⟩

/-- C127. What is documented for `Slot::from_raw_parts` is needed: a slot that can be dropped has an
array of just its capacity, and one that can be looked at has a length within it and initialised octets up
to there. -/
theorem C127_slot_parts_needed (m m' : Mem Byte) (ptr : Ptr) (cap len : Nat) (l : List Byte)
    (hd : (RawSlot.fromRawParts ptr cap len).drop m = .ok m') (hc : cap ≠ 0)
    (hl : (RawSlot.fromRawParts ptr cap len).asSlice m = .ok l) :
    ∃ c, m ptr.alloc = some c ∧ c.length = cap ∧ ptr.off = 0 ∧ len ≤ cap ∧ c.take len = l.map some := by
  unfold RawSlot.drop at hd
  rw [if_neg (show ¬ (RawSlot.fromRawParts ptr cap len).buf.len = 0 from hc)] at hd
  split at hd
  · exact nomatch hd
  · rename_i c hm
    split at hd
    · rename_i h1
      have h0 : ptr.off = 0 := h1.1
      refine ⟨c, hm, h1.2, h1.1, ?_⟩
      unfold RawSlot.asSlice at hl
      split at hl
      · rename_i l' hv
        cases hl
        have hv : m.values ptr len = .ok l := hv
        unfold Mem.values at hv
        split at hv
        · exact nomatch hv
        · rename_i cells hload
          split at hv
          · rename_i l'' hi
            cases hv
            have hi := initAll_eq_some.mp hi
            unfold Mem.load at hload
            split at hload
            · rename_i hz
              cases hload
              subst hz
              exact ⟨Nat.zero_le _, by rw [List.take_zero]; exact hi⟩
            · have hm : m ptr.alloc = some c := hm
              rw [hm] at hload
              simp only at hload
              split at hload
              · rename_i hle
                cases hload
                rw [h0, List.drop_zero] at hi
                have h2 : c.length = cap := h1.2
                exact ⟨by omega, hi⟩
              · exact nomatch hload
          · exact nomatch hv
      · exact nomatch hl
    · exact nomatch hd

example : (RawSlot.fromRawParts ⟨0, 0⟩ 4 3).asSlice sampleMem = .ok [1, 2, 3] := rfl

end Oct.Props
