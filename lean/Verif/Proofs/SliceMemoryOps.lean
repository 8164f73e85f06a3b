import Verif.Proofs.SliceMemory
/- Lemmas for C123: each operation in memory is the operation on values. -/
namespace Oct
open Spec
set_option linter.unusedVariables false
variable {α : Type}

theorem ShowsObj.slice_inv {m : Mem α} {s : RawSized} {O : SliceObj α} (h : ShowsObj m (.slice s) O) :
    ∃ S l, O = .slice S ∧ s = ⟨⟨s.ptr.alloc, 0⟩, S.buf.length, S.len⟩ ∧ m s.ptr.alloc = some S.buf ∧
      (S.asSlice : Res Empty (List α)) = .ok l := by
  cases O with
  | slice S =>
    obtain ⟨h1, h2, h3, h4, l, h5⟩ := h
    refine ⟨S, l, rfl, ?_, h2, h5⟩
    obtain ⟨⟨a, o⟩, c, n⟩ := s
    cases h1; cases h3; cases h4
    rfl
  | iter I => exact h.elim
  | boxed l => exact h.elim

theorem ShowsObj.iter_inv {m : Mem α} {it : RawIter} {O : SliceObj α} (h : ShowsObj m (.iter it) O) :
    ∃ I, O = .iter I ∧ it = ⟨⟨it.ptr.alloc, 0⟩, I.buf.length, I.pos, I.len⟩ ∧
      m it.ptr.alloc = some I.buf ∧ I.pos + I.len ≤ I.buf.length := by
  cases O with
  | slice S => exact h.elim
  | iter I =>
    obtain ⟨h1, h2, h3, h4, h5, h6⟩ := h
    refine ⟨I, rfl, ?_, h2, h6⟩
    obtain ⟨⟨a, o⟩, c, p, n⟩ := it
    cases h1; cases h3; cases h4; cases h5
    rfl
  | boxed l => exact h.elim

theorem ShowsObj.boxed_inv {m : Mem α} {b : RawSlice} {O : SliceObj α} (h : ShowsObj m (.boxed b) O) :
    ∃ l, O = .boxed l ∧ b = ⟨⟨b.ptr.alloc, 0⟩, l.length⟩ ∧ m b.ptr.alloc = some (l.map some) := by
  cases O with
  | slice S => exact h.elim
  | iter I => exact h.elim
  | boxed l =>
    obtain ⟨h1, h2, h3⟩ := h
    refine ⟨l, rfl, ?_, h2⟩
    obtain ⟨⟨a, o⟩, n⟩ := b
    cases h1; cases h3
    rfl

theorem Mem.free_alloc2 {m : Mem α} {a b : Nat} (c d : List (Option α)) (hb : m b = none) (hab : a ≠ b) :
    ((m.alloc b c).alloc a d).free b = m.alloc a d := by
  rw [free_alloc_ne _ _ hab, free_alloc _ hb]

namespace RawSized

theorem new_eq {m : Mem α} {a b : Nat} (hab : a ≠ b) (hb : m b = none) (n : Nat) (data : List α) :
    (new a n ⟨⟨b, 0⟩, data.length⟩ (m.alloc b (data.map some))).map (fun (s, m) => (s, m.free b))
      = match SizedSlice.new n data with
        | .ok S => .ok (⟨⟨a, 0⟩, S.buf.length, S.len⟩, m.alloc a S.buf)
        | .error e => .err e := by
  unfold new SizedSlice.new
  simp only
  split
  · rfl
  · next hn =>
    have hmin : min n data.length = data.length := by omega
    have key := Mem.cloneLoop_eq (src := ⟨b, 0⟩) (dst := ⟨a, 0⟩) (Ne.symm hab) rfl rfl
      (c := data.map some) data.length 0 ((m.alloc b (data.map some)).alloc a (List.replicate n none))
      (List.replicate n none) (by rw [Mem.alloc_ne _ _ (Ne.symm hab)]; exact Mem.alloc_same _ _ _)
      (Mem.alloc_same _ _ _) (by rw [List.length_map]; omega) (by rw [List.length_replicate]; omega)
    rw [List.drop_zero, List.take_of_length_le (by rw [List.length_map]; exact Nat.le_refl _),
      initAll_map_some] at key
    rw [hmin, Mem.uninitAt, key]
    simp only [Res.map]
    rw [Mem.alloc_alloc, Mem.free_alloc2 _ _ hb hab,
      SizedSlice.zipWrite_uninit _ _ (by omega)]
    simp
    omega

theorem fromIter_eq (m : Mem α) (a n : Nat) (items : List α) :
    fromIter a n items m = .ok (⟨⟨a, 0⟩, (SizedSlice.fromIter n items).buf.length,
      (SizedSlice.fromIter n items).len⟩, m.alloc a (SizedSlice.fromIter n items).buf) := by
  unfold fromIter
  rw [Mem.uninitAt, Mem.fillLoop_eq (p := ⟨a, 0⟩) rfl items 0 (m.alloc a (List.replicate n none))
    (List.replicate n none) (Mem.alloc_same _ _ _) List.length_replicate (Nat.zero_le _)]
  simp only
  have hs := SizedSlice.fillFrom_spec (SizedSlice.uninit (α := α) n) items
  unfold SizedSlice.fromIter
  simp only [SizedSlice.uninit, List.length_replicate] at hs ⊢
  rw [hs.1, hs.2.1, Mem.alloc_alloc, List.take_zero, List.drop_zero, List.nil_append,
    Nat.zero_add, Nat.sub_zero]

theorem fromArray_eq {m : Mem α} {a b : Nat} (hab : a ≠ b) (hb : m b = none) (items : List α) :
    (fromArray a ⟨⟨b, 0⟩, items.length⟩ (m.alloc b (items.map some))).map (fun (s, m) => (s, m.free b))
      = .ok (⟨⟨a, 0⟩, (SizedSlice.fromArray false items).buf.length,
          (SizedSlice.fromArray false items).len⟩, m.alloc a (SizedSlice.fromArray false items).buf) := by
  unfold fromArray
  simp only
  rw [Mem.uninitAt, Mem.copy_in (src := ⟨b, 0⟩) (dst := ⟨a, 0⟩) (c := items.map some)
    (d := List.replicate items.length none)
    (by rw [Mem.alloc_ne _ _ (Ne.symm hab)]; exact Mem.alloc_same _ _ _)
    (Mem.alloc_same _ _ _) (Ne.symm hab) (by simp) (by simp)]
  simp only [Res.map]
  rw [Mem.alloc_alloc, Mem.free_alloc2 _ _ hb hab]
  simp [SizedSlice.fromArray, List.take_of_length_le]

theorem asSlice_eq {m : Mem α} {a : Nat} {S : SizedSlice α} (h : m a = some S.buf) :
    asSlice ⟨⟨a, 0⟩, S.buf.length, S.len⟩ m = S.asSlice := Mem.values_eq h _

theorem copyData_eq {m : Mem α} {a b : Nat} {S : SizedSlice α} (h : m a = some S.buf) (hb : m b = none)
    (data : List α) :
    (copyFromSlice ⟨⟨a, 0⟩, S.buf.length, S.len⟩ ⟨⟨b, 0⟩, data.length⟩ (m.alloc b (data.map some))).map
        (fun (s, m) => (s, m.free b))
      = (S.copyFromSlice data : Res Empty _).map
          fun S' => (⟨⟨a, 0⟩, S'.buf.length, S'.len⟩, m.alloc a S'.buf) := by
  have hab : a ≠ b := fun e => by rw [e, hb] at h; cases h
  have ha : m.alloc b (data.map some) a = some S.buf := by rw [Mem.alloc_ne _ _ hab]; exact h
  unfold copyFromSlice SizedSlice.copyFromSlice
  simp only
  by_cases hn : data.length > S.buf.length
  · rw [if_pos hn, Mem.copy_out (src := ⟨b, 0⟩) (dst := ⟨a, 0⟩) (Mem.alloc_same _ _ _) ha (Ne.symm hab)
      (by simp) (by show _ < 0 + _; omega) (by omega)]
    rfl
  · rw [if_neg hn, Mem.copy_in (src := ⟨b, 0⟩) (dst := ⟨a, 0⟩) (Mem.alloc_same _ _ _) ha (Ne.symm hab)
      (by simp) (by show 0 + _ ≤ _; omega)]
    simp only [Res.map]
    rw [Mem.free_alloc2 _ _ hb hab]
    simp [List.take_of_length_le]
    omega

theorem copyFrom_eq {m : Mem α} {a b : Nat} {S Q : SizedSlice α} {l : List α} (h : m a = some S.buf)
    (hb : m b = some Q.buf) (hab : a ≠ b) (hQ : (Q.asSlice : Res Empty (List α)) = .ok l) :
    copyFromSlice ⟨⟨a, 0⟩, S.buf.length, S.len⟩ ⟨⟨b, 0⟩, Q.len⟩ m
      = (S.copyFromSlice l : Res Empty _).map
          fun S' => (⟨⟨a, 0⟩, S'.buf.length, S'.len⟩, m.alloc a S'.buf) := by
  have hl := SizedSlice.asSlice_len hQ
  obtain ⟨h1, h2⟩ := SizedSlice.asSlice_ok.mp hQ
  unfold copyFromSlice SizedSlice.copyFromSlice
  simp only
  by_cases hn : l.length > S.buf.length
  · rw [if_pos hn, Mem.copy_out (src := ⟨b, 0⟩) (dst := ⟨a, 0⟩) hb h (Ne.symm hab)
      (by show 0 + _ ≤ _; omega) (by show _ < 0 + _; omega) (by omega)]
    rfl
  · rw [if_neg hn, Mem.copy_in (src := ⟨b, 0⟩) (dst := ⟨a, 0⟩) hb h (Ne.symm hab)
      (by show 0 + _ ≤ _; omega) (by show 0 + _ ≤ _; omega)]
    simp only [Res.map]
    rw [List.drop_zero, h2, List.take_zero, List.nil_append, Nat.zero_add, hl]
    simp
    omega

theorem values_slice {m : Mem α} {a : Nat} {S : SizedSlice α} {l : List α} (h : m a = some S.buf)
    (hS : (S.asSlice : Res Empty (List α)) = .ok l) : m.values ⟨a, 0⟩ S.len = .ok l := by
  obtain ⟨h1, h2⟩ := SizedSlice.asSlice_ok.mp hS
  rw [Mem.values_off h (by omega), List.drop_zero, h2, initAll_map_some]

theorem setIndex_eq {m : Mem α} {a : Nat} {S : SizedSlice α} {l : List α} (h : m a = some S.buf)
    (hS : (S.asSlice : Res Empty (List α)) = .ok l) (i : Nat) (v : α) :
    setIndex ⟨⟨a, 0⟩, S.buf.length, S.len⟩ i v m
      = (S.setIndex i v : Res Empty _).map fun S' => m.alloc a S'.buf := by
  have hl := SizedSlice.asSlice_len hS
  have h1 := (SizedSlice.asSlice_ok.mp hS).1
  unfold setIndex SizedSlice.setIndex
  rw [values_slice h hS, hS]
  simp only
  rw [hl]
  split
  · next hi =>
    rw [Mem.writeAt_in h (by show 0 + _ < _; omega), Nat.zero_add]
    rfl
  · rfl

theorem clone_eq {m : Mem α} {a c : Nat} {S : SizedSlice α} {l : List α} (h : m a = some S.buf)
    (hS : (S.asSlice : Res Empty (List α)) = .ok l) (hc : m c = none) :
    clone c ⟨⟨a, 0⟩, S.buf.length, S.len⟩ m
      = (S.clone : Res Empty _).map fun S' => (⟨⟨c, 0⟩, S'.buf.length, S'.len⟩, m.alloc c S'.buf) := by
  have hac : a ≠ c := fun e => by rw [e, hc] at h; cases h
  obtain ⟨h1, h2⟩ := SizedSlice.asSlice_ok.mp hS
  have hl := SizedSlice.asSlice_len hS
  unfold clone SizedSlice.clone
  rw [SizedSlice.copyCells_eq _ _ h1, h2, initAll_map_some]
  simp only [Option.map_some]
  have key := Mem.cloneLoop_eq (src := ⟨a, 0⟩) (dst := ⟨c, 0⟩) hac rfl rfl (c := S.buf) S.len 0
    (m.alloc c (List.replicate S.buf.length none)) (List.replicate S.buf.length none)
    (by rw [Mem.alloc_ne _ _ hac]; exact h) (Mem.alloc_same _ _ _) (by omega)
    (by rw [List.length_replicate]; omega)
  rw [List.drop_zero, h2, initAll_map_some] at key
  rw [Mem.uninitAt, key]
  simp only [Res.map]
  rw [Mem.alloc_alloc]
  simp
  omega

theorem eachLoop_eq {p : Ptr} {m : Mem α} {c : List (Option α)} (h : m p.alloc = some c)
    (h0 : p.off = 0) : ∀ (k i : Nat) (buf : List (MaybeUninit Ptr)), i + k ≤ c.length →
    buf.length = c.length →
    eachLoop p m k i buf = .ok (buf.take i ++ (List.range' i k).map (fun j => some ⟨p.alloc, j⟩)
      ++ buf.drop (i + k))
  | 0, i, buf, hk, hb => by
    rw [eachLoop]; simp
  | k + 1, i, buf, hk, hb => by
    rw [eachLoop, if_pos (by omega), Mem.add_in h (by omega), h0, Nat.zero_add]
    simp only
    rw [eachLoop_eq h h0 k (i + 1) _ (by omega) (by rw [List.length_set]; exact hb)]
    have e1 : (buf.set i (some ⟨p.alloc, i⟩)).take (i + 1) = buf.take i ++ [some ⟨p.alloc, i⟩] := by
      rw [List.set_eq_take_append_cons_drop, if_pos (by omega), List.take_append]
      rw [List.take_of_length_le (by rw [List.length_take]; omega), List.length_take,
        show i + 1 - min i buf.length = 1 by omega]
      rfl
    have e2 : (buf.set i (some ⟨p.alloc, i⟩)).drop (i + 1 + k) = buf.drop (i + (k + 1)) := by
      rw [List.drop_set_of_lt (by omega)]
      congr 1
      omega
    rw [e1, e2, List.range'_succ]
    simp [List.append_assoc]

/-- The references are to the items, in order. -/
theorem eachRef_eq {m : Mem α} {a : Nat} {S : SizedSlice α} {l : List α} (h : m a = some S.buf)
    (hS : (S.asSlice : Res Empty (List α)) = .ok l) :
    ∃ R, eachRef ⟨⟨a, 0⟩, S.buf.length, S.len⟩ m = .ok R ∧ R.buf.length = S.buf.length ∧
      (R.asSlice : Res Empty (List Ptr)) = .ok ((List.range S.len).map fun j => ⟨a, j⟩) := by
  obtain ⟨h1, h2⟩ := SizedSlice.asSlice_ok.mp hS
  unfold eachRef
  rw [eachLoop_eq h rfl S.len 0 _ (by omega) (by rw [List.length_replicate])]
  refine ⟨_, rfl, ?_, ?_⟩
  · simp; omega
  · refine SizedSlice.asSlice_ok.mpr ⟨?_, ?_⟩
    · simp
    · simp only [List.take_zero, List.nil_append, Nat.zero_add]
      rw [List.take_append_of_le_length (by simp), List.take_of_length_le (by simp),
        List.map_map, List.range_eq_range']
      rfl

theorem readAll_eq {m : Mem α} {a : Nat} {c : List (Option α)} (h : m a = some c) :
    ∀ (k i : Nat) (l : List α), (c.drop i).take k = l.map some → i + k ≤ c.length →
    SliceOp.readAll m ((List.range' i k).map fun j => ⟨a, j⟩) = .ok l
  | 0, i, l, hl, _ => by
    rw [List.take_zero] at hl
    cases l with
    | nil => rfl
    | cons _ _ => cases hl
  | k + 1, i, l, hl, hk => by
    rw [List.drop_eq_getElem_cons (by omega), List.take_succ_cons] at hl
    cases l with
    | nil => cases hl
    | cons v l =>
      obtain ⟨e1, e2⟩ := List.cons.inj hl
      rw [List.range'_succ, List.map_cons, SliceOp.readAll, Mem.readAt_eq (p := ⟨a, i⟩) h]
      simp only [Nat.add_zero]
      rw [List.getElem?_eq_getElem (by omega), e1, readAll_eq h k (i + 1) l e2 (by omega)]

theorem rawRefs_eq {m : Mem α} {a : Nat} {S : SizedSlice α} {l : List α} (h : m a = some S.buf)
    (hS : (S.asSlice : Res Empty (List α)) = .ok l) :
    SliceOp.rawRefs ⟨⟨a, 0⟩, S.buf.length, S.len⟩ m = .ok l := by
  obtain ⟨h1, h2⟩ := SizedSlice.asSlice_ok.mp hS
  obtain ⟨R, hR, -, hR'⟩ := eachRef_eq h hS
  unfold SliceOp.rawRefs
  rw [hR]
  simp only
  rw [hR']
  simp only
  rw [List.range_eq_range', readAll_eq h S.len 0 l (by rw [List.drop_zero]; exact h2) (by omega)]

theorem rawSetByRef_eq {m : Mem α} {a : Nat} {S : SizedSlice α} {l : List α} (h : m a = some S.buf)
    (hS : (S.asSlice : Res Empty (List α)) = .ok l) (k : Nat) (v : α) :
    SliceOp.rawSetByRef ⟨⟨a, 0⟩, S.buf.length, S.len⟩ k v m
      = (S.setIndex k v : Res Empty _).map fun S' => m.alloc a S'.buf := by
  have hl := SizedSlice.asSlice_len hS
  have h1 := (SizedSlice.asSlice_ok.mp hS).1
  obtain ⟨R, hR, -, hR'⟩ := eachRef_eq h hS
  unfold SliceOp.rawSetByRef SizedSlice.setIndex
  rw [hR, hS]
  simp only
  rw [hR', hl]
  simp only
  by_cases hk : k < l.length
  · rw [if_pos hk, List.getElem?_map, List.getElem?_range hk]
    simp only [Option.map_some]
    rw [Mem.writeAt_in (p := ⟨a, k⟩) h (by show k + 0 < _; omega)]
    rfl
  · rw [if_neg hk, List.getElem?_map, List.getElem?_eq_none (by simp; omega)]
    rfl

theorem intoBoxed_eq {m : Mem α} {a c : Nat} {S : SizedSlice α} {l : List α} (h : m a = some S.buf)
    (hS : (S.asSlice : Res Empty (List α)) = .ok l) (hc : m c = none) (z : Nat) :
    intoBoxedSlice z c ⟨⟨a, 0⟩, S.buf.length, S.len⟩ m
      = (S.intoBoxedSlice z : Res Empty _).map
          fun l => (⟨⟨c, 0⟩, l.length⟩, (m.alloc c (l.map some)).free a) := by
  have hac : a ≠ c := fun e => by rw [e, hc] at h; cases h
  obtain ⟨h1, h2⟩ := SizedSlice.asSlice_ok.mp hS
  have hl := SizedSlice.asSlice_len hS
  unfold intoBoxedSlice SizedSlice.intoBoxedSlice
  simp only
  split
  · rfl
  · rw [show sliceOf S.buf S.len = (.ok l : Res Empty _) from hS, Mem.uninitAt,
      Mem.copy_in (src := ⟨a, 0⟩) (dst := ⟨c, 0⟩)
      (by rw [Mem.alloc_ne _ _ hac]; exact h) (Mem.alloc_same _ _ _) hac
      (by show 0 + _ ≤ _; omega) (by simp)]
    simp only [Res.map]
    rw [Mem.alloc_alloc, List.drop_zero, h2, hl]
    simp

theorem intoIter_eq {m : Mem α} {a c : Nat} {S : SizedSlice α} (h : m a = some S.buf)
    (hc : m c = none) :
    intoIter c ⟨⟨a, 0⟩, S.buf.length, S.len⟩ m
      = .ok (⟨⟨c, 0⟩, S.intoIter.buf.length, S.intoIter.pos, S.intoIter.len⟩,
          (m.alloc c S.intoIter.buf).free a) := by
  have hac : a ≠ c := fun e => by rw [e, hc] at h; cases h
  unfold intoIter
  simp only
  rw [Mem.uninitAt, Mem.copy_in (src := ⟨a, 0⟩) (dst := ⟨c, 0⟩)
    (by rw [Mem.alloc_ne _ _ hac]; exact h) (Mem.alloc_same _ _ _) hac
    (by show 0 + _ ≤ _; omega) (by simp)]
  simp only
  rw [Mem.alloc_alloc]
  simp [SizedSlice.intoIter]

end RawSized

namespace RawIter

theorem asSlice_eq {m : Mem α} {a : Nat} {I : SizedIter α} (h : m a = some I.buf)
    (hl : I.pos + I.len ≤ I.buf.length) :
    asSlice ⟨⟨a, 0⟩, I.buf.length, I.pos, I.len⟩ m = I.asSlice := by
  unfold asSlice SizedIter.asSlice sliceOf
  rw [Mem.add_in h (by show 0 + I.pos ≤ _; omega), if_neg (by rw [List.length_drop]; omega)]
  simp only
  rw [Nat.zero_add, Mem.values_off h hl]
  cases initAll ((I.buf.drop I.pos).take I.len) <;> rfl

theorem setIndex_eq {m : Mem α} {a : Nat} {I : SizedIter α} (h : m a = some I.buf)
    (hl : I.pos + I.len ≤ I.buf.length) (i : Nat) (v : α) :
    setIndex ⟨⟨a, 0⟩, I.buf.length, I.pos, I.len⟩ i v m
      = (I.setIndex i v).map fun I' => m.alloc a I'.buf := by
  unfold setIndex SizedIter.setIndex SizedIter.asSlice sliceOf
  rw [Mem.add_in h (by show 0 + I.pos ≤ _; omega), if_neg (by rw [List.length_drop]; omega)]
  simp only
  rw [Nat.zero_add, Mem.values_off h hl]
  cases hv : initAll ((I.buf.drop I.pos).take I.len) with
  | none => rfl
  | some l =>
    have := congrArg List.length (initAll_eq_some.mp hv)
    rw [List.length_take, List.length_drop, List.length_map] at this
    have e : I.len = l.length := by omega
    simp only
    rw [e]
    split
    · rw [Mem.writeAt_in (p := ⟨a, I.pos⟩) h (by show I.pos + _ < _; omega)]
      rfl
    · rfl

theorem next_eq {m : Mem α} {a : Nat} {I : SizedIter α} (h : m a = some I.buf) :
    next ⟨⟨a, 0⟩, I.buf.length, I.pos, I.len⟩ m
      = I.next.map fun (x, I') =>
          (x, ⟨⟨a, 0⟩, I'.buf.length, I'.pos, I'.len⟩, m.alloc a I'.buf) := by
  unfold next SizedIter.next
  split
  · simp only [Res.map]; rw [Mem.alloc_self h]
  · rw [Mem.moveAt_eq h, Nat.zero_add]
    unfold SizedIter.take
    cases I.buf[I.pos]? with
    | none => rfl
    | some x =>
      cases x with
      | none => rfl
      | some v => simp [Res.map]

theorem nextBack_eq {m : Mem α} {a : Nat} {I : SizedIter α} (h : m a = some I.buf) :
    nextBack ⟨⟨a, 0⟩, I.buf.length, I.pos, I.len⟩ m
      = I.nextBack.map fun (x, I') =>
          (x, ⟨⟨a, 0⟩, I'.buf.length, I'.pos, I'.len⟩, m.alloc a I'.buf) := by
  unfold nextBack SizedIter.nextBack
  split
  · simp only [Res.map]; rw [Mem.alloc_self h]
  · rw [Mem.moveAt_eq h, Nat.zero_add]
    unfold SizedIter.take
    cases I.buf[I.pos + I.len - 1]? with
    | none => rfl
    | some x =>
      cases x with
      | none => rfl
      | some v => simp [Res.map]

theorem nth_eq {m : Mem α} {a : Nat} {I : SizedIter α} (h : m a = some I.buf)
    (hl : I.pos + I.len ≤ I.buf.length) (checks : Bool) (k : Nat) :
    nth checks ⟨⟨a, 0⟩, I.buf.length, I.pos, I.len⟩ k m
      = (I.nth checks k).map fun (x, I') =>
          (x, ⟨⟨a, 0⟩, I'.buf.length, I'.pos, I'.len⟩, m.alloc a I'.buf) := by
  unfold nth SizedIter.nth
  simp only
  split
  · simp only [Res.map]; rw [Mem.alloc_self h]
  · split
    · split <;> rfl
    · split
      · rfl
      · next h1 h2 h3 =>
        unfold SizedIter.dropRange
        rw [Mem.dropLoop_eq rfl _ _ _ _ h (by omega)]
        cases hv : initAll ((I.buf.drop I.pos).take (I.pos + k - 1 - I.pos)) with
        | none => rfl
        | some l =>
          simp only
          rw [Mem.moveAt_eq (p := ⟨a, 0⟩) (Mem.alloc_same _ _ _), Nat.zero_add,
            show I.pos + (I.pos + k - 1 - I.pos) = I.pos + k - 1 by omega]
          unfold SizedIter.take
          generalize hc : (I.buf.take I.pos ++ List.replicate (I.pos + k - 1 - I.pos) none
            ++ I.buf.drop (I.pos + k - 1)) = c
          have hcl : c.length = I.buf.length := by
            rw [← hc]; simp; omega
          cases c[k]? with
          | none => rfl
          | some x =>
            cases x with
            | none => rfl
            | some v => simp [Res.map, hcl, Mem.alloc_alloc]

theorem clone_eq {m : Mem α} {a c : Nat} {I : SizedIter α} (h : m a = some I.buf)
    (hl : I.pos + I.len ≤ I.buf.length) (hc : m c = none) :
    clone c ⟨⟨a, 0⟩, I.buf.length, I.pos, I.len⟩ m
      = I.clone.map fun I' => (⟨⟨c, 0⟩, I'.buf.length, I'.pos, I'.len⟩, m.alloc c I'.buf) := by
  have hac : a ≠ c := fun e => by rw [e, hc] at h; cases h
  unfold clone SizedIter.clone
  simp only
  rw [SizedSlice.copyCells_eq _ _ (by rw [List.length_drop]; omega), Mem.uninitAt,
    Mem.cloneLoop_eq (src := ⟨a, 0⟩) (dst := ⟨c, 0⟩) hac rfl rfl (c := I.buf) I.len I.pos _
    (List.replicate I.buf.length none)
    (by rw [Mem.alloc_ne _ _ hac]; exact h) (Mem.alloc_same _ _ _) (by omega)
    (by rw [List.length_replicate]; omega)]
  cases hv : initAll ((I.buf.drop I.pos).take I.len) with
  | none => rfl
  | some l =>
    have := congrArg List.length (initAll_eq_some.mp hv)
    rw [List.length_take, List.length_drop, List.length_map] at this
    simp only [Option.map_some]
    rw [if_neg (by omega), Mem.alloc_alloc]
    simp only [Res.map]
    have e : min I.pos I.buf.length = I.pos := by omega
    simp [SizedSlice.uninit, e, Nat.sub_sub]
    omega

end RawIter
end Oct
