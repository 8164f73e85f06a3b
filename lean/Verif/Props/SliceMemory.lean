import Verif.Proofs.SliceMemoryList
import Verif.Model.SizedStr
/-
C123. Sized slices and their iterators use only memory of their own.
-/
namespace Oct.Props
open Oct.Spec
variable {α : Type}

/-- C123 (part). A program makes, changes, converts and drops any number of sized slices, iterators and
boxed slices, in any order, and memory is given to it anywhere. What it gets is what it would get for
values (Model/SizedSlice), where there is no memory; afterwards the objects in memory are those values,
and memory outside them is as it was. Also where the outcome is undefined, it is so for the values. -/
theorem C123_histories_partial (cfg : SliceCfg) (base : Mem α) (ops : List (SliceOp α))
    (xs : List (SliceOut α)) (h' : SliceHeap α) (hr : SliceOp.RawRun cfg ops ⟨[], base⟩ xs h') :
    ∃ L', SliceOp.run cfg ops [] = some (xs, L') ∧ ShowsSlices base h' L' :=
  hr.shows (showsSlices_nil base)

/-- C123 (part). If the program copies nothing that does not fit, boxes no empty sized slice and does not
call `nth`, then what it gets is what lists with a capacity would give, and it is never undefined;
afterwards each object holds its list, in cells that nothing else has. This is for items of some size:
boxing those of none is undefined (`C123_false_box`). -/
theorem C123_lists_partial (cfg : SliceCfg) (hz : cfg.itemSize ≠ 0) (base : Mem α)
    (ops : List (SliceOp α)) (xs ys : List (SliceOut α)) (h' : SliceHeap α) (M : List (ListObj α))
    (hr : SliceOp.RawRun cfg ops ⟨[], base⟩ xs h') (hl : listRun ops [] = some (ys, M)) :
    xs = ys ∧ (∀ x ∈ xs, ¬ UndefinedOut x) ∧ HoldsLists base h' M := by
  obtain ⟨L, h1, h2⟩ := hr.shows (showsSlices_nil base)
  obtain ⟨L', h3, h4⟩ := run_means cfg hz meansAll_nil hl
  rw [h1] at h3
  cases h3
  exact ⟨rfl, listRun_defined hl, h4.holds h2⟩

/-- C123 (part). Each such history does come about, as long as memory does not run out. -/
theorem C123_total (cfg : SliceCfg) (hz : cfg.itemSize ≠ 0) (base : Mem α)
    (hf : ∀ n, ∃ a, n ≤ a ∧ base a = none) (ops : List (SliceOp α)) (ys : List (SliceOut α))
    (M : List (ListObj α)) (hl : listRun ops [] = some (ys, M)) :
    ∃ h', SliceOp.RawRun cfg ops ⟨[], base⟩ ys h' := by
  obtain ⟨L', h3, -⟩ := run_means cfg hz meansAll_nil hl
  exact SliceOp.rawRun_total hf (showsSlices_nil base) h3

/-- C123. Whatever the history, what was in memory before is left alone, and when everything is dropped
memory is as it was: nothing is lost. -/
theorem C123_frame (cfg : SliceCfg) (base : Mem α) (ops : List (SliceOp α)) (xs : List (SliceOut α))
    (h' : SliceHeap α) (hr : SliceOp.RawRun cfg ops ⟨[], base⟩ xs h') :
    (∀ a, base a ≠ none → h'.mem a = base a) ∧ (h'.objs = [] → h'.mem = base) := by
  obtain ⟨L, -, H⟩ := hr.shows (showsSlices_nil base)
  refine ⟨fun a ha => H.rest a fun i o ho e => ha (e ▸ H.fresh i o ho), fun e => ?_⟩
  funext a
  refine H.rest a fun i o ho => ?_
  rw [e] at ho
  simp at ho

/-- A program: two sized slices, one cloned and changed through references, one made into an iterator. -/
def demoOps : List (SliceOp Nat) :=
  [.new 3 [1, 2], .new 1 [1, 2], .clone 0, .setByRef 1 0 7, .refs 0, .refs 1, .copyFrom 0 1,
   .intoIter 0, .next 0, .asSlice 0, .intoBoxed 1, .asSlice 1, .drop 0]

def demoOuts : List (SliceOut Nat) :=
  [.unit (.ok ()), .unit (.err ⟨1, 2⟩), .unit (.ok ()), .unit (.ok ()), .items (.ok [1, 2]),
   .items (.ok [7, 2]), .unit (.ok ()), .unit (.ok ()), .item (.ok (some 7)), .items (.ok [2]),
   .unit (.ok ()), .items (.ok [7, 2]), .unit (.ok ())]

example : listRun demoOps [] = some (demoOuts, [.boxed [7, 2]]) := rfl
example : ∃ h', SliceOp.RawRun ⟨true, 4⟩ demoOps ⟨[], fun _ => none⟩ demoOuts h' :=
  C123_total ⟨true, 4⟩ (by decide) _ (fun n => ⟨n, Nat.le_refl n, rfl⟩) _ _ _ rfl
example (h' : SliceHeap Nat) (xs) (h : SliceOp.RawRun ⟨true, 4⟩ demoOps ⟨[], fun _ => none⟩ xs h') :
    xs = demoOuts := (C123_lists_partial ⟨true, 4⟩ (by decide) _ _ _ _ _ _ h rfl).1

/-- C123. `each_ref` and `each_mut` give a sized slice of the same capacity with one reference for each
item, in order: the `k`th is to the `k`th item. Each is to an initialised cell of the sized slice, and no
two are to the same, so that they may all be written to. -/
theorem C123_refs (m : Mem α) (s : RawSized) (n : Nat) (l : List α)
    (h : HoldsList m (.slice s) (.slice n l)) :
    ∃ R ps, s.eachRef m = .ok R ∧ R.buf.length = n ∧ (R.asSlice : Res Empty (List Ptr)) = .ok ps ∧
      ps.length = l.length ∧
      (∀ (k : Nat) (p : Ptr), ps[k]? = some p → p = ⟨s.ptr.alloc, k⟩ ∧ ∃ v, l[k]? = some v ∧
        m.values p 1 = .ok [v]) ∧
      (∀ (j k : Nat) (p q : Ptr), j ≠ k → ps[j]? = some p → ps[k]? = some q → p ≠ q) := by
  obtain ⟨c, h1, h2, h3, h4, h5, h6, h7⟩ := h
  obtain ⟨⟨a, off⟩, cap, len⟩ := s
  simp only at h1 h2 h4 h5 ⊢
  subst h2 h4 h5 h3
  have hS : ((⟨c, l.length⟩ : SizedSlice α).asSlice : Res Empty (List α)) = .ok l :=
    SizedSlice.asSlice_ok.mpr ⟨h6, h7⟩
  obtain ⟨R, e1, e2, e3⟩ := RawSized.eachRef_eq (S := ⟨c, l.length⟩) h1 hS
  have hget : ∀ (k : Nat) (p : Ptr), ((List.range l.length).map fun j => (⟨a, j⟩ : Ptr))[k]? = some p →
      k < l.length ∧ p = ⟨a, k⟩ := by
    intro k p hp
    rw [List.getElem?_map] at hp
    by_cases hk : k < l.length
    · rw [List.getElem?_range hk] at hp
      exact ⟨hk, by injection hp with hp; exact hp.symm⟩
    · rw [List.getElem?_eq_none (by simp; omega)] at hp
      exact nomatch hp
  refine ⟨R, _, e1, e2, e3, by simp, fun k p hp => ?_, fun j k p q hjk hp hq e => ?_⟩
  · obtain ⟨hk, rfl⟩ := hget k p hp
    refine ⟨rfl, l[k], List.getElem?_eq_getElem hk, ?_⟩
    unfold Mem.values
    rw [Mem.load_in (p := ⟨a, k⟩) h1 (by simp only; omega)]
    have hc : c[k]? = some (some l[k]) := by
      have := congrArg (fun x => x[k]?) h7
      simp only [List.getElem?_take, List.getElem?_map] at this
      rw [if_pos hk, List.getElem?_eq_getElem hk] at this
      exact this
    have hlt : k < c.length := by omega
    rw [List.getElem?_eq_getElem hlt] at hc
    injection hc with hc
    have : (c.drop k).take 1 = [some l[k]] := by
      rw [List.drop_eq_getElem_cons hlt, hc]; rfl
    simp only
    rw [this]
    rfl
  · obtain ⟨-, rfl⟩ := hget j p hp
    obtain ⟨-, rfl⟩ := hget k q hq
    exact hjk (congrArg Ptr.off e)

example : HoldsList (fun a => if a = 5 then some [some 1, some 2, none] else none)
    (.slice ⟨⟨5, 0⟩, 3, 2⟩) (.slice 3 [1, 2]) := ⟨_, rfl, rfl, rfl, rfl, rfl, by decide, rfl⟩

/-- C123. The octets of a sized string are those that were given, and the rest is zero; for text that is
too long the outcome is undefined, as for the value (Model/SizedStr). -/
theorem C123_text (m : Mem Byte) (a b n : Nat) (s : List Byte) (hab : a ≠ b)
    (hb : m b = some (s.map some)) :
    RawSized.fromUtf8Unchecked a n ⟨⟨b, 0⟩, s.length⟩ m
      = (SizedStr.fromUtf8Unchecked n s).map
          fun S => (⟨⟨a, 0⟩, n, s.length⟩, m.alloc a S.inner.buf) := by
  have h1 : (m.alloc a (List.replicate n (some 0))) b = some (s.map some) := by
    rw [Mem.alloc_ne _ _ (Ne.symm hab)]; exact hb
  unfold RawSized.fromUtf8Unchecked SizedStr.fromUtf8Unchecked
  by_cases hn : s.length > n
  · rw [if_pos hn, Mem.copy_out (src := ⟨b, 0⟩) (dst := ⟨a, 0⟩) h1 (Mem.alloc_same _ _ _)
      (Ne.symm hab) (by simp) (by rw [List.length_replicate, Nat.zero_add]; exact hn)
      (show s.length ≠ 0 by omega)]
    rfl
  · rw [if_neg hn, Mem.copy_in (src := ⟨b, 0⟩) (dst := ⟨a, 0⟩) h1 (Mem.alloc_same _ _ _)
      (Ne.symm hab) (by simp) (by simp; omega)]
    simp only [Res.map, SizedStr.fromRawParts, List.take_zero, List.nil_append, List.drop_zero,
      Nat.zero_add, Mem.alloc_alloc]
    congr 3
    rw [List.take_of_length_le (by simp), List.map_append, List.map_drop, List.map_replicate]

example : (fun a => if a = 9 then some ([0x68, 0x69].map some) else none : Mem Byte) 9
    = some ([0x68, 0x69].map some) := rfl

/-- C123 is false: `copy_from_slice` does not look at the capacity. For each sized slice there are data
for which it writes past the end. -/
theorem C123_false_copy (cfg : SliceCfg) (base : Mem α) (n : Nat) (data : List α) (hd : n < data.length)
    (xs : List (SliceOut α)) (h' : SliceHeap α)
    (hr : SliceOp.RawRun cfg [.default n, .copyData 0 data] ⟨[], base⟩ xs h') :
    xs = [.unit (.ok ()), .unit (.ub .outOfBounds)] := by
  obtain ⟨L, h1, -⟩ := hr.shows (showsSlices_nil base)
  have e : ((SizedSlice.default n).copyFromSlice data : Res Empty (SizedSlice α)) = .ub .outOfBounds := by
    unfold SizedSlice.copyFromSlice
    exact if_pos (by simp [SizedSlice.default, SizedSlice.uninit]; omega)
  simp only [SliceOp.run, SliceOp.step, SliceOp.push, List.nil_append, List.getElem?_cons_zero, e,
    SliceOp.put] at h1
  cases h1
  rfl

example : ∃ h', SliceOp.RawRun ⟨true, 4⟩ [.default 1, .copyData 0 [1, 2]] ⟨[], fun _ => none⟩
    [.unit (.ok ()), .unit (.ub .outOfBounds)] h' :=
  SliceOp.rawRun_total (fun n => ⟨n, Nat.le_refl n, rfl⟩) (showsSlices_nil _)
    (show SliceOp.run ⟨true, 4⟩ [.default 1, .copyData 0 [1, 2]] [] = some (_, [.slice _]) from rfl)

/-- C123 is false: `into_boxed_slice` asks for no memory at all when the sized slice is empty, or when
the items have no size, which is undefined. -/
theorem C123_false_box (cfg : SliceCfg) (base : Mem α) (n : Nat) (items : List α)
    (h0 : cfg.itemSize = 0 ∨ items.take n = []) (xs : List (SliceOut α)) (h' : SliceHeap α)
    (hr : SliceOp.RawRun cfg [.fromIter n items, .intoBoxed 0] ⟨[], base⟩ xs h') :
    xs = [.unit (.ok ()), .unit (.ub .zeroAlloc)] := by
  obtain ⟨L, h1, -⟩ := hr.shows (showsSlices_nil base)
  have hl := SizedSlice.asSlice_len (SizedSlice.fromIter_holds n items)
  have e : ((SizedSlice.fromIter n items).intoBoxedSlice cfg.itemSize : Res Empty (List α))
      = .ub .zeroAlloc := by
    unfold SizedSlice.intoBoxedSlice
    refine if_pos ?_
    rw [hl]
    rcases h0 with h | h <;> rw [h] <;> simp
  simp only [SliceOp.run, SliceOp.step, SliceOp.push, List.nil_append, List.getElem?_cons_zero, e,
    SliceOp.put] at h1
  cases h1
  rfl

example : ([] : List Nat).take 3 = [] := rfl

/-- C123 is false: `nth(0)` of a fresh iterator looks for the item before the first. -/
theorem C123_false_nth (size : Nat) (base : Mem α) (n : Nat) (items : List α)
    (xs : List (SliceOut α)) (h' : SliceHeap α)
    (hr : SliceOp.RawRun ⟨false, size⟩ [.fromIter n items, .intoIter 0, .nth 0 0] ⟨[], base⟩ xs h') :
    xs = [.unit (.ok ()), .unit (.ok ()), .item (.ub .outOfBounds)] := by
  obtain ⟨L, h1, -⟩ := hr.shows (showsSlices_nil base)
  have e : (SizedSlice.fromIter n items).intoIter.nth false 0 = .ub .outOfBounds := by
    unfold SizedIter.nth
    rw [if_neg (by omega)]
    rfl
  simp only [SliceOp.run, SliceOp.step, SliceOp.push, List.nil_append, List.getElem?_cons_zero,
    SliceOp.put, List.set_cons_zero, e, SliceOp.takeItem] at h1
  cases h1
  rfl

example : ∃ h', SliceOp.RawRun ⟨false, 4⟩ [.fromIter 2 [1, 2], .intoIter 0, .nth 0 0]
    ⟨[], fun _ => none⟩ [.unit (.ok ()), .unit (.ok ()), .item (.ub .outOfBounds)] h' :=
  SliceOp.rawRun_total (fun n => ⟨n, Nat.le_refl n, rfl⟩) (showsSlices_nil _)
    (show SliceOp.run ⟨false, 4⟩ [.fromIter 2 [1, 2], .intoIter 0, .nth 0 0] [] = some (_, [.iter _])
      from rfl)

end Oct.Props
