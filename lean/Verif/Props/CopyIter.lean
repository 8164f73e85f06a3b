import Verif.Proofs.CopyIter
/-
C122: the by-value iterator of sized slices over plain data (`Copy` items).
-/
namespace Oct.Props
open Oct Spec
variable {α : Type}

/-- C122 (part). Any history of `next`, `next_back`, `nth` and mutation of the remaining items on the
iterator of a sized slice that holds `l` does what it does on a tape that starts with `l`, and is
defined exactly if it is there: in particular, no history without `nth` is undefined. What follows `l`
on the tape is what the cells of the slice behind its items happen to hold; nothing, if the first of
them is uninitialised. Missing: `nth` is not what it should be, see `C122_false_again`. -/
theorem C122_histories_partial (checks : Bool) (s : SizedSlice α) (l : List α)
    (h : (s.asSlice : Res Empty (List α)) = .ok l) :
    ∃ rest, ((∀ x, s.buf[l.length]? ≠ some (some x)) → rest = []) ∧
      ∀ ops, match tapeRun ⟨l ++ rest, 0, l.length⟩ ops with
        | some (outs, t) => ∃ it, s.intoIter.runCopy checks ops = .ok (outs, it) ∧
          it.asSlice = .ok t.left
        | none => (∃ p, s.intoIter.runCopy checks ops = .panic p) ∨
          ∃ u, s.intoIter.runCopy checks ops = .ub u := by
  refine ⟨SizedIter.prefixOf (s.buf.drop l.length), fun hx => ?_, fun ops => ?_⟩
  · cases hd : s.buf.drop l.length with
    | nil => rfl
    | cons c cells =>
      cases c with
      | none => rfl
      | some a =>
        exfalso
        refine hx a ?_
        have := congrArg (fun m => m[0]?) hd
        simpa [List.getElem?_drop] using this
  · have hr := SizedIter.OnTape.run ops checks (SizedIter.onTape_intoIter h)
    revert hr
    cases tapeRun ⟨l ++ SizedIter.prefixOf (s.buf.drop l.length), 0, l.length⟩ ops with
    | none => exact id
    | some x => exact fun ⟨it, h1, h2⟩ => ⟨it, h1, h2.represents.asSlice⟩

/-- C122 (part). Without `nth`, the iterator does what the documentation of `Iterator` and
`DoubleEndedIterator` says. -/
theorem C122_no_nth_partial (checks : Bool) (s : SizedSlice α) (l : List α)
    (h : (s.asSlice : Res Empty (List α)) = .ok l) (ops : List (CopyOp α))
    (hn : ∀ k, CopyOp.nth k ∉ ops) :
    ∃ it, s.intoIter.runCopy checks ops = .ok ((copyRun l ops).1, it) ∧
      it.asSlice = .ok (copyRun l ops).2 := by
  have key : ∀ (ops : List (CopyOp α)) (it : SizedIter α) (l : List α), it.Represents l →
      (∀ k, CopyOp.nth k ∉ ops) →
      ∃ it', it.runMove checks ops = .ok ((copyRun l ops).1, it') ∧
        it'.Represents (copyRun l ops).2 := by
    intro ops
    induction ops with
    | nil => exact fun it l hr _ => ⟨it, rfl, hr⟩
    | cons op ops ih =>
      intro it l hr hn
      have hstep : ∃ it', it.stepMove checks op = .ok ((copyStep l op).1, it') ∧
          it'.Represents (copyStep l op).2 := by
        cases op with
        | front => exact SizedIter.step_spec hr .front
        | back => exact SizedIter.step_spec hr .back
        | set i a => exact SizedIter.step_spec hr (.set i a)
        | nth k => exact absurd List.mem_cons_self (hn k)
      obtain ⟨it1, h1, h2⟩ := hstep
      obtain ⟨it2, h3, h4⟩ := ih it1 _ h2 (fun k hk => hn k (List.mem_cons_of_mem _ hk))
      refine ⟨it2, ?_, h4⟩
      rw [SizedIter.runMove, h1]
      simp only
      rw [h3]
      rfl
  obtain ⟨it, h1, h2⟩ := key ops s.intoIter l (SizedIter.represents_intoIter h) hn
  obtain ⟨it', h3, h4⟩ := SizedIter.Fuller.run ops checks (SizedIter.Fuller.refl _) h1
  refine ⟨it', h3, ?_⟩
  have hs := sliceOf_ok.mp h2.asSlice
  obtain ⟨e1, e2, e3, e4⟩ := h4
  refine SizedIter.Represents.asSlice ⟨by have := h2.1; omega, ?_⟩
  rw [← hs.2, ← e1, ← e2]
  refine (SizedIter.initAll_mono (r := (copyRun l ops).2)
    (by rw [hs.2]; exact initAll_map_some _) ?_ ?_).symm
  · simp only [List.length_take, List.length_drop]; omega
  · intro i x
    rw [List.getElem?_take, List.getElem?_take, List.getElem?_drop, List.getElem?_drop]
    split
    · exact e4 _ _
    · intro h; cases h

/-- C122 (part). Whatever the iterator gives for items that own something (C24, C25, C68), it gives for
plain data too: copying makes more histories defined and changes none. -/
theorem C122_agrees (checks : Bool) (it : SizedIter α) (ops : List (CopyOp α))
    (outs : List (DequeOut α)) (it' : SizedIter α) (h : it.runMove checks ops = .ok (outs, it')) :
    ∃ it'', it.runCopy checks ops = .ok (outs, it'') ∧ it''.pos = it'.pos ∧ it''.len = it'.len :=
  let ⟨it'', h1, h2⟩ := SizedIter.Fuller.run ops checks (SizedIter.Fuller.refl it) h
  ⟨it'', h1, h2.1.symm, h2.2.1.symm⟩

/-- C122 is false: on a fresh iterator, `nth(k)` gives the right item but leaves it among those that
remain, and the next `next()` gives it once more. The test of the crate for cloned iterators
(oct/src/sized_iter/tests.rs:30-35) relies on this. -/
theorem C122_false_again (checks : Bool) (s : SizedSlice α) (l : List α)
    (h : (s.asSlice : Res Empty (List α)) = .ok l) (k : Nat) (h0 : 0 < k) (hk : k < l.length) :
    ∃ it, s.intoIter.runCopy checks [.nth k, .front] = .ok ([.item l[k]?, .item l[k]?], it) ∧
      (copyRun l [.nth k, .front]).1 = [.item l[k]?, .item l[k + 1]?] := by
  obtain ⟨rest, -, hr⟩ := C122_histories_partial checks s l h
  have hr := hr [.nth k, .front]
  have hl : (l ++ rest)[k]? = l[k]? := List.getElem?_append_left hk
  have ht : tapeRun ⟨l ++ rest, 0, l.length⟩ [.nth k, .front]
      = some ([.item l[k]?, .item l[k]?], ⟨l ++ rest, 0 + k + 1, l.length - k - 1⟩) := by
    rw [tapeRun, tapeStep, if_neg (by show ¬ k > l.length; omega),
      if_neg (by show ¬ (k = 0 ∨ (l ++ rest).length ≤ k); rw [List.length_append]; omega), hl]
    simp only
    rw [tapeRun, tapeStep, if_neg (by show ¬ l.length - k = 0; omega)]
    simp only [Nat.zero_add, hl]
    rfl
  rw [ht] at hr
  obtain ⟨it, h1, -⟩ := hr
  refine ⟨it, h1, ?_⟩
  simp only [copyRun, copyStep, List.head?_drop]

/-- C122 is false: after `next()`, `nth(1)` gives the item right after the one that was given, not the
one after it; and after `next()` three times it gives an item that was given before. -/
theorem C122_false_given (checks : Bool) :
    ∃ s : SizedSlice Nat, SizedSlice.new 5 [10, 20, 30, 40, 50] = .ok s ∧
      (∃ it, s.intoIter.runCopy checks [.front, .nth 1]
        = .ok ([.item (some 10), .item (some 20)], it)) ∧
      (∃ it, s.intoIter.runCopy checks [.front, .front, .front, .nth 1]
        = .ok ([.item (some 10), .item (some 20), .item (some 30), .item (some 20)], it)) ∧
      (copyRun [10, 20, 30, 40, 50] [.front, .nth 1]).1 = [.item (some 10), .item (some 30)] :=
  ⟨_, rfl, ⟨_, rfl⟩, ⟨_, rfl⟩, rfl⟩

/-- C122 is false: an item that `next_back()` has given is given again by `nth`, if the index is the
number of items that remain. -/
theorem C122_false_back (checks : Bool) :
    ∃ s : SizedSlice Nat, SizedSlice.new 3 [10, 20, 30] = .ok s ∧
      (∃ it, s.intoIter.runCopy checks [.back, .nth 2]
        = .ok ([.item (some 30), .item (some 30)], it)) ∧
      (copyRun [10, 20, 30] [.back, .nth 2]).1 = [.item (some 30), .item none] :=
  ⟨_, rfl, ⟨_, rfl⟩, rfl⟩

/-- C122 is false: `nth(0)` on a fresh iterator panics or is undefined for plain data too; and so is
`nth` with the number of items. -/
theorem C122_false_undefined (s : SizedSlice α) (l : List α)
    (h : (s.asSlice : Res Empty (List α)) = .ok l) :
    s.intoIter.nthCopy true 0 = .panic .arithmeticOverflow ∧
    s.intoIter.nthCopy false 0 = .ub .outOfBounds ∧
    ((∀ x, s.buf[l.length]? ≠ some (some x)) → 0 < l.length →
      ∀ checks, ∃ u, s.intoIter.nthCopy checks l.length = .ub u) := by
  refine ⟨if_neg (Nat.not_lt_zero _), if_neg (Nat.not_lt_zero _), fun hx h0 checks => ?_⟩
  obtain ⟨rest, hrest, hr⟩ := C122_histories_partial checks s l h
  cases hrest hx
  have hr := hr [.nth l.length]
  have ht : tapeRun ⟨l ++ [], 0, l.length⟩ [.nth l.length] = none := by
    rw [tapeRun, tapeStep, if_neg (by show ¬ l.length > l.length; omega),
      if_pos (by right; show (l ++ []).length ≤ l.length; rw [List.append_nil]; exact Nat.le_refl _)]
  rw [ht] at hr
  have hnp : ∀ p, s.intoIter.nthCopy checks l.length ≠ .panic p := fun p hp => by
    unfold SizedIter.nthCopy at hp
    split at hp
    · cases hp
    · simp only at hp
      rw [if_neg (by omega)] at hp
      split at hp
      · cases hp
      · split at hp
        · unfold SizedIter.peek at hp
          split at hp <;> cases hp
        · cases hp
  rw [SizedIter.runCopy, SizedIter.stepCopy] at hr
  cases hv : s.intoIter.nthCopy checks l.length with
  | ok x => rw [hv] at hr; rcases hr with ⟨p, hp⟩ | ⟨u, hu⟩; cases hp; cases hu
  | err e => exact e.elim
  | panic p => exact absurd hv (hnp p)
  | ub u => exact ⟨u, rfl⟩

/-- C122 is false: a clone lacks the items that were passed, so that `nth`, which reads one of them, is
undefined on the clone where it is defined on the original. -/
theorem C122_false_clone (checks : Bool) :
    ∃ (s : SizedSlice Nat) (it it' : SizedIter Nat), SizedSlice.new 4 [10, 20, 30, 40] = .ok s ∧
      s.intoIter.runCopy checks [.front, .front] = .ok ([.item (some 10), .item (some 20)], it) ∧
      it.clone = .ok it' ∧ it.asSlice = it'.asSlice ∧
      (∃ it'', it.nthCopy checks 1 = .ok (some 20, it'')) ∧
      it'.nthCopy checks 1 = .ub .uninitRead :=
  ⟨_, _, _, rfl, rfl, rfl, rfl, ⟨_, rfl⟩, rfl⟩

example : ∃ s : SizedSlice Nat, SizedSlice.new 4 [10, 20, 30] = .ok s ∧
    (s.asSlice : Res Empty (List Nat)) = .ok [10, 20, 30] ∧
    (∀ x, s.buf[3]? ≠ some (some x)) ∧
    (∃ it, s.intoIter.runCopy true [.front, .set 0 21, .back, .front, .front]
      = .ok ([.item (some 10), .unit, .item (some 30), .item (some 21), .item none], it)) ∧
    (∃ it, s.intoIter.runMove true [.nth 2] = .ok ([.item (some 30)], it)) :=
  ⟨_, rfl, rfl, (fun x h => by cases h), ⟨_, rfl⟩, ⟨_, rfl⟩⟩

end Oct.Props
