import Verif.Proofs.UnwindPairs
/-
C141: Keys and values that fail, panic or lie: what becomes of them when a hash map or a hash set is
decoded.
-/
namespace Oct.Props
open Oct Oct.Spec

/-- A table as std has it: destroyed in the order of insertion, and each key is compared with all. -/
private def plain : TableOf := ⟨fun _ m => List.range m.length, id, true, true⟩

/-- C141. Whatever the code of keys and values does (`decode`, `hash`, `eq` and the
destructors, in any call of any of them: it may return, answer anything, fail or panic), whatever keys
the table compares and in whatever order it keeps them: decoding a hash map or set never uses what was
destroyed; nothing is destroyed twice; and no two places of the map that comes of it own the same
item, nor any that was destroyed. -/
theorem C141_once (T : TableOf) (ht : ∀ m, (T.layout m).Perm m) (pairs : Bool) (n : Nat)
    (s : Tally) (hs : s.dropped.Nodup ∧ ∀ a ∈ s.dropped, a < s.fresh) :
    match decodeTable T userDrop pairs n s with
    | (.ok (some m), s') => ((m.flatMap fun e => e.key :: e.value) ++ s'.dropped).Nodup
    | (.ok none, s') => s'.dropped.Nodup
    | (.unwind, s') => s'.dropped.Nodup
    | (.abort, s') => s'.dropped.Nodup
    | (.ub _, _) => False := by
  have h := keeping_loud.decodeTable T ht (fun _ => trivial) pairs n (s := s) hs
  generalize decodeTable T userDrop pairs n s = r at h
  obtain ⟨r, s'⟩ := r
  cases r with
  | ok r =>
    cases r with
    | none => exact h.nodup
    | some m => exact h.1
  | unwind => exact h.nodup
  | abort => exact h
  | ub u => exact h

/-- Three pairs, of which the third has a key said to be equal to the first: its value takes the place
of the first one's. Calls: the hasher; per pair, two of `decode` and one of `hash`; then of `eq`. -/
example : decodeTable plain userDrop true 3 (atFirst
      [.returns, .returns, .returns, .returns, .returns, .returns, .returns, .fails, .returns, .returns,
        .returns, .returns])
    = (.ok (some [⟨0, [5]⟩, ⟨2, [3]⟩]), ⟨[4, 1], 6, []⟩) := by decide +kernel

/-- The `eq` of the second key panics: value, key and table are destroyed. -/
example : decodeTable plain userDrop true 3 (atFirst
      [.returns, .returns, .returns, .returns, .returns, .returns, .returns, .panics])
    = (.unwind, ⟨[3, 2, 0, 1], 4, []⟩) := by decide +kernel

/-- A destructor panics while the table is destroyed because of a panic. -/
example : decodeTable plain userDrop true 3 (atFirst
      [.returns, .returns, .returns, .returns, .panics, .panics])
    = (.abort, ⟨[0, 1], 2, []⟩) := by decide +kernel

/-- C141 (part). If no destructor panics, or if the table destroys the other slots even if a destructor
panics and does not lose the value it is about to return: when the decoding of a hash map or set does
not succeed, because of an error or a panic, all that was decoded for it is destroyed, each once; when
it succeeds, all that was decoded for it is either in it or destroyed. If no destructor panics, the
program does not abort either. MISSING: std's table, with destructors that panic (`C141_lost_false`). -/
theorem C141_destroyed_partial (T : TableOf) (ht : ∀ m, (T.layout m).Perm m) (pairs : Bool) (n : Nat)
    (d : Nat → Act Unit)
    (hd : d = quietDrop ∨ d = userDrop ∧ T.stops = false ∧ T.loses = false)
    (s : Tally) (hs : s.dropped.Nodup ∧ ∀ a ∈ s.dropped, a < s.fresh) :
    match decodeTable T d pairs n s with
    | (.ok (some m), s') =>
      ((m.flatMap fun e => e.key :: e.value) ++ s'.dropped).Perm
        (s.dropped ++ List.range' s.fresh (s'.fresh - s.fresh))
    | (.ok none, s') => s'.dropped.Perm (s.dropped ++ List.range' s.fresh (s'.fresh - s.fresh))
    | (.unwind, s') => s'.dropped.Perm (s.dropped ++ List.range' s.fresh (s'.fresh - s.fresh))
    | (.abort, _) => d ≠ quietDrop
    | (.ub _, _) => False := by
  have h0 : Since s.dropped s.fresh [] s := ⟨hs, Nat.le_refl _, by simp⟩
  by_cases hq : d = quietDrop
  · subst hq
    have h := (keeping_quiet s.dropped s.fresh).decodeTable T ht (fun _ => trivial) pairs n h0
    generalize decodeTable T quietDrop pairs n s = r at h
    obtain ⟨r, s'⟩ := r
    cases r with
    | ok r =>
      cases r with
      | none => exact h.2.2
      | some m => exact h.2.2
    | unwind => exact h.2.2
    | abort => exact h.elim
    | ub u => exact h
  · obtain ⟨rfl, h1, h2⟩ := hd.resolve_left hq
    have h := (keeping_careful s.dropped s.fresh).decodeTable T ht (by simp [h1, h2]) pairs n h0
    generalize decodeTable T userDrop pairs n s = r at h
    obtain ⟨r, s'⟩ := r
    cases r with
    | ok r =>
      cases r with
      | none => exact h.2.2
      | some m => exact h.2.2
    | unwind => exact h.2.2
    | abort => exact hq
    | ub u => exact h

/-- The value of the third pair fails: its key is destroyed, then the table. -/
example : decodeTable plain quietDrop true 3 (atFirst
      [.returns, .returns, .returns, .returns, .returns, .returns, .returns, .fails, .returns, .fails])
    = (.ok none, ⟨[4, 0, 1, 2, 3], 5, []⟩) := by decide +kernel

/-- With a careful table and a destructor that panics. -/
example : decodeTable ⟨fun _ _ => [], id, false, false⟩ userDrop false 3 (atFirst
      [.returns, .returns, .returns, .returns, .returns, .fails, .panics])
    = (.unwind, ⟨[0, 1], 2, []⟩) := by decide +kernel

/-- C141. An error is never passed over: if a map or set comes of it, a key was decoded in each of the `n` rounds, and
for a map a value too; each key of the map has one value, and there are no more keys than rounds, and none only if there
were no rounds. -/
theorem C141_paired (T : TableOf) (pairs : Bool) (n : Nat) (d : Nat → Act Unit) (hd : d = quietDrop ∨ d = userDrop)
    (s s' : Tally) (m : List TableSlot) (h : decodeTable T d pairs n s = (.ok (some m), s')) :
    s'.fresh = s.fresh + n * (if pairs then 2 else 1) ∧ (∀ e ∈ m, e.value.length = if pairs then 1 else 0) ∧
      m.length ≤ n ∧ (m = [] ↔ n = 0) := by
  have hd : ∀ x, Makes (fun _ => 0) (fun _ => True) (d x) := by
    rcases hd with rfl | rfl
    · exact quietDrop_makes
    · exact userDrop_makes
  rw [decodeTable, bind_eq] at h
  split at h
  · rename_i b s₁ e
    have e1 := (userCall_makes s b s₁ e).2
    obtain ⟨⟨h1, _, h2, h3⟩, h4⟩ := decodeSlots_makes T hd pairs n [] (fun _ h => nomatch h) s₁ m s' h
    refine ⟨?_, h1, by simpa using h2, ?_⟩
    · rw [h4, e1]
      cases pairs <;> simp
    · constructor
      · rintro rfl
        exact Nat.eq_zero_of_not_pos fun hn => Nat.lt_irrefl _ (h3 hn)
      · rintro rfl
        exact List.eq_nil_of_length_eq_zero (by simpa using h2)
  · cases h
  · cases h
  · cases h

/-- Three rounds, of which the third has a key said to be equal to the first. -/
example : decodeTable plain userDrop true 3 (atFirst
      [.returns, .returns, .returns, .returns, .returns, .returns, .returns, .fails, .returns, .returns,
        .returns, .returns])
    = (.ok (some [⟨0, [5]⟩, ⟨2, [3]⟩]), ⟨[4, 1], 6, []⟩) := by decide +kernel

/-- C141 is false with std's tables, whose destructor gives up at the first panic: `k + 1` keys were
decoded for a set, the next fails, and the destructor of the first panics. The error is lost, and `k`
keys are neither destroyed nor owned by anyone. -/
theorem C141_lost_false (k n : Nat) :
    let T : TableOf := ⟨fun _ _ => [], id, true, true⟩
    let s := (decodeTable T userDrop false (k + 1 + (n + 1))
      (atFirst (.returns :: (List.replicate (2 * (k + 1)) .returns ++ [.fails, .panics]))))
    s.1 = .unwind ∧ s.2.dropped = [0] ∧ forgotten [] s.2 = (List.range (k + 1)).tail := by
  have h := decodeSlots_replicate ⟨fun _ _ => [], id, true, true⟩ rfl [.fails, .panics] userDrop
    (k + 1) (n + 1) [] 0
  have e : decodeTable ⟨fun _ _ => [], id, true, true⟩ userDrop false (k + 1 + (n + 1))
      (atFirst (.returns :: (List.replicate (2 * (k + 1)) .returns ++ [.fails, .panics])))
      = (.unwind, ⟨[0], k + 1, []⟩) := by
    refine Eq.trans (b := decodeSlots ⟨fun _ _ => [], id, true, true⟩ userDrop false (k + 1 + (n + 1))
      [] ⟨[], 0, List.replicate (2 * (k + 1)) .returns ++ [.fails, .panics]⟩) rfl ?_
    rw [h, List.range'_succ]
    simp only [Nat.zero_add]
    rfl
  simp only [e]
  refine ⟨trivial, trivial, ?_⟩
  unfold forgotten
  simp only [List.flatMap_nil, List.range_eq_range', List.range'_succ, List.filter_cons, List.tail_cons]
  simp only [List.not_mem_nil, not_false_eq_true, List.mem_singleton, true_and, not_true_eq_false,
    decide_false, Bool.false_eq_true, ↓reduceIte]
  refine List.filter_eq_self.mpr fun a ha => ?_
  have := List.mem_range'_1.mp ha
  simp only [decide_eq_true_eq]
  omega

example : decodeTable ⟨fun _ _ => [], id, true, true⟩ userDrop false 4
      (atFirst [.returns, .returns, .returns, .returns, .returns, .returns, .returns, .fails, .panics])
    = (.unwind, ⟨[0], 3, []⟩) := by decide +kernel

end Oct.Props
