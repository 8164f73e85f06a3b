import Verif.Proofs.SizedIter
/-
C24-C26: the by-value iterator of sized slices.
-/
namespace Oct.Props
open Oct Spec
set_option linter.unusedVariables false

variable {α : Type}

/-- C24. Any history of `next`, `next_back`, mutation of the remaining items and cloning on the
iterator of a sized slice that holds `l` has no undefined behaviour, returns what the same history
returns on the list `l`, and leaves the same items. -/
theorem C24_iterator_refines (s : SizedSlice α) (l : List α)
    (h : (s.asSlice : Res Empty (List α)) = .ok l) (ops : List (DequeOp α)) :
    ∃ it, s.intoIter.run ops = .ok ((dequeRun l ops).1, it) ∧
      it.asSlice = .ok (dequeRun l ops).2 := by
  obtain ⟨it, h1, h2⟩ := SizedIter.run_spec ops (SizedIter.represents_intoIter h)
  exact ⟨it, h1, h2.asSlice⟩

/-- C24: each item is returned exactly once: the items taken from the front, those that are left and
those taken from the back (last taken first) are together the original items. -/
theorem C24_each_once (s : SizedSlice α) (l : List α)
    (h : (s.asSlice : Res Empty (List α)) = .ok l) (ops : List (DequeOp α))
    (hops : ∀ op ∈ ops, op = .front ∨ op = .back) :
    ∃ outs it rest, s.intoIter.run ops = .ok (outs, it) ∧ it.asSlice = .ok rest ∧
      fronts ops outs ++ rest ++ (backs ops outs).reverse = l := by
  obtain ⟨it, h1, h2⟩ := C24_iterator_refines s l h ops
  exact ⟨_, it, _, h1, h2, dequeRun_parts ops l hops⟩

/-- C24: an exhausted iterator stays exhausted. -/
theorem C24_fused (it : SizedIter α) (h : it.asSlice = .ok []) :
    it.next = .ok (none, it) ∧ it.nextBack = .ok (none, it) := by
  have h := sliceOf_ok.mp h
  have : it.len = 0 := by
    have h2 := congrArg List.length h.2
    rw [List.length_take, List.map_nil, List.length_nil] at h2
    omega
  exact ⟨if_pos this, if_pos this⟩

example : ∃ s : SizedSlice Nat, SizedSlice.new 5 [1, 2, 3, 4] = .ok s ∧
    (s.asSlice : Res Empty (List Nat)) = .ok [1, 2, 3, 4] ∧
    s.intoIter.run [.front, .back, .front, .set 0 9, .clone, .back, .front, .back, .set 0 1] = .ok
      ([.item (some 1), .item (some 4), .item (some 2), .unit, .unit, .item (some 9), .item none,
        .item none, .panicked],
        ⟨[none, none, none, none, none], 2, 0⟩) :=
  ⟨_, rfl, rfl, rfl⟩

/-- C25. `nth` gives the right item if nothing was taken from the front yet and the index is neither
zero nor beyond the last item; and `None`, changing nothing, if the index is beyond the number of
remaining items. Missing: all other cases, and what is left afterwards, see below. -/
theorem C25_nth_partial (checks : Bool) (it : SizedIter α) (l : List α) (h : it.asSlice = .ok l)
    (k : Nat) :
    (it.pos = 0 → 0 < k → (hk : k < l.length) →
      ∃ it', it.nth checks k = .ok (some l[k], it') ∧ it'.pos = k ∧ it'.len = l.length - k) ∧
    (l.length < k → it.nth checks k = .ok (none, it)) := by
  constructor
  · intro hpos h0 hk
    have hr : it.Represents l := (SizedIter.asSlice_iff (by omega)).mp h
    have hlen := hr.len
    have hb := hr.1
    rw [hpos] at hb
    have hd : SizedIter.dropRange it.buf it.pos (it.pos + k - 1)
        = .ok (it.buf.take it.pos ++ List.replicate (it.pos + k - 1 - it.pos) none
          ++ it.buf.drop (it.pos + k - 1)) := by
      unfold SizedIter.dropRange
      have : (it.buf.drop it.pos).take (it.pos + k - 1 - it.pos)
          = (l.take (it.pos + k - 1 - it.pos)).map some := by
        rw [List.map_take, ← hr.2, List.take_take, Nat.min_eq_left (by omega)]
      rw [this, initAll_map_some]
    unfold SizedIter.nth
    rw [if_neg (by omega)]
    simp only
    rw [if_neg (by omega), if_neg (by omega), hd]
    simp only
    rw [hpos]
    have hget : (it.buf.take 0 ++ List.replicate (0 + k - 1 - 0) none
          ++ it.buf.drop (0 + k - 1))[k]? = some (some l[k]) := by
      rw [List.getElem?_append_right (by simp)]
      simp only [List.take_zero, List.nil_append, List.length_replicate, List.getElem?_drop]
      have := hr.get k hk
      rw [hpos] at this
      rw [← this]
      congr 1
      omega
    unfold SizedIter.take
    rw [hget]
    exact ⟨_, rfl, Nat.zero_add _, by show it.len - k = _; omega⟩
  · intro hk
    have hlen : it.len = l.length := by
      have h := sliceOf_ok.mp h
      have h2 := congrArg List.length h.2
      rw [List.length_take, List.length_map] at h2
      omega
    exact if_pos (by omega)

/-- C25 is false: `nth` agrees with repeated `next`, in item and in what is left, only on iterators
that are exhausted already (and not even there for the index zero). -/
theorem C25_false_agrees_iff_exhausted (checks : Bool) (it : SizedIter α) (l : List α)
    (hp : it.pos ≤ it.buf.length) (h : it.asSlice = .ok l) (k : Nat) :
    (∃ r it' it'', it.nth checks k = .ok (r, it') ∧ SizedIter.nextN k it = .ok (r, it'') ∧
      it'.asSlice = it''.asSlice) ↔ l = [] ∧ 0 < k := by
  have hr : it.Represents l := (SizedIter.asSlice_iff hp).mp h
  have hlen := hr.len
  have hb := hr.1
  obtain ⟨itn, hn, hrn⟩ := SizedIter.nextN_spec k hr
  have hns := hrn.asSlice
  constructor
  · rintro ⟨r, it', it'', h1, h2, h3⟩
    rw [hn] at h2
    obtain ⟨rfl, rfl⟩ := Prod.mk.inj (Res.ok.inj h2)
    rw [hns] at h3
    unfold SizedIter.nth at h1
    split at h1
    · rename_i hk
      obtain ⟨hr', rfl⟩ := Prod.mk.inj (Res.ok.inj h1)
      rw [h] at h3
      have h3 := congrArg List.length (Res.ok.inj h3)
      rw [List.length_drop] at h3
      exact ⟨List.eq_nil_of_length_eq_zero (by omega), by omega⟩
    · rename_i hk
      simp only at h1
      split at h1
      · split at h1 <;> cases h1
      · split at h1
        · cases h1
        · rename_i h5 h6
          split at h1
          · rename_i buf hd
            unfold SizedIter.take at h1
            split at h1
            · cases h1
            · cases h1
            · obtain ⟨hr', rfl⟩ := Prod.mk.inj (Res.ok.inj h1)
              have hkl : k < l.length := by
                apply Decidable.byContradiction
                intro hge
                rw [List.getElem?_eq_none (by omega)] at hr'
                cases hr'
              have h4 := sliceOf_ok.mp h3
              have h4 := h4.2
              have := congrArg List.length h4
              simp only [List.length_take, List.length_map, List.length_drop, List.length_set] at this
              have h7 := (sliceOf_ok.mp h3).1
              simp only [List.length_drop, List.length_set] at h7
              omega
          · cases h1
          · cases h1
          · cases h1
  · rintro ⟨rfl, hk⟩
    have hlen0 : it.len = 0 := hlen
    refine ⟨none, it, itn, if_pos (by omega), ?_, ?_⟩
    · rw [hn]; rfl
    · rw [h, hns]; simp

/-- C25 is false: on a fresh iterator, `nth(0)` panics or has undefined behaviour. -/
theorem C25_false_zero (s : SizedSlice α) :
    s.intoIter.nth true 0 = .panic .arithmeticOverflow ∧
    s.intoIter.nth false 0 = .ub .outOfBounds := by
  constructor
  · exact if_neg (Nat.not_lt_zero _)
  · exact if_neg (Nat.not_lt_zero _)

/-- C25 is false: after a `next`, `nth(1)` returns the wrong item: the second instead of the third. -/
theorem C25_false_wrong_item :
    ∃ (s : SizedSlice Nat) (it it' : SizedIter Nat), SizedSlice.new 3 [10, 20, 30] = .ok s ∧
      s.intoIter.next = .ok (some 10, it) ∧ it.asSlice = .ok [20, 30] ∧
      it.nth true 1 = .ok (some 20, it') :=
  ⟨_, _, _, rfl, rfl, rfl, rfl⟩

/-- C25 is false: `nth(1)` leaves the item that it returned among the remaining ones, so that looking at
them (or dropping them) uses a moved-out item. Plain data may be read again: see C122. -/
theorem C25_false_remaining :
    ∃ (s : SizedSlice Nat) (it : SizedIter Nat), SizedSlice.new 3 [10, 20, 30] = .ok s ∧
      s.intoIter.nth true 1 = .ok (some 20, it) ∧ it.asSlice = .ub .uninitRead ∧
      it.next = .ub .uninitRead :=
  ⟨_, _, rfl, rfl, rfl, rfl⟩

/-- C25 is false: the index that equals the number of items reads past them. -/
theorem C25_false_index_len :
    ∃ (s s' : SizedSlice Nat), SizedSlice.new 3 [10, 20, 30] = .ok s ∧
      SizedSlice.new 4 [10, 20, 30] = .ok s' ∧
      s.intoIter.nth true 3 = .ub .outOfBounds ∧ s'.intoIter.nth true 3 = .ub .uninitRead :=
  ⟨_, _, rfl, rfl, rfl, rfl⟩

/-- C26. `size_hint` is exact in exactly the states in which nothing has been taken from the
front. Missing: all other states, see `C26_false_after_next`. -/
theorem C26_size_hint_partial (it : SizedIter α) (l : List α) (h : it.asSlice = .ok l) :
    it.sizeHint = .ok l.length ↔ it.pos = 0 := by
  have hlen : it.len = l.length := by
    have h := sliceOf_ok.mp h
    have h2 := congrArg List.length h.2
    rw [List.length_take, List.length_map] at h2
    omega
  unfold SizedIter.sizeHint
  split
  · constructor
    · intro h; cases h
    · intro h; omega
  · constructor
    · intro h'
      have := Res.ok.inj h'
      omega
    · intro h'; rw [h', Nat.sub_zero, hlen]

/-- C26: in particular after any history without `next`. -/
theorem C26_size_hint_no_next_partial (s : SizedSlice α) (l : List α)
    (h : (s.asSlice : Res Empty (List α)) = .ok l) (n : Nat) :
    ∃ it, s.intoIter.run (List.replicate n .back) = .ok ((dequeRun l (List.replicate n .back)).1, it) ∧
      it.sizeHint = .ok (l.length - n) := by
  obtain ⟨it, h1, h2⟩ := SizedIter.run_spec (List.replicate n .back) (SizedIter.represents_intoIter h)
  have hpos : ∀ (n : Nat) (it0 it : SizedIter α) (o : List (DequeOut α)),
      it0.run (List.replicate n .back) = .ok (o, it) → it.pos = it0.pos := by
    intro n
    induction n with
    | zero =>
      intro it0 it o h
      cases h; rfl
    | succ n ih =>
      intro it0 it o h
      rw [List.replicate_succ, SizedIter.run, SizedIter.step] at h
      unfold SizedIter.nextBack at h
      by_cases h0 : it0.len = 0
      · rw [if_pos h0] at h
        simp only [Res.map] at h
        cases hr : it0.run (List.replicate n .back) with
        | ok p =>
          rw [hr] at h
          cases h
          exact ih it0 p.2 p.1 hr
        | err e => exact e.elim
        | panic p => rw [hr] at h; cases h
        | ub u => rw [hr] at h; cases h
      · rw [if_neg h0] at h
        cases ht : (SizedIter.take it0.buf (it0.pos + it0.len - 1) : Res Empty _) with
        | err e => exact e.elim
        | panic p => rw [ht] at h; cases h
        | ub u => rw [ht] at h; cases h
        | ok q =>
          rw [ht] at h
          simp only [Res.map] at h
          generalize hit : ({ buf := q.2, pos := it0.pos, len := it0.len - 1 } : SizedIter α) = it1 at h
          have hp1 : it1.pos = it0.pos := by rw [← hit]
          cases hr : it1.run (List.replicate n .back) with
          | ok p =>
            rw [hr] at h
            cases h
            exact (ih it1 p.2 p.1 hr).trans hp1
          | err e => exact e.elim
          | panic p => rw [hr] at h; cases h
          | ub u => rw [hr] at h; cases h
  have hp := hpos n _ it _ h1
  refine ⟨it, h1, ?_⟩
  have := (C26_size_hint_partial it _ h2.asSlice).mpr hp
  rw [this]
  have hl : ∀ (n : Nat) (l : List α), (dequeRun l (List.replicate n .back)).2.length = l.length - n := by
    intro n
    induction n with
    | zero => intro l; rfl
    | succ n ih =>
      intro l
      rw [List.replicate_succ, dequeRun, dequeStep]
      simp only
      rw [ih, List.length_dropLast]
      omega
  rw [hl]

/-- C26 is false: after one `next` of three, `size_hint` is one instead of two; after two, it has
undefined behaviour. -/
theorem C26_false_after_next :
    ∃ (s : SizedSlice Nat) (it it' : SizedIter Nat), SizedSlice.new 3 [10, 20, 30] = .ok s ∧
      s.intoIter.next = .ok (some 10, it) ∧ it.asSlice = .ok [20, 30] ∧ it.sizeHint = .ok 1 ∧
      it.next = .ok (some 20, it') ∧ it'.asSlice = .ok [30] ∧ it'.sizeHint = .ub .uncheckedSub :=
  ⟨_, _, _, rfl, rfl, rfl, rfl, rfl, rfl, rfl⟩

end Oct.Props
