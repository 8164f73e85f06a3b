import Verif.Proofs.Ownership
/- Items of sized slices are dropped once and not leaked: C68, C69. -/
namespace Oct.Props
open Spec

/-- C68 (part). In every history of the operations on sized slices, iterators and vectors other than
`From<[T; N]>`, `nth` and `into_vec`, no operation is undefined or panics, nothing is dropped twice
and nothing that was dropped is still owned. MISSING: those three operations. -/
theorem C68_once_partial (ss : List OwnStep)
    (h : ∀ s ∈ ss, Careful s ∧ ∀ p, s ≠ .op p .intoVec) :
    ∃ w, World.empty.run ss = .ok w ∧ Sound w := by
  suffices H : ∀ (ss : List OwnStep) (w : World) (leaked : List Nat), w.Accounted leaked →
      (∀ s ∈ ss, Careful s ∧ ∀ p, s ≠ .op p .intoVec) → ∃ w', w.run ss = .ok w' ∧ Sound w' from
    H ss _ _ World.empty_accounted h
  intro ss
  induction ss with
  | nil => exact fun w leaked hw _ => ⟨w, rfl, hw.sound⟩
  | cons s ss ih =>
    intro w leaked hw hc
    have hs := hc s (by simp)
    rcases w.step_accounted s leaked hw hs.1 with ⟨w', h1, h2⟩ | h1
    · simp only [World.run, h1, Res.cast]
      exact ih w' _ h2 fun t ht => hc t (by simp [ht])
    · exfalso
      cases s with
      | make k => cases h1
      | decode n len => simp only [World.step] at h1; split at h1 <;> cases h1
      | decodeFail k => cases h1
      | op p o =>
        simp only [World.step] at h1
        cases hg : w.held[p]? with
        | none => simp only [hg] at h1; cases h1
        | some x =>
          simp only [hg] at h1
          have hcc : o.Careful := by cases o <;> first | exact hs.1 | trivial
          rcases o.apply_fine x w.fresh hcc (hw.ok x (List.mem_of_getElem? hg)) with
            ⟨e, he, _⟩ | ⟨ho, _, _⟩
          · simp only [he, Res.cast] at h1
            split at h1 <;> cases h1
          · exact hs.2 p (by rw [ho])

/-- Collecting three items in a slice of two, reading one, cloning the iterator and dropping. -/
example : ∃ w, World.empty.run
    [.make 3, .op 0 (.collect 2), .op 0 .intoIter, .op 0 .next, .op 1 .clone, .op 2 .drop] = .ok w ∧
    w.dropped = [2, 0] ∧ Spec.World.owned w = [3, 1] ∧ Sound w := by
  refine ⟨_, rfl, ?_⟩
  unfold Sound
  decide

/-- C68 (part). With `into_vec` too, all that can go wrong is the allocation of zero octets for an
empty slice. -/
theorem C68_vector_partial (ss : List OwnStep) (h : ∀ s ∈ ss, Careful s) :
    (∃ w, World.empty.run ss = .ok w ∧ Sound w) ∨ World.empty.run ss = .ub .zeroAlloc := by
  rcases World.run_accounted ss _ _ World.empty_accounted h with ⟨w, h1, h2⟩ | h1
  · exact .inl ⟨w, h1, h2.sound⟩
  · exact .inr h1

example : World.empty.run [.make 2, .op 0 (.collect 5), .op 0 .intoVec, .op 0 .drop]
    = .ok { held := [], dropped := [0, 1], fresh := 2 } := by decide

/-- The empty slice. -/
example : World.empty.run [.make 0, .op 0 (.collect 5), .op 0 .intoVec] = .ub .zeroAlloc := by decide

/-- C68 is false for `From<[T; N]>`: for every array that is not empty the items have been dropped
when the slice is returned, and looking at them is undefined. -/
theorem C68_array_false (k : Nat) (hk : 0 < k) :
    World.empty.run [.make k, .op 0 .fromArray, .op 0 .look] = .ub .uninitRead ∧
    ∃ w, World.empty.run [.make k, .op 0 .fromArray] = .ok w ∧ ¬ Sound w := by
  have h1 : World.empty.run [.make k, .op 0 .fromArray] = .ok
      { held := [.slice { buf := (List.range' 0 k).map some, len := (List.range' 0 k).length }],
        dropped := List.range' 0 k, fresh := k } := by
    simp [World.run, World.step, Res.cast, OwnOp.apply, World.empty, newItems]
  have hs : (SizedSlice.asSlice
      { buf := (List.range' 0 k).map some, len := (List.range' 0 k).length }
      : Res Empty (List Nat)) = .ok (List.range' 0 k) := by
    rw [SizedSlice.asSlice_ok]
    refine ⟨by simp, ?_⟩
    simp only
    rw [List.take_of_length_le (by simp)]
  refine ⟨?_, _, h1, ?_⟩
  · rw [show [OwnStep.make k, .op 0 .fromArray, .op 0 .look]
      = [.make k, .op 0 .fromArray] ++ [.op 0 .look] from rfl, World.run_append, h1]
    simp only [Res.cast, World.run, World.step, List.getElem?_cons_zero, OwnOp.apply, hs]
    rw [if_pos]
    rw [List.any_eq_true]
    refine ⟨0, ?_, ?_⟩
    · simp; omega
    · simp; omega
  · intro h
    unfold Sound World.owned at h
    simp only [List.flatMap_cons, List.flatMap_nil, List.append_nil, owned,
      filterMap_id_map_some] at h
    have := (List.nodup_append.mp h).2.2 0 (by simp; omega) 0 (by simp; omega)
    exact this rfl

/-- C68 is false for `nth`: after `nth(1)` the next item was already moved out. -/
theorem C68_nth_false :
    World.empty.run [.make 3, .op 0 (.collect 3), .op 0 .intoIter, .op 0 (.nth 1), .op 1 .next]
      = .ub .uninitRead := by decide

/-- C68 (part). On an iterator from which nothing was taken, `nth` drops the items before the one it
gives, but for the last of them, which is neither dropped nor given out later. MISSING: what comes
after, see `C68_nth_false`. -/
theorem C68_nth_partial (m k : Nat) (hk : 0 < k) (hm : k < m) :
    ∃ it, World.empty.run [.make m, .op 0 (.collect m), .op 0 .intoIter, .op 0 (.nth k)]
        = .ok { held := [.item k, .iter it], dropped := List.range (k - 1), fresh := m } ∧
      it.pos = k ∧ it.len = m - k ∧ it.buf[k - 1]? = some (some (k - 1)) := by
  have hr : List.range' 0 m = List.range m := (List.range_eq_range' (n := m)).symm
  have hf : SizedSlice.fromIter m (List.range m) = ⟨(List.range m).map some, m⟩ := by
    have hs := SizedSlice.fillFrom_spec (SizedSlice.uninit m) (List.range m)
    rw [show (SizedSlice.uninit m : List (MaybeUninit Nat)).length = m from
      List.length_replicate, List.length_range, Nat.min_self] at hs
    obtain ⟨h1, h2, h3⟩ := hs
    have h4 := List.take_of_length_le (Nat.le_of_eq (h1.trans h2.symm))
    rw [h3, List.take_of_length_le (by simp)] at h4
    show SizedSlice.mk _ _ = _
    rw [← h4, h2]
  have h1 : World.empty.run [.make m, .op 0 (.collect m), .op 0 .intoIter] = .ok
      { held := [.iter ⟨(List.range m).map some, 0, m⟩], dropped := [], fresh := m } := by
    simp [World.run, World.step, Res.cast, OwnOp.apply, World.empty, newItems, hr, hf,
      SizedSlice.intoIter]
  have h2 : (SizedIter.nth true ⟨(List.range m).map some, 0, m⟩ k) = .ok (some k,
      ⟨(List.replicate (k - 1) none ++ ((List.range m).map some).drop (k - 1)).set k none, k,
        m - k⟩) := by
    have hd : SizedIter.dropRange ((List.range m).map some) 0 (k - 1)
        = .ok (List.replicate (k - 1) none ++ ((List.range m).map some).drop (k - 1)) := by
      unfold SizedIter.dropRange
      rw [List.drop_zero, Nat.sub_zero, ← List.map_take, initAll_map_some]
      rfl
    unfold SizedIter.nth
    rw [if_neg (by simp; omega)]
    simp only [Nat.zero_add]
    rw [if_neg (by omega), if_neg (by simp; omega), hd]
    simp only
    unfold SizedIter.take
    rw [List.getElem?_append_right (by simp)]
    simp only [List.length_replicate, List.getElem?_drop, show k - 1 + (k - (k - 1)) = k by omega,
      List.getElem?_map, List.getElem?_range hm]
    rfl
  refine ⟨⟨(List.replicate (k - 1) none ++ ((List.range m).map some).drop (k - 1)).set k none, k,
    m - k⟩, ?_, rfl, rfl, ?_⟩
  · rw [show [OwnStep.make m, .op 0 (.collect m), .op 0 .intoIter, .op 0 (.nth k)]
      = [.make m, .op 0 (.collect m), .op 0 .intoIter] ++ [.op 0 (.nth k)] from rfl,
      World.run_append, h1]
    have h3 : List.filterMap id ((List.map some (List.range m)).take (k - 1)) = List.range (k - 1) := by
      rw [← List.map_take, List.take_range, Nat.min_eq_left (by omega)]
      simp
    simp only [World.run, World.step, Res.cast, OwnOp.apply, h2, List.getElem?_cons_zero,
      List.drop_zero, h3]
    simp
  · show (List.set _ _ _)[k - 1]? = _
    rw [List.getElem?_set_ne (by omega), List.getElem?_append_right (by simp)]
    simp only [List.length_replicate, List.getElem?_drop, List.getElem?_map]
    rw [List.getElem?_range (by omega)]
    simp

example : World.empty.run [.make 4, .op 0 (.collect 4), .op 0 .intoIter, .op 0 (.nth 2)]
    = .ok { held := [.item 2, .iter ⟨[none, some 1, none, some 3], 2, 2⟩], dropped := [0],
            fresh := 4 } := by decide

/-- C69 (part). In every history of those operations, each item created is either still owned, or
was dropped, exactly once, or was left behind by one of: dropping a sized slice or an iterator that
owns items, `into_vec` of a slice with initialised cells beyond its length, a failing decoding. -/
theorem C69_accounted_partial (ss : List OwnStep) (h : ∀ s ∈ ss, Careful s) (w : World)
    (hw : World.empty.run ss = .ok w) :
    (World.owned w ++ (w.dropped ++ leaks World.empty ss)).Perm (List.range w.fresh) := by
  rcases World.run_accounted ss _ _ World.empty_accounted h with ⟨w', h1, h2⟩ | h1
  · rw [h1] at hw
    cases hw
    simpa using h2.perm
  · rw [h1] at hw; cases hw

/-- A history that leaks item 1, drops items 2 and 0 and keeps nothing. -/
example : leaks World.empty
      [.make 3, .op 0 (.collect 2), .op 0 .intoIter, .op 0 .next, .op 1 .drop, .op 0 .drop] = [1] ∧
    World.empty.run
      [.make 3, .op 0 (.collect 2), .op 0 .intoIter, .op 0 .next, .op 1 .drop, .op 0 .drop]
      = .ok { held := [], dropped := [2, 0], fresh := 3 } := by decide

/-- C69 (part). A history that leaves nothing behind in that sense, and after which nothing is
held, has dropped every item exactly once. -/
theorem C69_all_dropped_partial (ss : List OwnStep) (h : ∀ s ∈ ss, Careful s) (w : World)
    (hw : World.empty.run ss = .ok w) (hl : leaks World.empty ss = []) (hh : w.held = []) :
    w.dropped.Perm (List.range w.fresh) := by
  have := C69_accounted_partial ss h w hw
  rw [hl, List.append_nil] at this
  unfold World.owned at this
  rw [hh] at this
  simpa using this

example : ∃ w, World.empty.run [.make 2, .op 0 (.collect 5), .op 0 .intoVec, .op 0 .drop] = .ok w ∧
    leaks World.empty [.make 2, .op 0 (.collect 5), .op 0 .intoVec, .op 0 .drop] = [] ∧
    w.held = [] := ⟨_, rfl, by decide, rfl⟩

/-- Reading an iterator to its end: `count` times `next` and the drop of its item, then the drop of
the iterator. -/
def readAll (count : Nat) : List OwnStep :=
  List.flatten (List.replicate count [.op 0 .next, .op 0 .drop]) ++ [.op 0 .drop]

/-- C69 (part). Collecting any number of items into a sized slice of any capacity and reading it to
the end drops each of them, first those that did not fit. -/
theorem C69_read_partial (k n : Nat) :
    World.empty.run ([.make k, .op 0 (.collect n), .op 0 .intoIter] ++ readAll (min n k))
      = .ok { held := [], dropped := (List.range k).drop n ++ (List.range k).take n,
              fresh := k } := by
  have hr : List.range' 0 k = List.range k := (List.range_eq_range' (n := k)).symm
  have h1 : World.empty.run [.make k, .op 0 (.collect n), .op 0 .intoIter] = .ok
      { held := [.iter (SizedSlice.fromIter n (List.range k)).intoIter],
        dropped := (List.range k).drop n, fresh := k } := by
    simp [World.run, World.step, Res.cast, OwnOp.apply, World.empty, newItems, hr]
  have hs : ((SizedSlice.fromIter n (List.range k)).asSlice : Res Empty (List Nat))
      = .ok ((List.range k).take n) := by
    have hs := SizedSlice.fillFrom_spec (SizedSlice.uninit n) (List.range k)
    rw [show (SizedSlice.uninit n : List (MaybeUninit Nat)).length = n from
      List.length_replicate] at hs
    refine SizedSlice.asSlice_ok.mpr ⟨?_, hs.2.2⟩
    show (SizedSlice.fillFrom (SizedSlice.uninit n) (List.range k)).2
      ≤ (SizedSlice.fillFrom (SizedSlice.uninit n) (List.range k)).1.length
    rw [hs.1, hs.2.1]; exact Nat.min_le_left _ _
  obtain ⟨it', h3, h4⟩ := World.drain ((List.range k).take n) _ ((List.range k).drop n) k []
    (SizedIter.represents_intoIter hs) (by rw [List.take_append_drop]; exact List.nodup_range)
  rw [List.length_take, List.length_range] at h4
  rw [World.run_append, h1]
  simp only [Res.cast]
  rw [readAll, World.run_append, h4]
  simp [Res.cast, World.run, World.step, OwnOp.apply]

example : World.empty.run ([.make 3, .op 0 (.collect 2), .op 0 .intoIter] ++ readAll 2)
    = .ok { held := [], dropped := [2, 0, 1], fresh := 3 } := C69_read_partial 3 2

/-- C69 is false: a sized slice that is dropped, whatever it holds, drops none of its items. -/
theorem C69_slice_false (k : Nat) :
    World.empty.run [.make k, .op 0 (.collect k), .op 0 .drop]
      = .ok { held := [], dropped := [], fresh := k } := by
  simp [World.run, World.step, Res.cast, OwnOp.apply, World.empty, newItems]

/-- C69 is false: so does an iterator that was not read to its end. -/
theorem C69_iterator_false (k : Nat) :
    World.empty.run [.make k, .op 0 (.collect k), .op 0 .intoIter, .op 0 .drop]
      = .ok { held := [], dropped := [], fresh := k } := by
  simp [World.run, World.step, Res.cast, OwnOp.apply, World.empty, newItems]

/-- C69 is false: a decoded slice of which the announced length is less than its capacity leaves the
items beyond the length behind, also if it is read to its end. -/
theorem C69_decoded_false (n len : Nat) (hlt : len < n) :
    World.empty.run ([.decode n len, .op 0 .intoIter] ++ readAll len)
      = .ok { held := [], dropped := List.range len, fresh := n } := by
  have h : len ≤ n := Nat.le_of_lt hlt
  have hr : List.range' 0 n = List.range n := (List.range_eq_range' (n := n)).symm
  have h1 : World.empty.run [.decode n len, .op 0 .intoIter] = .ok
      { held := [.iter (SizedSlice.intoIter { buf := (List.range n).map some, len := len })],
        dropped := [], fresh := n } := by
    simp [World.run, World.step, Res.cast, OwnOp.apply, World.empty, newItems, hr,
      Nat.not_lt.mpr h]
  have hs : (SizedSlice.asSlice { buf := (List.range n).map some, len := len }
      : Res Empty (List Nat)) = .ok (List.range len) := by
    refine SizedSlice.asSlice_ok.mpr ⟨by simpa using h, ?_⟩
    simp only
    rw [← List.map_take, List.take_range, Nat.min_eq_left h]
  obtain ⟨it', h3, h4⟩ := World.drain (List.range len) _ [] n []
    (SizedIter.represents_intoIter hs) (by rw [List.append_nil]; exact List.nodup_range)
  rw [List.length_range] at h4
  rw [World.run_append, h1]
  simp only [Res.cast]
  rw [readAll, World.run_append, h4]
  simp [Res.cast, World.run, World.step, OwnOp.apply]

/-- All cells of a decoded slice hold items, whatever its length: what the step `decode` of the
histories says. -/
theorem C69_cells {α : Type} (dec : Dec α) (n : Nat) (i i' : Input) (s : SizedSlice α)
    (h : SizedSlice.decode dec n i = (.ok s, i')) :
    s.len ≤ n ∧ ∃ items : List α, items.length = n ∧ s.buf = items.map some := by
  have hu : (SizedSlice.uninit n : List (MaybeUninit α)).length = n := List.length_replicate
  unfold SizedSlice.decode at h
  change Dec.bind _ _ i = _ at h
  unfold Dec.bind at h
  cases hl : decUsize i with
  | mk r i1 =>
    rw [hl] at h
    cases r with
    | err e => cases h
    | panic p => cases h
    | ub u => cases h
    | ok len =>
      simp only at h
      split at h
      · cases h
      · rename_i hn
        change Dec.bind _ _ i1 = _ at h
        unfold Dec.bind at h
        rw [SizedSlice.decodeCells_eq, hu] at h
        generalize (decItems dec n 0) i1 = r at h
        obtain ⟨r, i2⟩ := r
        cases r with
        | err e => cases h
        | panic p => cases h
        | ub u => cases h
        | ok l =>
          injection h with h1 h2
          injection h1 with h1
          subst h1
          exact ⟨Nat.not_lt.mp hn, l.val, l.property, rfl⟩

example : (SizedSlice.decode decU8 2 ⟨[1, 0, 7, 8], 0⟩).1
    = .ok ⟨[some 7, some 8], 1⟩ := by decide

/-- C69 is false: a decoding that fails leaves the items it had decoded behind. -/
theorem C69_failed_false (k : Nat) :
    World.empty.run [.decodeFail k] = .ok { held := [], dropped := [], fresh := k } := by
  simp [World.run, World.step, Res.cast, World.empty]

end Oct.Props
