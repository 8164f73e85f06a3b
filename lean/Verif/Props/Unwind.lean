import Verif.Proofs.Unwind
/- Panics of the user's code in the middle of the crate's operations: C114, C115. -/
namespace Oct.Props
open Spec

/-- C114 (part). Whatever calls of the user's code panic, in every history of the operations on sized
slices, iterators, vectors and lists other than `From<[T; N]>` and `nth`, with the panics caught: no
item is destroyed twice, none that was destroyed is used or still owned, and all that can be undefined
is the allocation of zero octets by `into_vec`. A panic while unwinding aborts the program, and up to
then no item was destroyed twice either. MISSING: those two operations. -/
theorem C114_once_partial (ts : List UnwindStep) (h : ∀ t ∈ ts, CarefulStep t) (fates : List Fate) :
    match performAll ts [] (atFirst fates) with
    | (.ok (_, held), s) => Intact held s
    | (.unwind, _) => False
    | (.abort, s) => s.dropped.Nodup
    | (.ub u, _) => u = .zeroAlloc := by
  have := performAll_leaves ts [] (s := atFirst fates) h
    ⟨by simp, by simp [atFirst], by simp [atFirst]⟩
  generalize performAll ts [] (atFirst fates) = r at this ⊢
  obtain ⟨r, s⟩ := r
  cases r with
  | ok a =>
    have h2 := this.2.1
    rw [List.append_nil] at h2
    exact h2
  | unwind => exact this
  | abort => exact this
  | ub u => exact this

/-- Collecting three items of which the second `next` panics, after which the iterator destroys the two
that it still has; a clone that panics at its second item; a vector of which the second destructor
panics. -/
example : performAll [.make 3, .op 0 (.collect 3), .make 3, .op 0 (.new 4), .op 0 .drop] []
      (atFirst [.returns, .panics, .returns, .returns, .returns, .panics, .returns, .panics])
    = (.ok ([true, false, true, false, false], []), ⟨[1, 2, 3, 4, 5], 7, []⟩) := by decide +kernel

/-- A destructor that panics while another panic unwinds. -/
example : (performAll [.make 2, .op 0 .drop] [] (atFirst [.panics, .panics])).1 = .abort := by
  decide +kernel

/-- C114 (part). If no call of the user's code panics, none of these operations does. -/
theorem C114_quiet_partial (ts : List UnwindStep) (h : ∀ t ∈ ts, CarefulStep t) (fates : List Fate)
    (hf : Fate.panics ∉ fates) :
    match performAll ts [] (atFirst fates) with
    | (.ok (bs, _), _) => bs = List.replicate ts.length true
    | (.ub u, _) => u = .zeroAlloc
    | _ => False := by
  have h1 := performAll_calm ts [] h (atFirst fates) hf
  have h2 := C114_once_partial ts h fates
  generalize performAll ts [] (atFirst fates) = r at h1 h2 ⊢
  obtain ⟨r, s⟩ := r
  cases r with
  | ok a => exact List.eq_replicate_iff.mpr h1.1
  | unwind => exact h1
  | abort => exact h1
  | ub u => exact h2

/-- A vector of which the second item fails, and a clone. -/
example : (performAll [.make 1, .decode (.vec 3), .op 0 (.collect 2), .op 0 .clone] []
      (atFirst [.returns, .fails])).1
    = .ok ([true, true, true, true],
        [.slice ⟨[some 2, none], 1⟩, .slice ⟨[some 0, none], 1⟩]) := by decide +kernel

/-- C114 (part). A clone that panics, of a slice or an iterator, or in `SizedSlice::new`, leaves what
was to be cloned as it is, and destroys nothing. -/
theorem C114_borrowed (o : OwnOp) (x : Holder) (s s' : Tally) (hs : List Holder)
    (ho : o = .clone ∨ ∃ n, o = .new n) (h : o.perform x s = (.ok (false, hs), s')) :
    hs = [x] ∧ s'.dropped = s.dropped := by
  rcases ho with rfl | ⟨n, rfl⟩
  · cases x with
    | item a => cases h
    | vec l => cases h
    | slice t =>
      obtain ⟨h1, h2⟩ := catching_false h
      refine ⟨h1, h2 ▸ ?_⟩
      exact ((liftRes_spares _).bind fun _ => (cloneEach_spares _).bind fun _ => .pure _) s
    | iter it =>
      obtain ⟨h1, h2⟩ := catching_false h
      refine ⟨h1, h2 ▸ ?_⟩
      exact ((liftRes_spares _).bind fun _ => (cloneEach_spares _).bind fun _ => .pure _) s
  · cases x with
    | item a => cases h
    | slice t => cases h
    | iter it => cases h
    | vec l =>
      unfold OwnOp.perform at h
      simp only at h
      split at h
      · cases h
      · obtain ⟨h1, h2⟩ := catching_false h
        refine ⟨h1, h2 ▸ ?_⟩
        exact ((cloneEach_spares _).bind fun _ => .pure _) s

example : OwnOp.perform .clone (.slice ⟨[some 0, some 1, none], 2⟩) ⟨[], 2, [.returns, .panics]⟩
    = (.ok (false, [.slice ⟨[some 0, some 1, none], 2⟩]), ⟨[], 3, []⟩) := by decide

/-- C114 is false for `nth`: if the destructor of the first item that is skipped panics, the iterator
still counts that item among its own, and the next call gives it out. Here `nth` did nothing that it
would do wrong without a panic, see C68. -/
theorem C114_nth_false (xs : List Nat) (a : Nat) (k : Nat) (hk : 2 ≤ k) (hl : k ≤ xs.length + 1)
    (d : List Nat) (f : Nat) (ha : a ∉ d) (fs : List Fate) :
    ∃ it s', OwnOp.perform (.nth k) (.iter ⟨(a :: xs).map some, 0, xs.length + 1⟩)
        ⟨d, f, .panics :: fs⟩ = (.ok (false, [.iter it]), s') ∧
      s'.dropped = d ++ [a] ∧ it.len = xs.length + 1 ∧
      (OwnOp.perform .next (.iter it) s').1 = .ub .uninitRead := by
  obtain ⟨j, rfl⟩ : ∃ j, k = j + 2 := ⟨k - 2, by omega⟩
  have hd : userDrop a ⟨d, f, .panics :: fs⟩ = (.unwind, ⟨d ++ [a], f, fs⟩) := by
    unfold userDrop
    rw [bind_eq, touch, if_neg ha]
    rfl
  have h1 : dropCells (j + 1) 0 ((a :: xs).map some) ⟨d, f, .panics :: fs⟩
      = (.ok (false, none :: xs.map some), ⟨d ++ [a], f, fs⟩) := by
    unfold dropCells
    simp only [List.map_cons, List.getElem?_cons_zero, hd, List.set_cons_zero]
  refine ⟨⟨none :: xs.map some, 0, xs.length + 1⟩, ⟨d ++ [a], f, fs⟩, ?_, rfl, rfl, ?_⟩
  · unfold OwnOp.perform
    simp only
    rw [if_neg (by omega), if_neg (by omega), if_neg (by simp; omega), bind_eq]
    simp only [show j + 2 - 1 = j + 1 from rfl]
    rw [h1]
    rfl
  · unfold OwnOp.perform
    simp only
    rw [bind_eq]
    have : SizedIter.next (⟨none :: xs.map some, 0, xs.length + 1⟩ : SizedIter Nat)
        = .ub .uninitRead := by
      unfold SizedIter.next
      rw [if_neg (by simp)]
      rfl
    rw [this]
    rfl

example : (performAll [.make 3, .op 0 (.collect 3), .op 0 .intoIter, .op 0 (.nth 2), .op 0 .next] []
    (atFirst [.returns, .returns, .returns, .panics])).1 = .ub .uninitRead := by decide +kernel

/-- The same without the panic, and without a call afterwards, is as it should be. -/
example : (performAll [.make 3, .op 0 (.collect 3), .op 0 .intoIter, .op 0 (.nth 2), .op 1 .drop] []
    (atFirst [])) = (.ok ([true, true, true, true, true], [.item 2]), ⟨[0], 3, []⟩) := by decide +kernel

/-- C115 (part). When the decoding of a linked list, or of the fields of a tuple, structure or variant,
does not succeed, because of an error or of a panic, all that was decoded for it is destroyed, each
once, whatever the destructors do, unless the program aborts. MISSING: the types of
`C115_cells_false`. -/
theorem C115_destroyed_partial (k : DecKind) (hk : (∃ n, k = .linkedList n) ∨ ∃ n, k = .fields n)
    (s s' : Tally) (hs : s.dropped.Nodup ∧ ∀ a ∈ s.dropped, a < s.fresh)
    (h : k.decode s = (.ok none, s') ∨ k.decode s = (.unwind, s')) :
    s'.dropped.Perm (s.dropped ++ List.range' s.fresh (s'.fresh - s.fresh)) ∧ s'.dropped.Nodup := by
  have h0 : Since s.dropped s.fresh [] s := ⟨hs, Nat.le_refl _, by simp⟩
  suffices H : ∀ (order : List Nat → List Nat) (n : Nat), (∀ l, (order l).Perm l) →
      Leaves ((do let r ← decodeHeld order n []; pure (r.map Holder.vec) : Act (Option Holder)) s)
        (fun r t => r = none → Since s.dropped s.fresh [] t) (Since s.dropped s.fresh []) by
    have hS : Since s.dropped s.fresh [] s' := by
      rcases hk with ⟨n, rfl⟩ | ⟨n, rfl⟩
      · have := H id n fun _ => .refl _
        rcases h with h | h
        · change (DecKind.linkedList n).decode s |> fun r => Leaves r _ _ at this
          simp only [h] at this
          exact this rfl
        · change (DecKind.linkedList n).decode s |> fun r => Leaves r _ _ at this
          simp only [h] at this
          exact this
      · have := H _ n List.reverse_perm
        rcases h with h | h
        · change (DecKind.fields n).decode s |> fun r => Leaves r _ _ at this
          simp only [h] at this
          exact this rfl
        · change (DecKind.fields n).decode s |> fun r => Leaves r _ _ at this
          simp only [h] at this
          exact this
    exact ⟨by simpa using hS.2.2, by simpa using hS.1.1⟩
  intro order n ho
  refine Leaves.bind (decodeHeld_since order ho n [] (l := []) (by simpa using h0)) fun r t h' => ?_
  cases r with
  | none => exact fun _ => by simpa using h'
  | some xs => exact fun e => nomatch e

/-- The third item of a list fails, and the third field of a tuple panics. -/
example : DecKind.decode (.linkedList 4) (atFirst [.returns, .returns, .fails])
      = (.ok none, ⟨[0, 1], 2, []⟩) ∧
    DecKind.decode (.fields 4) (atFirst [.returns, .returns, .panics])
      = (.unwind, ⟨[1, 0], 2, []⟩) := by decide

/-- C115 is false: when item `k` of an array, a vector or a sized slice fails to decode, or panics, the
`k` items before it are neither destroyed nor owned by anyone. -/
theorem C115_cells_false (n k : Nat) (hk : k < n) (f : Fate) (hf : f ≠ .returns) (fs : List Fate)
    (c : DecKind) (hc : c = .array n ∨ c = .vec n ∨ ∃ len, len ≤ n ∧ c = .sizedSlice n len) :
    ∃ s', c.decode (atFirst (List.replicate k .returns ++ f :: fs))
        = (if f = .fails then .ok none else .unwind, s') ∧
      s'.dropped = [] ∧ forgotten [] s' = List.range k := by
  have h := decodeCellwise_fails f fs k n [] 0 hk hf
  rw [Nat.zero_add] at h
  have key : ∀ g : List Nat → Holder,
      (do let r ← decodeCellwise n; pure (r.map g) : Act (Option Holder))
        (atFirst (List.replicate k .returns ++ f :: fs))
      = (if f = .fails then .ok none else .unwind, ⟨[], k, fs⟩) := by
    intro g
    rw [bind_eq, show atFirst (List.replicate k .returns ++ f :: fs)
      = ⟨[], 0, List.replicate k .returns ++ f :: fs⟩ from rfl, h]
    cases f with
    | returns => exact (hf rfl).elim
    | fails => rfl
    | panics => rfl
  refine ⟨⟨[], k, fs⟩, ?_, rfl, by simp [forgotten]⟩
  rcases hc with rfl | rfl | ⟨len, hl, rfl⟩
  · exact key _
  · exact key _
  · show (if len > n then _ else _ : Act _) _ = _
    rw [if_neg (by omega)]
    exact key _

example : DecKind.decode (.vec 4) (atFirst [.returns, .returns, .fails])
      = (.ok none, ⟨[], 2, []⟩) ∧
    forgotten [] ⟨[], 2, []⟩ = [0, 1] := by decide

/-- C115 is false: nor are the clones that were made before one panics. If there was nothing but the
items that are cloned, then the clones are all that is forgotten. -/
theorem C115_clone_false (xs : List Nat) (n k : Nat) (hk : k < xs.length) (hn : xs.length ≤ n)
    (d : List Nat) (f : Nat) (hx : ∀ a ∈ xs, a ∉ d) (fs : List Fate) :
    OwnOp.perform (.new n) (.vec xs) ⟨d, f, List.replicate k .returns ++ .panics :: fs⟩
      = (.ok (false, [.vec xs]), ⟨d, f + k, fs⟩) ∧
    (d = [] → xs = List.range f →
      forgotten [.vec xs] ⟨d, f + k, fs⟩ = (List.range k).map (f + ·)) := by
  constructor
  · unfold OwnOp.perform
    simp only
    rw [if_neg (by omega)]
    unfold Act.catching
    rw [bind_eq, cloneEach_panics fs k xs d f hk hx]
  · rintro rfl rfl
    unfold forgotten
    have h1 : (List.range f).filter (fun a =>
        decide (a ∉ [Holder.vec (List.range f)].flatMap owned ∧ a ∉ ([] : List Nat))) = [] := by
      rw [List.filter_eq_nil_iff]
      intro a ha
      simp only [List.flatMap_cons, List.flatMap_nil, List.append_nil, owned]
      simpa using ha
    have h2 : ((List.range k).map (f + ·)).filter (fun a =>
        decide (a ∉ [Holder.vec (List.range f)].flatMap owned ∧ a ∉ ([] : List Nat)))
        = (List.range k).map (f + ·) := by
      rw [List.filter_eq_self]
      intro a ha
      obtain ⟨b, _, rfl⟩ := List.mem_map.mp ha
      simp [owned]
    simp only
    rw [List.range_add, List.filter_append, h1, h2, List.nil_append]

example : forgotten [.vec [0, 1, 2]] ⟨[], 5, []⟩ = [3, 4] ∧
    OwnOp.perform (.new 3) (.vec [0, 1, 2]) ⟨[], 3, [.returns, .returns, .panics]⟩
      = (.ok (false, [.vec [0, 1, 2]]), ⟨[], 5, []⟩) := by decide

/-- C115 (part). When `next` of the iterator that a sized slice is collected from panics, what the
iterator still has is destroyed, in order; what was taken from it is neither destroyed nor owned. -/
theorem C115_collect_partial (xs : List Nat) (n k : Nat) (hn : k < n) (hk : k ≤ xs.length)
    (d : List Nat) (f : Nat) (hx : (xs ++ d).Nodup) :
    OwnOp.perform (.collect n) (.vec xs) ⟨d, f, List.replicate k .returns ++ [.panics]⟩
      = (.ok (false, []), ⟨d ++ xs.drop k, f, []⟩) := by
  have hd : (xs.drop k ++ d).Nodup := by
    rw [← List.take_append_drop k xs, List.append_assoc] at hx
    exact (List.nodup_append.mp hx).2.1
  unfold OwnOp.perform
  simp only
  unfold Act.catching
  rw [bind_eq, takeEach_panics [] k n xs d f hn hk, dropGlue_none _ _ _ hd]

example : OwnOp.perform (.collect 4) (.vec [0, 1, 2]) ⟨[], 3, [.returns, .panics]⟩
    = (.ok (false, []), ⟨[1, 2], 3, []⟩) := by decide +kernel

/-- C114 (part). Where nothing panics, what an operation makes, destroys and leaves is what the model
of C68 and C69 says (here for all operations but `nth`, for which see below; of things that own nothing twice). -/
theorem C114_agrees (o : OwnOp) (x : Holder) (d : List Nat) (f : Nat) (hn : ∀ k, o ≠ .nth k)
    (hx : (owned x ++ d).Nodup) :
    o.perform x ⟨d, f, []⟩ = match o.apply x f with
      | .ok e => (.ok (true, e.held), ⟨d ++ e.dropped, e.fresh, []⟩)
      | .panic _ => (.unwind, ⟨d, f, []⟩)
      | .ub u => (.ub u, ⟨d, f, []⟩) := by
  have hd : ∀ a ∈ owned x, a ∉ d := fun a ha hd => (List.nodup_append.mp hx).2.2 a ha a hd rfl
  have same : ∀ (used : List Nat), o.perform x ⟨d, f, []⟩ = (.ok (true, [x]), ⟨d, f, []⟩) →
      o.apply x f = .ok { held := [x], used := used, fresh := f } →
      o.perform x ⟨d, f, []⟩ = match o.apply x f with
        | .ok e => (.ok (true, e.held), ⟨d ++ e.dropped, e.fresh, []⟩)
        | .panic _ => (.unwind, ⟨d, f, []⟩)
        | .ub u => (.ub u, ⟨d, f, []⟩) := fun used h1 h2 => by
    rw [h1, h2]; simp only [List.append_nil]
  have hslice : ∀ {t : SizedSlice Nat} {l : List Nat}, x = .slice t →
      (t.asSlice : Res Empty (List Nat)) = .ok l → ∀ a ∈ l, a ∉ d := fun e hl a ha => hd a (by
    rw [e, owned_slice hl]; exact List.mem_append_left _ ha)
  have hiter : ∀ {it : SizedIter Nat} {l : List Nat}, x = .iter it →
      it.asSlice = .ok l → ∀ a ∈ l, a ∉ d := fun {it l} e hl a ha => hd a (by
    rw [e, owned, List.mem_filterMap]
    unfold SizedIter.asSlice at hl
    have h2 := (SizedSlice.asSlice_ok (s := ⟨it.buf.drop it.pos, it.len⟩)).mp hl
    have h3 : some a ∈ (it.buf.drop it.pos).take it.len := by
      rw [h2.2]; exact List.mem_map_of_mem ha
    exact ⟨some a, List.mem_of_mem_drop (List.mem_of_mem_take h3), rfl⟩)
  have htake : ∀ {it : SizedIter Nat} {i a : Nat} {c : List (MaybeUninit Nat)}, x = .iter it →
      (SizedIter.take it.buf i : Res Empty _) = .ok (a, c) → a ∉ d := fun {it i a c} e ht => hd a (by
    rw [e, owned, List.mem_filterMap]
    unfold SizedIter.take at ht
    split at ht
    · cases ht
    · cases ht
    · rename_i hg
      cases ht
      exact ⟨some a, List.mem_of_getElem? hg, rfl⟩)
  cases o with
  | nth k => exact (hn k rfl).elim
  | collect n =>
    cases x with
    | vec l =>
      have hdn : (l.drop n ++ d).Nodup := by
        have hx' : (l ++ d).Nodup := hx
        rw [← List.take_append_drop n l, List.append_assoc] at hx'
        exact (List.nodup_append.mp hx').2.1
      unfold OwnOp.perform OwnOp.apply
      simp only
      unfold Act.catching
      rw [bind_eq, takeEach_none]
      simp only
      rw [bind_eq, dropGlue_none _ _ _ hdn]
      show (Ended.ok (true, [Holder.slice ⟨cellsOf n (l.take n), (l.take n).length⟩]), _) = _
      unfold SizedSlice.fromIter
      rw [fillFrom_eq]
    | _ => exact same [] rfl rfl
  | new n =>
    cases x with
    | vec l =>
      unfold OwnOp.perform OwnOp.apply
      simp only
      by_cases h : l.length > n
      · have : SizedSlice.new n (newItems f l.length)
            = .error { capacity := n, len := (newItems f l.length).length } := by
          unfold SizedSlice.new
          exact if_pos (by rw [newItems_length]; exact h)
        rw [if_pos h, this]
        simp only [List.append_nil]
        rfl
      · have : SizedSlice.new n (newItems f l.length)
            = .ok (SizedSlice.mk (cellsOf n (newItems f l.length))
                (newItems f l.length).length) := by
          unfold SizedSlice.new
          exact if_neg (by rw [newItems_length]; exact h)
        rw [if_neg h, this]
        unfold Act.catching
        rw [bind_eq, cloneEach_none l d f hd]
        simp only [List.append_nil, newItems_length]
        rfl
    | _ => exact same [] rfl rfl
  | fromArray =>
    cases x with
    | vec l =>
      unfold OwnOp.perform OwnOp.apply
      simp only
      unfold Act.catching
      rw [bind_eq, dropGlue_none l d f hx]
      rfl
    | _ => exact same [] rfl rfl
  | clone =>
    cases x with
    | slice t =>
      unfold OwnOp.perform OwnOp.apply
      simp only
      unfold Act.catching
      rw [bind_eq]
      cases hl : (t.asSlice : Res Empty (List Nat)) with
      | err e => exact nomatch e
      | panic p => exact (sliceOf_quiet _ _ p hl).elim
      | ub u => rfl
      | ok l =>
        simp only [liftRes, Res.cast]
        rw [bind_eq, cloneEach_none l d f (hslice rfl hl)]
        simp only [List.append_nil]
        rfl
    | iter it =>
      unfold OwnOp.perform OwnOp.apply
      simp only
      unfold Act.catching
      rw [bind_eq]
      cases hl : it.asSlice with
      | err e => exact nomatch e
      | panic p => exact (sliceOf_quiet _ _ p hl).elim
      | ub u => rfl
      | ok l =>
        simp only [liftRes, Res.cast]
        rw [bind_eq, cloneEach_none l d f (hiter rfl hl)]
        simp only [List.append_nil]
        rfl
    | _ => exact same [] rfl rfl
  | intoIter =>
    cases x with
    | slice t =>
      unfold OwnOp.perform OwnOp.apply
      simp only [List.append_nil]
      rfl
    | _ => exact same [] rfl rfl
  | next =>
    cases x with
    | iter it =>
      unfold OwnOp.perform OwnOp.apply
      simp only
      rw [bind_eq]
      unfold SizedIter.next
      by_cases h0 : it.len = 0
      · simp only [if_pos h0, liftRes, Res.cast, List.append_nil]
        rfl
      · simp only [if_neg h0]
        cases ht : (SizedIter.take it.buf it.pos : Res Empty _) with
        | err e => exact nomatch e
        | panic p => exact (take_quiet _ _ p ht).elim
        | ub u => rfl
        | ok r =>
          obtain ⟨a, c⟩ := r
          simp only [Res.map, liftRes, Res.cast, List.append_nil]
          rw [bind_eq, touch, if_neg (htake rfl ht)]
          rfl
    | _ => exact same [] rfl rfl
  | nextBack =>
    cases x with
    | iter it =>
      unfold OwnOp.perform OwnOp.apply
      simp only
      rw [bind_eq]
      unfold SizedIter.nextBack
      by_cases h0 : it.len = 0
      · simp only [if_pos h0, liftRes, Res.cast, List.append_nil]
        rfl
      · simp only [if_neg h0]
        cases ht : (SizedIter.take it.buf (it.pos + it.len - 1) : Res Empty _) with
        | err e => exact nomatch e
        | panic p => exact (take_quiet _ _ p ht).elim
        | ub u => rfl
        | ok r =>
          obtain ⟨a, c⟩ := r
          simp only [Res.map, liftRes, Res.cast, List.append_nil]
          rw [bind_eq, touch, if_neg (htake rfl ht)]
          rfl
    | _ => exact same [] rfl rfl
  | intoVec =>
    cases x with
    | slice t =>
      unfold OwnOp.perform OwnOp.apply
      simp only
      rw [bind_eq]
      cases hv : (t.intoVec 1 : Res Empty (List Nat)) with
      | err e => exact nomatch e
      | panic p => rfl
      | ub u => rfl
      | ok l =>
        have hl : (t.asSlice : Res Empty (List Nat)) = .ok l := by
          unfold SizedSlice.intoVec SizedSlice.intoBoxedSlice at hv
          split at hv
          · cases hv
          · exact hv
        simp only [liftRes, Res.cast, List.append_nil]
        rw [bind_eq, touchAll_none l d f (hslice rfl hl)]
        rfl
    | _ => exact same [] rfl rfl
  | look =>
    cases x with
    | item a =>
      refine same [a] ?_ rfl
      unfold OwnOp.perform
      simp only
      rw [bind_eq, touch, if_neg (hd a (by simp [owned]))]
      rfl
    | vec l =>
      refine same l ?_ rfl
      unfold OwnOp.perform
      simp only
      rw [bind_eq, touchAll_none l d f hd]
      rfl
    | slice t =>
      unfold OwnOp.perform OwnOp.apply
      simp only
      rw [bind_eq]
      cases hl : (t.asSlice : Res Empty (List Nat)) with
      | err e => exact nomatch e
      | panic p => rfl
      | ub u => rfl
      | ok l =>
        simp only [liftRes, Res.cast, List.append_nil]
        rw [bind_eq, touchAll_none l d f (hslice rfl hl)]
        rfl
    | iter it =>
      unfold OwnOp.perform OwnOp.apply
      simp only
      rw [bind_eq]
      cases hl : it.asSlice with
      | err e => exact nomatch e
      | panic p => rfl
      | ub u => rfl
      | ok l =>
        simp only [liftRes, Res.cast, List.append_nil]
        rw [bind_eq, touchAll_none l d f (hiter rfl hl)]
        rfl
  | drop =>
    cases x with
    | item a =>
      unfold OwnOp.perform OwnOp.apply
      simp only
      unfold Act.catching
      rw [bind_eq, userDrop_none (hd a (by simp [owned]))]
      rfl
    | vec l =>
      unfold OwnOp.perform OwnOp.apply
      simp only
      unfold Act.catching
      rw [bind_eq, dropGlue_none l d f hx]
      rfl
    | slice t =>
      unfold OwnOp.perform OwnOp.apply
      simp only [List.append_nil]
      rfl
    | iter it =>
      unfold OwnOp.perform OwnOp.apply
      simp only [List.append_nil]
      rfl

example : OwnOp.perform .next (.iter ⟨[none, some 1], 1, 1⟩) ⟨[0], 2, []⟩
      = (.ok (true, [.item 1, .iter ⟨[none, none], 2, 0⟩]), ⟨[0], 2, []⟩) ∧
    (owned (.iter ⟨[none, some 1], 1, 1⟩) ++ [0]).Nodup := by decide +kernel

/-- C114 (part). So it is for `nth`; the panic there is one for an overflow, and leaves the iterator
as it was. -/
theorem C114_agrees_nth (k : Nat) (x : Holder) (d : List Nat) (f : Nat)
    (hx : (owned x ++ d).Nodup) :
    match OwnOp.apply (.nth k) x f with
    | .ok e => OwnOp.perform (.nth k) x ⟨d, f, []⟩
        = (.ok (true, e.held), ⟨d ++ e.dropped, e.fresh, []⟩)
    | .panic _ => OwnOp.perform (.nth k) x ⟨d, f, []⟩ = (.ok (false, [x]), ⟨d, f, []⟩)
    | .ub _ => ∃ u s', OwnOp.perform (.nth k) x ⟨d, f, []⟩ = (.ub u, s') := by
  have same : OwnOp.perform (.nth k) x ⟨d, f, []⟩ = (.ok (true, [x]), ⟨d, f, []⟩) →
      OwnOp.apply (.nth k) x f = .ok { held := [x], fresh := f } →
      match OwnOp.apply (.nth k) x f with
      | .ok e => OwnOp.perform (.nth k) x ⟨d, f, []⟩
          = (.ok (true, e.held), ⟨d ++ e.dropped, e.fresh, []⟩)
      | .panic _ => OwnOp.perform (.nth k) x ⟨d, f, []⟩ = (.ok (false, [x]), ⟨d, f, []⟩)
      | .ub _ => ∃ u s', OwnOp.perform (.nth k) x ⟨d, f, []⟩ = (.ub u, s') := fun h1 h2 => by
    rw [h1, h2]; simp only [List.append_nil]
  cases x with
  | item a => exact same rfl rfl
  | vec l => exact same rfl rfl
  | slice t => exact same rfl rfl
  | iter it =>
    unfold OwnOp.perform OwnOp.apply SizedIter.nth
    simp only
    by_cases h1 : k > it.len
    · simp only [if_pos h1, Res.cast, List.append_nil]
      rfl
    · simp only [if_neg h1]
      by_cases h2 : it.pos + k = 0
      · simp only [if_pos h2, if_true, Res.cast]
        rfl
      · simp only [if_neg h2]
        by_cases h3 : it.pos > it.pos + k - 1 ∨ it.pos + k - 1 > it.buf.length
        · rw [if_pos h3, if_pos (show k = 0 ∨ it.pos + k - 1 > it.buf.length by omega)]
          exact ⟨_, _, rfl⟩
        · rw [if_neg h3, if_neg (show ¬ (k = 0 ∨ it.pos + k - 1 > it.buf.length) by omega)]
          have hc : it.pos + k - 1 - it.pos = k - 1 := by omega
          unfold SizedIter.dropRange
          rw [hc]
          cases hi : initAll ((it.buf.drop it.pos).take (k - 1)) with
          | none =>
            obtain ⟨u, s', e⟩ := dropCells_bad _ _ _ d f hi
            exact ⟨u, s', by rw [bind_eq, e]⟩
          | some l =>
            have hl : (it.buf.drop it.pos).take (k - 1) = l.map some := initAll_eq_some.mp hi
            have hlen : l.length = k - 1 := by
              have := congrArg List.length hl
              rw [List.length_take, List.length_drop, List.length_map] at this
              omega
            have hlen' : (it.buf.take it.pos).length = it.pos := by
              rw [List.length_take]; omega
            have hbuf : it.buf = it.buf.take it.pos ++ (l.map some ++ it.buf.drop (it.pos + k - 1)) := by
              rw [← hl, show it.pos + k - 1 = it.pos + (k - 1) by omega, ← List.drop_drop,
                List.take_append_drop, List.take_append_drop]
            have hf : (l.map some : List (Option Nat)).filterMap id = l := by
              rw [List.filterMap_map]; simp
            have ho : owned (.iter it) = (it.buf.take it.pos).filterMap id
                ++ (l ++ (it.buf.drop (it.pos + k - 1)).filterMap id) := by
              rw [owned]
              conv => lhs; rw [hbuf]
              rw [List.filterMap_append, List.filterMap_append, hf]
            rw [ho] at hx
            have hxl : (l ++ d).Nodup := by
              rw [List.append_assoc, List.append_assoc] at hx
              have := (List.nodup_append.mp hx).2.1
              exact this.sublist (List.Sublist.append_left (List.sublist_append_right _ _) l)
            have hdc := dropCells_none l (it.buf.take it.pos) (it.buf.drop (it.pos + k - 1)) d f hxl
            rw [hlen, hlen', ← hbuf] at hdc
            rw [bind_eq, hdc]
            simp only
            rw [← List.append_assoc, ← hc] at *
            generalize hb : it.buf.take it.pos ++ List.replicate (it.pos + k - 1 - it.pos) none
              ++ it.buf.drop (it.pos + k - 1) = cells
            rw [hc] at hb
            rw [bind_eq]
            cases ht : (SizedIter.take cells k : Res Empty _) with
            | err e => exact nomatch e
            | panic p => exact (take_quiet _ _ p ht).elim
            | ub u => exact ⟨_, _, rfl⟩
            | ok r =>
              obtain ⟨a, c⟩ := r
              have ha : some a ∈ cells := by
                unfold SizedIter.take at ht
                split at ht
                · cases ht
                · cases ht
                · rename_i hg
                  cases ht
                  exact List.mem_of_getElem? hg
              have hnot : a ∉ d ++ l := by
                intro hm
                rw [← hb, List.mem_append, List.mem_append] at ha
                have hx1 := List.nodup_append.mp hx
                have hx2 := List.nodup_append.mp hx1.1
                have mem : ∀ {cs : List (MaybeUninit Nat)}, some a ∈ cs → a ∈ cs.filterMap id :=
                  fun h => List.mem_filterMap.mpr ⟨some a, h, rfl⟩
                rcases List.mem_append.mp hm with hm | hm
                · refine hx1.2.2 a ?_ a hm rfl
                  rcases ha with (ha | ha) | ha
                  · exact List.mem_append_left _ (List.mem_append_left _ (mem ha))
                  · exact absurd (List.eq_of_mem_replicate ha) nofun
                  · exact List.mem_append_right _ (mem ha)
                · rcases ha with (ha | ha) | ha
                  · exact (List.nodup_append.mp hx2.1).2.2 a (mem ha) a hm rfl
                  · exact absurd (List.eq_of_mem_replicate ha) nofun
                  · exact hx2.2.2 a (List.mem_append_right _ hm) a (mem ha) rfl
              simp only [Res.map, Res.cast, liftRes]
              rw [bind_eq, touch, if_neg hnot]
              simp only [hl, hf]
              rfl

example : OwnOp.perform (.nth 2) (.iter ⟨[some 0, some 1, some 2], 0, 3⟩) ⟨[], 3, []⟩
      = (.ok (true, [.item 2, .iter ⟨[none, some 1, none], 2, 1⟩]), ⟨[0], 3, []⟩) ∧
    (owned (.iter ⟨[some 0, some 1, some 2], 0, 3⟩) ++ []).Nodup := by decide +kernel

end Oct.Props
