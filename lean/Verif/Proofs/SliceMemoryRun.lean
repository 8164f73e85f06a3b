import Verif.Proofs.SliceMemoryOps
/- Lemmas for C123: histories in memory are histories of values. -/
namespace Oct
open Spec
set_option linter.unusedVariables false
variable {α : Type}

namespace SizedSlice

theorem new_holds {n : Nat} {data : List α} {S : SizedSlice α} (h : new n data = .ok S) :
    (S.asSlice : Res Empty (List α)) = .ok data := by
  unfold new at h
  simp only at h
  split at h
  · cases h
  · cases h
    refine asSlice_ok.mpr ⟨?_, zipWrite_take _ _ ?_⟩
    · simp only [zipWrite_length, uninit, List.length_replicate]; omega
    · simp only [uninit, List.length_replicate]; omega

theorem fromIter_holds (n : Nat) (items : List α) :
    ((fromIter n items).asSlice : Res Empty (List α)) = .ok (items.take n) := by
  have hs := fillFrom_spec (uninit (α := α) n) items
  simp only [uninit, List.length_replicate] at hs
  refine asSlice_ok.mpr ⟨?_, ?_⟩
  · show (fillFrom _ _).2 ≤ (fillFrom _ _).1.length
    rw [uninit, hs.1, hs.2.1]; omega
  · exact hs.2.2

theorem fromArray_holds (items : List α) :
    ((fromArray false items).asSlice : Res Empty (List α)) = .ok items := by
  refine asSlice_ok.mpr ⟨?_, ?_⟩
  · simp [fromArray]
  · simp [fromArray, List.take_of_length_le]

theorem default_holds (n : Nat) : ((default n).asSlice : Res Empty (List α)) = .ok [] :=
  asSlice_ok.mpr ⟨Nat.zero_le _, rfl⟩

theorem copyFromSlice_holds {S S' : SizedSlice α} {data : List α}
    (h : (S.copyFromSlice data : Res Empty _) = .ok S') :
    (S'.asSlice : Res Empty (List α)) = .ok data := by
  unfold copyFromSlice at h
  simp only at h
  split at h
  · cases h
  · cases h
    refine asSlice_ok.mpr ⟨?_, ?_⟩
    · simp
    · simp [List.take_of_length_le]

theorem setIndex_holds {S S' : SizedSlice α} {l : List α} {k : Nat} {v : α}
    (hS : (S.asSlice : Res Empty (List α)) = .ok l) (h : (S.setIndex k v : Res Empty _) = .ok S') :
    (S'.asSlice : Res Empty (List α)) = .ok (l.set k v) ∧ S'.buf.length = S.buf.length ∧ S'.len = S.len := by
  obtain ⟨h1, h2⟩ := asSlice_ok.mp hS
  unfold setIndex at h
  rw [hS] at h
  simp only at h
  split at h
  · cases h
    refine ⟨asSlice_ok.mpr ⟨?_, ?_⟩, ?_, rfl⟩
    · simpa using h1
    · show (S.buf.set k (some v)).take S.len = _
      rw [List.take_set, h2, List.map_set]
    · simp
  · cases h

theorem clone_holds {S S' : SizedSlice α} {l : List α}
    (hS : (S.asSlice : Res Empty (List α)) = .ok l) (h : (S.clone : Res Empty _) = .ok S') :
    (S'.asSlice : Res Empty (List α)) = .ok l := by
  obtain ⟨h1, h2⟩ := asSlice_ok.mp hS
  obtain ⟨c, hc, hl, ht⟩ := copyCells_spec _ _ _ h1 h2
  unfold clone at h
  rw [hc] at h
  cases h
  exact asSlice_ok.mpr ⟨by rw [hl]; exact h1, ht⟩

end SizedSlice

namespace SizedIter

/-- What is left lies within the cells. -/
def Within (I : SizedIter α) : Prop := I.pos + I.len ≤ I.buf.length

theorem take_length {ε : Type} {c c' : List (MaybeUninit α)} {i : Nat} {v : α}
    (h : (take c i : Res ε _) = .ok (v, c')) : c'.length = c.length := by
  unfold take at h
  split at h <;> cases h
  simp

theorem next_within {I I' : SizedIter α} {x : Option α} (h : I.Within) (hn : I.next = .ok (x, I')) :
    I'.Within := by
  unfold next at hn
  split at hn
  · cases hn; exact h
  · cases ht : (take I.buf I.pos : Res Empty _) with
    | ok r =>
      rw [ht] at hn
      obtain ⟨v, c⟩ := r
      cases hn
      have := take_length ht
      unfold Within at *
      simp only
      omega
    | err e => exact e.elim
    | panic p => rw [ht] at hn; cases hn
    | ub u => rw [ht] at hn; cases hn

theorem nextBack_within {I I' : SizedIter α} {x : Option α} (h : I.Within)
    (hn : I.nextBack = .ok (x, I')) : I'.Within := by
  unfold nextBack at hn
  split at hn
  · cases hn; exact h
  · cases ht : (take I.buf (I.pos + I.len - 1) : Res Empty _) with
    | ok r =>
      rw [ht] at hn
      obtain ⟨v, c⟩ := r
      cases hn
      have := take_length ht
      unfold Within at *
      simp only
      omega
    | err e => exact e.elim
    | panic p => rw [ht] at hn; cases hn
    | ub u => rw [ht] at hn; cases hn

theorem nth_within {checks : Bool} {I I' : SizedIter α} {x : Option α} {k : Nat} (h : I.Within)
    (hn : I.nth checks k = .ok (x, I')) : I'.Within := by
  unfold nth at hn
  split at hn
  · cases hn; exact h
  · simp only at hn
    split at hn
    · split at hn <;> cases hn
    · split at hn
      · cases hn
      · next h1 h2 h3 =>
        unfold dropRange at hn
        cases hd : initAll ((I.buf.drop I.pos).take (I.pos + k - 1 - I.pos)) with
        | none => rw [hd] at hn; cases hn
        | some l =>
          rw [hd] at hn
          simp only at hn
          generalize hc : (I.buf.take I.pos ++ List.replicate (I.pos + k - 1 - I.pos) none
            ++ I.buf.drop (I.pos + k - 1)) = c at hn
          have hcl : c.length = I.buf.length := by
            rw [← hc]; simp; omega
          cases ht : (take c k : Res Empty _) with
          | ok r =>
            rw [ht] at hn
            obtain ⟨v, c'⟩ := r
            cases hn
            have := take_length ht
            unfold Within at *
            simp only
            omega
          | err e => exact e.elim
          | panic p => rw [ht] at hn; cases hn
          | ub u => rw [ht] at hn; cases hn

theorem setIndex_within {I I' : SizedIter α} {k : Nat} {v : α} (h : I.Within)
    (hn : I.setIndex k v = .ok I') : I'.Within ∧ I'.buf.length = I.buf.length ∧ I'.pos = I.pos ∧ I'.len = I.len := by
  unfold setIndex at hn
  split at hn
  · split at hn
    · cases hn
      refine ⟨?_, ?_, rfl, rfl⟩
      · unfold Within at *; simpa using h
      · simp
    · cases hn
  all_goals cases hn

theorem clone_within {I I' : SizedIter α} (h : I.Within) (hn : I.clone = .ok I') : I'.Within := by
  unfold clone at hn
  unfold Within at h
  rw [SizedSlice.copyCells_eq _ _ (by rw [List.length_drop]; omega)] at hn
  cases hv : initAll ((I.buf.drop I.pos).take I.len) with
  | none => rw [hv] at hn; cases hn
  | some l =>
    have := congrArg List.length (initAll_eq_some.mp hv)
    rw [List.length_take, List.length_drop, List.length_map] at this
    rw [hv] at hn
    simp only [Option.map_some] at hn
    rw [if_neg (by omega)] at hn
    cases hn
    unfold Within
    simp [SizedSlice.uninit]
    omega

end SizedIter

namespace SliceOp

/-- Both go on alike. -/
def Alike (base : Mem α) : Option (SliceOut α × SliceHeap α) →
    Option (SliceOut α × List (SliceObj α)) → Prop
  | some (x, h), some (y, L) => x = y ∧ ShowsSlices base h L
  | none, none => True
  | _, _ => False

theorem alike_push {base : Mem α} {h : SliceHeap α} {L : List (SliceObj α)} (H : ShowsSlices base h L)
    {a : Nat} (ha : h.mem a = none) {ε β γ : Type} {f : β → RawObj} {F : γ → SliceObj α}
    {g : ε → LengthError} {r : Res ε (β × Mem α)} {R : Res ε γ}
    (hr : match R with
      | .ok y => ∃ x m', r = .ok (x, m') ∧ (f x).alloc = a ∧ ShowsObj m' (f x) (F y) ∧
          ∀ c, c ≠ a → m' c = h.mem c
      | .err e => r = .err e
      | .panic p => r = .panic p
      | .ub u => r = .ub u) :
    Alike base (some (rawPush h f g r)) (some (push L F g R)) := by
  cases R with
  | ok y =>
    obtain ⟨x, m', rfl, h1, h2, h3⟩ := hr
    exact ⟨rfl, H.push h2 (by rw [h1]; exact ha) (by rw [h1]; exact h3)⟩
  | err e => cases hr; exact ⟨rfl, H⟩
  | panic p => cases hr; exact ⟨rfl, H⟩
  | ub u => cases hr; exact ⟨rfl, H⟩

theorem alike_set {base : Mem α} {h : SliceHeap α} {L : List (SliceObj α)} (H : ShowsSlices base h L)
    {i : Nat} {o : RawObj} (hi : h.objs[i]? = some o) {β γ : Type} {f : β → RawObj} {F : γ → SliceObj α}
    {r : Res Empty (β × Mem α)} {R : Res Empty γ}
    (hr : match R with
      | .ok y => ∃ x m', r = .ok (x, m') ∧ ShowsObj m' (f x) (F y) ∧
          ((f x).alloc = o.alloc ∨ (h.mem (f x).alloc = none ∧ m' o.alloc = none)) ∧
          ∀ c, c ≠ o.alloc → c ≠ (f x).alloc → m' c = h.mem c
      | .err e => r = .err e
      | .panic p => r = .panic p
      | .ub u => r = .ub u) :
    Alike base (some (rawSet h i f r)) (some (put L i F R)) := by
  cases R with
  | ok y =>
    obtain ⟨x, m', rfl, h1, h2, h3⟩ := hr
    exact ⟨rfl, H.set hi h1 h2 h3⟩
  | err e => exact e.elim
  | panic p => cases hr; exact ⟨rfl, H⟩
  | ub u => cases hr; exact ⟨rfl, H⟩

theorem alike_take {base : Mem α} {h : SliceHeap α} {L : List (SliceObj α)} (H : ShowsSlices base h L)
    {i a : Nat} {I : SizedIter α} (hi : h.objs[i]? = some (.iter ⟨⟨a, 0⟩, I.buf.length, I.pos, I.len⟩))
    {r : Res Empty (Option α × RawIter × Mem α)} {R : Res Empty (Option α × SizedIter α)}
    (hr : r = R.map fun (x, I') =>
      (x, ⟨⟨a, 0⟩, I'.buf.length, I'.pos, I'.len⟩, h.mem.alloc a I'.buf))
    (hw : ∀ x I', R = .ok (x, I') → I'.Within) :
    Alike base (some (rawTake h i r)) (some (takeItem L i R)) := by
  cases R with
  | ok y =>
    obtain ⟨x, I'⟩ := y
    cases hr
    refine ⟨rfl, H.set hi ?_ (.inl rfl) fun c hc _ => Mem.alloc_ne _ _ hc⟩
    exact ⟨rfl, Mem.alloc_same _ _ _, rfl, rfl, rfl, hw x I' rfl⟩
  | err e => exact e.elim
  | panic p => cases hr; exact ⟨rfl, H⟩
  | ub u => cases hr; exact ⟨rfl, H⟩

theorem showsSlice {m : Mem α} {a : Nat} {S : SizedSlice α} {l : List α}
    (hS : (S.asSlice : Res Empty (List α)) = .ok l) :
    ShowsObj (m.alloc a S.buf) (.slice ⟨⟨a, 0⟩, S.buf.length, S.len⟩) (.slice S) :=
  ⟨rfl, Mem.alloc_same _ _ _, rfl, rfl, l, hS⟩

/-- A sized slice is changed in its place. -/
theorem alike_setSlice {base : Mem α} {h : SliceHeap α} {L : List (SliceObj α)}
    (H : ShowsSlices base h L) {i a : Nat} {n k : Nat}
    (hi : h.objs[i]? = some (.slice ⟨⟨a, 0⟩, n, k⟩)) {r : Res Empty (RawSized × Mem α)}
    {R : Res Empty (SizedSlice α)}
    (hr : r = R.map fun S' => (⟨⟨a, 0⟩, S'.buf.length, S'.len⟩, h.mem.alloc a S'.buf))
    (hw : ∀ S', R = .ok S' → ∃ l, (S'.asSlice : Res Empty (List α)) = .ok l) :
    Alike base (some (rawSet h i .slice r)) (some (put L i .slice R)) := by
  refine alike_set H hi ?_
  cases R with
  | ok S' =>
    cases hr
    obtain ⟨l, hl⟩ := hw S' rfl
    exact ⟨_, _, rfl, showsSlice hl, .inl rfl, fun c hc _ => Mem.alloc_ne _ _ hc⟩
  | err e => exact e.elim
  | panic p => exact hr
  | ub u => exact hr

theorem raw_alike {base : Mem α} {h : SliceHeap α} {L : List (SliceObj α)} (H : ShowsSlices base h L)
    (cfg : SliceCfg) {a b : Nat} (ha : h.mem a = none) (hb : h.mem b = none) (hab : a ≠ b)
    (op : SliceOp α) : Alike base (op.raw cfg a b h) (op.step cfg L) := by
  cases op with
  | new n data =>
    rw [raw, step, RawSized.new_eq hab hb]
    refine alike_push H ha ?_
    cases hS : SizedSlice.new n data with
    | ok S => exact ⟨_, _, rfl, rfl, showsSlice (SizedSlice.new_holds hS), fun c hc => Mem.alloc_ne _ _ hc⟩
    | error e => rfl
  | fromIter n items =>
    rw [raw, step, RawSized.fromIter_eq]
    exact alike_push H ha ⟨_, _, rfl, rfl, showsSlice (SizedSlice.fromIter_holds n items),
      fun c hc => Mem.alloc_ne _ _ hc⟩
  | fromArray items =>
    rw [raw, step, RawSized.fromArray_eq hab hb]
    exact alike_push H ha ⟨_, _, rfl, rfl, showsSlice (SizedSlice.fromArray_holds items),
      fun c hc => Mem.alloc_ne _ _ hc⟩
  | default n =>
    rw [raw, step]
    refine alike_push H ha ⟨_, _, rfl, rfl, ?_, fun c hc => Mem.alloc_ne _ _ hc⟩
    exact ⟨rfl, Mem.alloc_same _ _ _, by simp [SizedSlice.default, SizedSlice.uninit], rfl,
      [], SizedSlice.default_holds n⟩
  | asSlice i =>
    rw [raw, step]
    cases hi : h.objs[i]? with
    | none => rw [H.none_ hi]; exact trivial
    | some o =>
      obtain ⟨O, hO, hs⟩ := H.get hi
      rw [hO]
      cases o with
      | slice s =>
        obtain ⟨S, l, rfl, e, hm, hl⟩ := ShowsObj.slice_inv hs
        refine ⟨?_, H⟩
        rw [e, RawSized.asSlice_eq hm]
      | iter it =>
        obtain ⟨I, rfl, e, hm, hl⟩ := ShowsObj.iter_inv hs
        refine ⟨?_, H⟩
        rw [e, RawIter.asSlice_eq hm hl]
      | boxed s =>
        obtain ⟨l, rfl, e, hm⟩ := ShowsObj.boxed_inv hs
        refine ⟨?_, H⟩
        rw [e]
        simp only
        rw [Mem.values_off hm (by simp), List.drop_zero, List.take_of_length_le (by simp), initAll_map_some]
  | copyData i data =>
    rw [raw, step]
    cases hi : h.objs[i]? with
    | none => rw [H.none_ hi]; exact trivial
    | some o =>
      obtain ⟨O, hO, hs⟩ := H.get hi
      rw [hO]
      cases o with
      | slice s =>
        obtain ⟨S, l, rfl, e, hm, hl⟩ := ShowsObj.slice_inv hs
        rw [e] at hi ⊢
        exact alike_setSlice H hi (RawSized.copyData_eq hm hb data)
          fun S' hS => ⟨_, SizedSlice.copyFromSlice_holds hS⟩
      | iter it => obtain ⟨I, rfl, -⟩ := ShowsObj.iter_inv hs; exact trivial
      | boxed s => obtain ⟨l, rfl, -⟩ := ShowsObj.boxed_inv hs; exact trivial
  | copyFrom i j =>
    rw [raw, step]
    by_cases hij : i = j
    · rw [if_pos hij, if_pos hij]; exact trivial
    rw [if_neg hij, if_neg hij]
    cases hi : h.objs[i]? with
    | none => rw [H.none_ hi]; exact trivial
    | some o =>
      obtain ⟨O, hO, hs⟩ := H.get hi
      rw [hO]
      cases o with
      | slice s =>
        obtain ⟨S, l, rfl, e, hm, hl⟩ := ShowsObj.slice_inv hs
        cases hj : h.objs[j]? with
        | none => rw [H.none_ hj]; exact trivial
        | some q =>
          obtain ⟨Q, hQ, hq⟩ := H.get hj
          rw [hQ]
          have hne := H.apart i j _ _ hij hi hj
          cases q with
          | slice q =>
            obtain ⟨Q, k, rfl, e', hm', hk⟩ := ShowsObj.slice_inv hq
            rw [e] at hi ⊢
            rw [e']
            simp only
            rw [hk]
            exact alike_setSlice H hi (RawSized.copyFrom_eq hm hm' hne hk)
              fun S' hS => ⟨_, SizedSlice.copyFromSlice_holds hS⟩
          | iter it => obtain ⟨I, rfl, -⟩ := ShowsObj.iter_inv hq; exact trivial
          | boxed s => obtain ⟨l, rfl, -⟩ := ShowsObj.boxed_inv hq; exact trivial
      | iter it => obtain ⟨I, rfl, -⟩ := ShowsObj.iter_inv hs; exact trivial
      | boxed s => obtain ⟨l, rfl, -⟩ := ShowsObj.boxed_inv hs; exact trivial
  | set i k v =>
    rw [raw, step]
    cases hi : h.objs[i]? with
    | none => rw [H.none_ hi]; exact trivial
    | some o =>
      obtain ⟨O, hO, hs⟩ := H.get hi
      rw [hO]
      cases o with
      | slice s =>
        obtain ⟨S, l, rfl, e, hm, hl⟩ := ShowsObj.slice_inv hs
        rw [e] at hi ⊢
        simp only
        refine alike_setSlice H hi ?_ fun S' hS => ⟨_, (SizedSlice.setIndex_holds hl hS).1⟩
        rw [RawSized.setIndex_eq hm hl]
        cases hS : (S.setIndex k v : Res Empty _) with
        | ok S' =>
          obtain ⟨-, h1, h2⟩ := SizedSlice.setIndex_holds hl hS
          simp only [Res.map]
          rw [h1, h2]
        | err e => exact e.elim
        | panic p => rfl
        | ub u => rfl
      | iter it =>
        obtain ⟨I, rfl, e, hm, hl⟩ := ShowsObj.iter_inv hs
        rw [e] at hi ⊢
        simp only
        refine alike_set H hi ?_
        rw [RawIter.setIndex_eq hm hl]
        cases hI : I.setIndex k v with
        | ok I' =>
          obtain ⟨h1, h2, h3, h4⟩ := SizedIter.setIndex_within hl hI
          exact ⟨_, _, rfl, ⟨rfl, Mem.alloc_same _ _ _, h2.symm, h3.symm, h4.symm, h1⟩, .inl rfl,
            fun c hc _ => Mem.alloc_ne _ _ hc⟩
        | err e => exact e.elim
        | panic p => rfl
        | ub u => rfl
      | boxed s => obtain ⟨l, rfl, -⟩ := ShowsObj.boxed_inv hs; exact trivial
  | clone i =>
    rw [raw, step]
    cases hi : h.objs[i]? with
    | none => rw [H.none_ hi]; exact trivial
    | some o =>
      obtain ⟨O, hO, hs⟩ := H.get hi
      rw [hO]
      cases o with
      | slice s =>
        obtain ⟨S, l, rfl, e, hm, hl⟩ := ShowsObj.slice_inv hs
        rw [e]
        simp only
        refine alike_push H ha ?_
        rw [RawSized.clone_eq hm hl ha]
        cases hS : (S.clone : Res Empty _) with
        | ok S' =>
          exact ⟨_, _, rfl, rfl, showsSlice (SizedSlice.clone_holds hl hS),
            fun c hc => Mem.alloc_ne _ _ hc⟩
        | err e => exact e.elim
        | panic p => rfl
        | ub u => rfl
      | iter it =>
        obtain ⟨I, rfl, e, hm, hl⟩ := ShowsObj.iter_inv hs
        rw [e]
        simp only
        refine alike_push H ha ?_
        rw [RawIter.clone_eq hm hl ha]
        cases hI : I.clone with
        | ok I' =>
          exact ⟨_, _, rfl, rfl, ⟨rfl, Mem.alloc_same _ _ _, rfl, rfl, rfl,
            SizedIter.clone_within hl hI⟩, fun c hc => Mem.alloc_ne _ _ hc⟩
        | err e => exact e.elim
        | panic p => rfl
        | ub u => rfl
      | boxed s => obtain ⟨l, rfl, -⟩ := ShowsObj.boxed_inv hs; exact trivial
  | refs i =>
    rw [raw, step]
    cases hi : h.objs[i]? with
    | none => rw [H.none_ hi]; exact trivial
    | some o =>
      obtain ⟨O, hO, hs⟩ := H.get hi
      rw [hO]
      cases o with
      | slice s =>
        obtain ⟨S, l, rfl, e, hm, hl⟩ := ShowsObj.slice_inv hs
        refine ⟨?_, H⟩
        rw [e, RawSized.rawRefs_eq hm hl, hl]
      | iter it => obtain ⟨I, rfl, -⟩ := ShowsObj.iter_inv hs; exact trivial
      | boxed s => obtain ⟨l, rfl, -⟩ := ShowsObj.boxed_inv hs; exact trivial
  | setByRef i k v =>
    rw [raw, step]
    cases hi : h.objs[i]? with
    | none => rw [H.none_ hi]; exact trivial
    | some o =>
      obtain ⟨O, hO, hs⟩ := H.get hi
      rw [hO]
      cases o with
      | slice s =>
        obtain ⟨S, l, rfl, e, hm, hl⟩ := ShowsObj.slice_inv hs
        rw [e] at hi ⊢
        simp only
        refine alike_setSlice H hi ?_ fun S' hS => ⟨_, (SizedSlice.setIndex_holds hl hS).1⟩
        rw [RawSized.rawSetByRef_eq hm hl]
        cases hS : (S.setIndex k v : Res Empty _) with
        | ok S' =>
          obtain ⟨-, h1, h2⟩ := SizedSlice.setIndex_holds hl hS
          simp only [Res.map]
          rw [h1, h2]
        | err e => exact e.elim
        | panic p => rfl
        | ub u => rfl
      | iter it => obtain ⟨I, rfl, -⟩ := ShowsObj.iter_inv hs; exact trivial
      | boxed s => obtain ⟨l, rfl, -⟩ := ShowsObj.boxed_inv hs; exact trivial
  | intoBoxed i =>
    rw [raw, step]
    cases hi : h.objs[i]? with
    | none => rw [H.none_ hi]; exact trivial
    | some o =>
      obtain ⟨O, hO, hs⟩ := H.get hi
      rw [hO]
      cases o with
      | slice s =>
        obtain ⟨S, l, rfl, e, hm, hl⟩ := ShowsObj.slice_inv hs
        have hac : s.ptr.alloc ≠ a := H.free ha hi
        rw [e] at hi ⊢
        simp only
        refine alike_set H hi ?_
        rw [RawSized.intoBoxed_eq hm hl ha]
        cases hS : (S.intoBoxedSlice cfg.itemSize : Res Empty _) with
        | ok l' =>
          refine ⟨_, _, rfl, ⟨rfl, ?_, rfl⟩, .inr ⟨ha, if_pos rfl⟩, fun c hc hc' => ?_⟩
          · exact (if_neg (Ne.symm hac)).trans (Mem.alloc_same _ _ _)
          · exact (if_neg hc).trans (Mem.alloc_ne _ _ hc')
        | err e => exact e.elim
        | panic p => rfl
        | ub u => rfl
      | iter it => obtain ⟨I, rfl, -⟩ := ShowsObj.iter_inv hs; exact trivial
      | boxed s => obtain ⟨l, rfl, -⟩ := ShowsObj.boxed_inv hs; exact trivial
  | intoIter i =>
    rw [raw, step]
    cases hi : h.objs[i]? with
    | none => rw [H.none_ hi]; exact trivial
    | some o =>
      obtain ⟨O, hO, hs⟩ := H.get hi
      rw [hO]
      cases o with
      | slice s =>
        obtain ⟨S, l, rfl, e, hm, hl⟩ := ShowsObj.slice_inv hs
        have hac : s.ptr.alloc ≠ a := H.free ha hi
        have h1 := (SizedSlice.asSlice_ok.mp hl).1
        rw [e] at hi ⊢
        simp only
        rw [RawSized.intoIter_eq hm ha]
        refine alike_set H hi ⟨_, _, rfl, ⟨rfl, ?_, rfl, rfl, rfl, ?_⟩, .inr ⟨ha, if_pos rfl⟩,
          fun c hc hc' => ?_⟩
        · exact (if_neg (Ne.symm hac)).trans (Mem.alloc_same _ _ _)
        · show 0 + S.len ≤ S.buf.length
          omega
        · exact (if_neg hc).trans (Mem.alloc_ne _ _ hc')
      | iter it => obtain ⟨I, rfl, -⟩ := ShowsObj.iter_inv hs; exact trivial
      | boxed s => obtain ⟨l, rfl, -⟩ := ShowsObj.boxed_inv hs; exact trivial
  | next i =>
    rw [raw, step]
    cases hi : h.objs[i]? with
    | none => rw [H.none_ hi]; exact trivial
    | some o =>
      obtain ⟨O, hO, hs⟩ := H.get hi
      rw [hO]
      cases o with
      | slice s => obtain ⟨S, l, rfl, -⟩ := ShowsObj.slice_inv hs; exact trivial
      | iter it =>
        obtain ⟨I, rfl, e, hm, hl⟩ := ShowsObj.iter_inv hs
        rw [e] at hi ⊢
        exact alike_take H hi (RawIter.next_eq hm) fun x I' hI => SizedIter.next_within hl hI
      | boxed s => obtain ⟨l, rfl, -⟩ := ShowsObj.boxed_inv hs; exact trivial
  | nextBack i =>
    rw [raw, step]
    cases hi : h.objs[i]? with
    | none => rw [H.none_ hi]; exact trivial
    | some o =>
      obtain ⟨O, hO, hs⟩ := H.get hi
      rw [hO]
      cases o with
      | slice s => obtain ⟨S, l, rfl, -⟩ := ShowsObj.slice_inv hs; exact trivial
      | iter it =>
        obtain ⟨I, rfl, e, hm, hl⟩ := ShowsObj.iter_inv hs
        rw [e] at hi ⊢
        exact alike_take H hi (RawIter.nextBack_eq hm) fun x I' hI => SizedIter.nextBack_within hl hI
      | boxed s => obtain ⟨l, rfl, -⟩ := ShowsObj.boxed_inv hs; exact trivial
  | nth i k =>
    rw [raw, step]
    cases hi : h.objs[i]? with
    | none => rw [H.none_ hi]; exact trivial
    | some o =>
      obtain ⟨O, hO, hs⟩ := H.get hi
      rw [hO]
      cases o with
      | slice s => obtain ⟨S, l, rfl, -⟩ := ShowsObj.slice_inv hs; exact trivial
      | iter it =>
        obtain ⟨I, rfl, e, hm, hl⟩ := ShowsObj.iter_inv hs
        rw [e] at hi ⊢
        exact alike_take H hi (RawIter.nth_eq hm hl _ k) fun x I' hI => SizedIter.nth_within hl hI
      | boxed s => obtain ⟨l, rfl, -⟩ := ShowsObj.boxed_inv hs; exact trivial
  | drop i =>
    rw [raw, step]
    cases hi : h.objs[i]? with
    | none =>
      have := H.none_ hi
      rw [List.getElem?_eq_none_iff] at this
      rw [if_neg (by omega)]
      exact trivial
    | some o =>
      rw [if_pos (by rw [← H.length]; exact list_lt hi)]
      exact ⟨rfl, H.erase hi⟩

theorem RawRun.shows {base : Mem α} {cfg : SliceCfg} {ops : List (SliceOp α)} {h h' : SliceHeap α}
    {xs : List (SliceOut α)} (hr : RawRun cfg ops h xs h') : ∀ {L : List (SliceObj α)},
    ShowsSlices base h L → ∃ L', run cfg ops L = some (xs, L') ∧ ShowsSlices base h' L' := by
  induction hr with
  | nil h => exact fun H => ⟨_, rfl, H⟩
  | cons a b ha hb hab hop _ ih =>
    intro L H
    rename_i op _ _ _ _ _ _ _
    have key := raw_alike H cfg ha hb hab op
    rw [hop] at key
    rw [run]
    cases hs : op.step cfg L with
    | none => rw [hs] at key; exact key.elim
    | some r =>
      obtain ⟨y, L1⟩ := r
      rw [hs] at key
      obtain ⟨rfl, H1⟩ := key
      obtain ⟨L', h3, h4⟩ := ih H1
      exact ⟨L', by simp only; rw [h3], h4⟩

theorem rawRun_total {base : Mem α} {cfg : SliceCfg} (hf : ∀ n, ∃ a, n ≤ a ∧ base a = none) :
    ∀ {ops : List (SliceOp α)} {h : SliceHeap α} {L : List (SliceObj α)} {xs : List (SliceOut α)}
    {L' : List (SliceObj α)}, ShowsSlices base h L → run cfg ops L = some (xs, L') →
    ∃ h', RawRun cfg ops h xs h' := by
  intro ops
  induction ops with
  | nil => intro h L xs L' H hr; cases hr; exact ⟨h, .nil h⟩
  | cons op ops ih =>
    intro h L xs L' H hr
    rw [run] at hr
    split at hr
    · cases hr
    · next x L1 hs =>
      split at hr
      · cases hr
      · next xs' L2 hr' =>
        cases hr
        obtain ⟨N, hN⟩ : ∃ N, ∀ (i : Nat) (o : RawObj), h.objs[i]? = some o → o.alloc < N := by
          refine ⟨(h.objs.map RawObj.alloc).foldr (fun a b => a + b + 1) 0, fun i o hi => ?_⟩
          have hmem : o.alloc ∈ h.objs.map RawObj.alloc :=
            List.mem_map.mpr ⟨o, List.mem_of_getElem? hi, rfl⟩
          revert hmem
          generalize h.objs.map RawObj.alloc = l
          intro hmem
          induction l with
          | nil => cases hmem
          | cons y l ihl =>
            rw [List.foldr_cons]
            rcases List.mem_cons.mp hmem with e | e
            · omega
            · have := ihl e; omega
        obtain ⟨a, ha1, ha2⟩ := hf N
        obtain ⟨b, hb1, hb2⟩ := hf (a + 1)
        have ha : h.mem a = none := by
          rw [H.rest a fun i o hi => by have := hN i o hi; omega]; exact ha2
        have hb : h.mem b = none := by
          rw [H.rest b fun i o hi => by have := hN i o hi; omega]; exact hb2
        have key := raw_alike H cfg ha hb (by omega) op
        rw [hs] at key
        cases hraw : op.raw cfg a b h with
        | none => rw [hraw] at key; exact key.elim
        | some r =>
          obtain ⟨x', h1⟩ := r
          rw [hraw] at key
          obtain ⟨rfl, H1⟩ := key
          obtain ⟨h', hrun⟩ := ih H1 hr'
          exact ⟨h', .cons a b ha hb (by omega) hraw hrun⟩

end SliceOp
end Oct
