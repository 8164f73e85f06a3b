import Verif.Proofs.SliceMemoryRun
/- Lemmas for C123: values are lists with a capacity. -/
namespace Oct
open Spec
set_option linter.unusedVariables false
variable {α : Type}

/-- The value is this list. -/
def Means : SliceObj α → ListObj α → Prop
  | .slice S, .slice n l => S.buf.length = n ∧ (S.asSlice : Res Empty (List α)) = .ok l
  | .iter I, .iter l => I.Represents l
  | .boxed l, .boxed l' => l = l'
  | _, _ => False

def MeansAll (L : List (SliceObj α)) (M : List (ListObj α)) : Prop :=
  L.length = M.length ∧ ∀ (i : Nat) (O : SliceObj α) (N : ListObj α), L[i]? = some O →
    M[i]? = some N → Means O N

theorem MeansAll.get {L : List (SliceObj α)} {M : List (ListObj α)} (H : MeansAll L M) {i : Nat}
    {N : ListObj α} (h : M[i]? = some N) : ∃ O, L[i]? = some O ∧ Means O N := by
  have hlt := list_lt h
  rw [← H.1] at hlt
  exact ⟨_, List.getElem?_eq_getElem hlt, H.2 i _ N (List.getElem?_eq_getElem hlt) h⟩

theorem MeansAll.push {L : List (SliceObj α)} {M : List (ListObj α)} (H : MeansAll L M)
    {O : SliceObj α} {N : ListObj α} (h : Means O N) : MeansAll (L ++ [O]) (M ++ [N]) := by
  refine ⟨by simp [H.1], fun i O' N' h1 h2 => ?_⟩
  rcases list_get_append h1 with ⟨e, rfl⟩ | ⟨e, h1⟩
  · rcases list_get_append h2 with ⟨-, rfl⟩ | ⟨e', -⟩
    · exact h
    · rw [← H.1] at e'; omega
  · rcases list_get_append h2 with ⟨e', -⟩ | ⟨-, h2⟩
    · rw [← H.1] at e'; omega
    · exact H.2 i O' N' h1 h2

theorem MeansAll.set {L : List (SliceObj α)} {M : List (ListObj α)} (H : MeansAll L M) (i : Nat)
    {O : SliceObj α} {N : ListObj α} (h : Means O N) : MeansAll (L.set i O) (M.set i N) := by
  refine ⟨by simp [H.1], fun j O' N' h1 h2 => ?_⟩
  rcases list_get_set h1 with ⟨e, rfl⟩ | ⟨e, h1⟩
  · rcases list_get_set h2 with ⟨-, rfl⟩ | ⟨e', -⟩
    · exact h
    · exact absurd e e'
  · rcases list_get_set h2 with ⟨e', -⟩ | ⟨-, h2⟩
    · exact absurd e' e
    · exact H.2 j O' N' h1 h2

theorem MeansAll.erase {L : List (SliceObj α)} {M : List (ListObj α)} (H : MeansAll L M) (i : Nat) :
    MeansAll (L.eraseIdx i) (M.eraseIdx i) :=
  ⟨by simp [List.length_eraseIdx, H.1], fun j O' N' h1 h2 =>
    H.2 _ O' N' (list_get_erase h1) (list_get_erase h2)⟩

theorem Means.slice_inv {O : SliceObj α} {n : Nat} {l : List α} (h : Means O (.slice n l)) :
    ∃ S, O = .slice S ∧ S.buf.length = n ∧ (S.asSlice : Res Empty (List α)) = .ok l := by
  cases O with
  | slice S => exact ⟨S, rfl, h⟩
  | iter I => exact h.elim
  | boxed l => exact h.elim

theorem Means.iter_inv {O : SliceObj α} {l : List α} (h : Means O (.iter l)) :
    ∃ I, O = .iter I ∧ I.Represents l := by
  cases O with
  | slice S => exact h.elim
  | iter I => exact ⟨I, rfl, h⟩
  | boxed l => exact h.elim

theorem copy_means {S : SizedSlice α} {n : Nat} (hn : S.buf.length = n) {data : List α}
    (hd : data.length ≤ n) : ∃ S', (S.copyFromSlice data : Res Empty _) = .ok S' ∧
      Means (.slice S') (.slice n data) := by
  have e : (S.copyFromSlice data : Res Empty _)
      = .ok ⟨data.map some ++ S.buf.drop data.length, data.length⟩ := by
    unfold SizedSlice.copyFromSlice
    exact if_neg (by omega)
  refine ⟨_, e, ?_, SizedSlice.copyFromSlice_holds e⟩
  simp
  omega

theorem set_means {S : SizedSlice α} {n : Nat} (hn : S.buf.length = n) {l : List α}
    (hl : (S.asSlice : Res Empty (List α)) = .ok l) {k : Nat} (v : α) :
    (k < l.length → ∃ S', (S.setIndex k v : Res Empty _) = .ok S' ∧
      Means (.slice S') (.slice n (l.set k v))) ∧
    (¬ k < l.length → (S.setIndex k v : Res Empty _) = .panic .indexOutOfBounds) := by
  refine ⟨fun hk => ?_, fun hk => ?_⟩
  · have e : (S.setIndex k v : Res Empty _) = .ok { S with buf := S.buf.set k (some v) } := by
      unfold SizedSlice.setIndex
      rw [hl]
      exact if_pos hk
    obtain ⟨h1, h2, h3⟩ := SizedSlice.setIndex_holds hl e
    exact ⟨_, e, h2.trans hn, h1⟩
  · unfold SizedSlice.setIndex
    rw [hl]
    exact if_neg hk

theorem step_means {L : List (SliceObj α)} {M M' : List (ListObj α)} (H : MeansAll L M)
    (cfg : SliceCfg) (hz : cfg.itemSize ≠ 0) {op : SliceOp α} {x : SliceOut α}
    (hs : listStep op M = some (x, M')) : ∃ L', op.step cfg L = some (x, L') ∧ MeansAll L' M' := by
  cases op with
  | new n data =>
    rw [listStep] at hs
    rw [SliceOp.step]
    split at hs
    · next hn =>
      cases hs
      have e : SizedSlice.new n data
          = .ok ⟨SizedSlice.zipWrite (SizedSlice.uninit n) data, data.length⟩ := if_neg (by omega)
      rw [e]
      refine ⟨_, rfl, H.push ⟨?_, SizedSlice.new_holds e⟩⟩
      simp [SizedSlice.zipWrite_length, SizedSlice.uninit]
    · next hn =>
      cases hs
      have e : SizedSlice.new n data = .error ⟨n, data.length⟩ := if_pos (by omega)
      rw [e]
      exact ⟨_, rfl, H⟩
  | fromIter n items =>
    cases hs
    refine ⟨_, rfl, H.push ⟨?_, SizedSlice.fromIter_holds n items⟩⟩
    have := (SizedSlice.fillFrom_spec (SizedSlice.uninit (α := α) n) items).1
    simpa [SizedSlice.uninit, SizedSlice.fromIter] using this
  | fromArray items =>
    cases hs
    exact ⟨_, rfl, H.push ⟨by simp [SizedSlice.fromArray], SizedSlice.fromArray_holds items⟩⟩
  | default n =>
    cases hs
    exact ⟨_, rfl, H.push ⟨by simp [SizedSlice.default, SizedSlice.uninit], SizedSlice.default_holds n⟩⟩
  | asSlice i =>
    rw [listStep] at hs
    rw [SliceOp.step]
    split at hs
    · next n l hi =>
      cases hs
      obtain ⟨O, hO, hm⟩ := H.get hi
      obtain ⟨S, rfl, hn, hl⟩ := hm.slice_inv
      rw [hO]
      exact ⟨_, by simp only; rw [hl], H⟩
    · next l hi =>
      cases hs
      obtain ⟨O, hO, hm⟩ := H.get hi
      obtain ⟨I, rfl, hl⟩ := hm.iter_inv
      rw [hO]
      exact ⟨_, by simp only; rw [hl.asSlice], H⟩
    · next l hi =>
      cases hs
      obtain ⟨O, hO, hm⟩ := H.get hi
      rw [hO]
      cases O with
      | slice S => exact hm.elim
      | iter I => exact hm.elim
      | boxed l' => cases hm; exact ⟨_, rfl, H⟩
    · cases hs
  | copyData i data =>
    rw [listStep] at hs
    rw [SliceOp.step]
    split at hs
    · next n l hi =>
      split at hs
      · next hd =>
        cases hs
        obtain ⟨O, hO, hm⟩ := H.get hi
        obtain ⟨S, rfl, hn, hl⟩ := hm.slice_inv
        obtain ⟨S', h1, h2⟩ := copy_means hn hd
        rw [hO]
        exact ⟨_, by simp only; rw [h1]; rfl, H.set i h2⟩
      · cases hs
    · cases hs
  | copyFrom i j =>
    rw [listStep] at hs
    rw [SliceOp.step]
    split at hs
    · next n l n' data hi hj =>
      split at hs
      · next hd =>
        cases hs
        obtain ⟨O, hO, hm⟩ := H.get hi
        obtain ⟨S, rfl, hn, hl⟩ := hm.slice_inv
        obtain ⟨Q, hQ, hm'⟩ := H.get hj
        obtain ⟨Q, rfl, hn', hl'⟩ := hm'.slice_inv
        obtain ⟨S', h1, h2⟩ := copy_means hn hd.2
        rw [if_neg hd.1, hO, hQ]
        exact ⟨_, by simp only; rw [hl']; simp only; rw [h1]; rfl, H.set i h2⟩
      · cases hs
    · cases hs
  | set i k v =>
    rw [listStep] at hs
    rw [SliceOp.step]
    split at hs
    · next n l hi =>
      obtain ⟨O, hO, hm⟩ := H.get hi
      obtain ⟨S, rfl, hn, hl⟩ := hm.slice_inv
      rw [hO]
      split at hs
      · next hk =>
        cases hs
        obtain ⟨S', h1, h2⟩ := (set_means hn hl v).1 hk
        exact ⟨_, by simp only; rw [h1]; rfl, H.set i h2⟩
      · next hk =>
        cases hs
        exact ⟨_, by simp only; rw [(set_means hn hl v).2 hk]; rfl, H⟩
    · next l hi =>
      obtain ⟨O, hO, hm⟩ := H.get hi
      obtain ⟨I, rfl, hl⟩ := hm.iter_inv
      rw [hO]
      split at hs
      · next hk =>
        cases hs
        obtain ⟨h1, h2⟩ := (hl.setIndex k v).1 hk
        exact ⟨_, by simp only; rw [h1]; rfl, H.set i (show Means (.iter _) (.iter _) from h2)⟩
      · next hk =>
        cases hs
        exact ⟨_, by simp only; rw [(hl.setIndex k v).2 (by omega)]; rfl, H⟩
    · cases hs
  | clone i =>
    rw [listStep] at hs
    rw [SliceOp.step]
    split at hs
    · next n l hi =>
      cases hs
      obtain ⟨O, hO, hm⟩ := H.get hi
      obtain ⟨S, rfl, hn, hl⟩ := hm.slice_inv
      rw [hO]
      obtain ⟨h1, h2⟩ := SizedSlice.asSlice_ok.mp hl
      obtain ⟨c, hc, hcl, ht⟩ := SizedSlice.copyCells_spec _ _ _ h1 h2
      have e : (S.clone : Res Empty _) = .ok ⟨c, S.len⟩ := by unfold SizedSlice.clone; rw [hc]
      exact ⟨_, by simp only; rw [e]; rfl, H.push
        (show Means (.slice _) (.slice _ _) from ⟨hcl.trans hn, SizedSlice.clone_holds hl e⟩)⟩
    · next l hi =>
      cases hs
      obtain ⟨O, hO, hm⟩ := H.get hi
      obtain ⟨I, rfl, hl⟩ := hm.iter_inv
      rw [hO]
      obtain ⟨I', h1, h2, -⟩ := hl.clone
      exact ⟨_, by simp only; rw [h1]; rfl, H.push (show Means (.iter _) (.iter _) from h2)⟩
    · cases hs
  | refs i =>
    rw [listStep] at hs
    rw [SliceOp.step]
    split at hs
    · next n l hi =>
      cases hs
      obtain ⟨O, hO, hm⟩ := H.get hi
      obtain ⟨S, rfl, hn, hl⟩ := hm.slice_inv
      rw [hO]
      exact ⟨_, by simp only; rw [hl], H⟩
    · cases hs
  | setByRef i k v =>
    rw [listStep] at hs
    rw [SliceOp.step]
    split at hs
    · next n l hi =>
      obtain ⟨O, hO, hm⟩ := H.get hi
      obtain ⟨S, rfl, hn, hl⟩ := hm.slice_inv
      rw [hO]
      split at hs
      · next hk =>
        cases hs
        obtain ⟨S', h1, h2⟩ := (set_means hn hl v).1 hk
        exact ⟨_, by simp only; rw [h1]; rfl, H.set i h2⟩
      · next hk =>
        cases hs
        exact ⟨_, by simp only; rw [(set_means hn hl v).2 hk]; rfl, H⟩
    · cases hs
  | intoBoxed i =>
    rw [listStep] at hs
    rw [SliceOp.step]
    split at hs
    · next n v l hi =>
      cases hs
      obtain ⟨O, hO, hm⟩ := H.get hi
      obtain ⟨S, rfl, hn, hl⟩ := hm.slice_inv
      rw [hO]
      have hlen := SizedSlice.asSlice_len hl
      have e : (S.intoBoxedSlice cfg.itemSize : Res Empty _) = .ok (v :: l) := by
        unfold SizedSlice.intoBoxedSlice
        rw [if_neg ?_]
        · exact hl
        · rw [hlen, List.length_cons]
          exact Nat.mul_ne_zero hz (by omega)
      exact ⟨_, by simp only; rw [e]; rfl, H.set i (show Means (.boxed _) (.boxed _) from rfl)⟩
    · cases hs
  | intoIter i =>
    rw [listStep] at hs
    rw [SliceOp.step]
    split at hs
    · next n l hi =>
      cases hs
      obtain ⟨O, hO, hm⟩ := H.get hi
      obtain ⟨S, rfl, hn, hl⟩ := hm.slice_inv
      rw [hO]
      exact ⟨_, rfl, H.set i (show Means (.iter _) (.iter _) from SizedIter.represents_intoIter hl)⟩
    · cases hs
  | next i =>
    rw [listStep] at hs
    rw [SliceOp.step]
    split at hs
    · next l hi =>
      cases hs
      obtain ⟨O, hO, hm⟩ := H.get hi
      obtain ⟨I, rfl, hl⟩ := hm.iter_inv
      rw [hO]
      cases l with
      | nil => exact ⟨_, by simp only; rw [hl.next_nil]; rfl, H.set i (show Means (.iter _) (.iter _) from hl)⟩
      | cons v l =>
        obtain ⟨h1, h2⟩ := hl.next_cons
        exact ⟨_, by simp only; rw [h1]; rfl, H.set i (show Means (.iter _) (.iter _) from h2)⟩
    · cases hs
  | nextBack i =>
    rw [listStep] at hs
    rw [SliceOp.step]
    split at hs
    · next l hi =>
      cases hs
      obtain ⟨O, hO, hm⟩ := H.get hi
      obtain ⟨I, rfl, hl⟩ := hm.iter_inv
      rw [hO]
      rcases List.eq_nil_or_concat l with rfl | ⟨l', v, rfl⟩
      · exact ⟨_, by simp only; rw [hl.nextBack_nil]; rfl, H.set i (show Means (.iter _) (.iter _) from hl)⟩
      · rw [List.concat_eq_append] at hl ⊢
        obtain ⟨h1, h2⟩ := hl.nextBack_concat
        refine ⟨_, by simp only; rw [h1, List.getLast?_concat]; rfl, ?_⟩
        rw [List.dropLast_concat]
        exact H.set i (show Means (.iter _) (.iter _) from h2)
    · cases hs
  | nth i k => cases hs
  | drop i =>
    rw [listStep] at hs
    rw [SliceOp.step]
    split at hs
    · next hi =>
      cases hs
      rw [if_pos (by rw [H.1]; exact hi)]
      exact ⟨_, rfl, H.erase i⟩
    · cases hs

theorem run_means (cfg : SliceCfg) (hz : cfg.itemSize ≠ 0) : ∀ {ops : List (SliceOp α)}
    {L : List (SliceObj α)} {M M' : List (ListObj α)} {xs : List (SliceOut α)}, MeansAll L M →
    listRun ops M = some (xs, M') → ∃ L', SliceOp.run cfg ops L = some (xs, L') ∧ MeansAll L' M'
  | [], L, M, M', xs, H, h => by cases h; exact ⟨L, rfl, H⟩
  | op :: ops, L, M, M', xs, H, h => by
    rw [listRun] at h
    split at h
    · cases h
    · next x M1 hs =>
      split at h
      · cases h
      · next xs' M2 hr =>
        cases h
        obtain ⟨L1, h1, h2⟩ := step_means H cfg hz hs
        obtain ⟨L2, h3, h4⟩ := run_means cfg hz h2 hr
        refine ⟨L2, ?_, h4⟩
        rw [SliceOp.run, h1]
        simp only
        rw [h3]

theorem Means.holds {m : Mem α} {o : RawObj} {O : SliceObj α} {N : ListObj α} (hs : ShowsObj m o O)
    (hm : Means O N) : HoldsList m o N := by
  cases o with
  | slice s =>
    cases O with
    | slice S =>
      cases N with
      | slice n l =>
        obtain ⟨h1, h2, h3, h4, -⟩ := hs
        obtain ⟨h5, h6⟩ := hm
        have hl := SizedSlice.asSlice_len h6
        obtain ⟨h7, h8⟩ := SizedSlice.asSlice_ok.mp h6
        exact ⟨S.buf, h2, h1, h5, h3.trans h5, h4.trans hl, by omega, by rw [← hl]; exact h8⟩
      | iter l => exact hm.elim
      | boxed l => exact hm.elim
    | iter I => exact hs.elim
    | boxed l => exact hs.elim
  | iter it =>
    cases O with
    | iter I =>
      cases N with
      | iter l =>
        obtain ⟨h1, h2, h3, h4, h5, h6⟩ := hs
        have hl := SizedIter.Represents.len hm
        refine ⟨I.buf, h2, h1, h3, h5.trans hl, by omega, ?_⟩
        rw [← hl, h4]
        exact hm.2
      | slice n l => exact hm.elim
      | boxed l => exact hm.elim
    | slice S => exact hs.elim
    | boxed l => exact hs.elim
  | boxed b =>
    cases O with
    | boxed l =>
      cases N with
      | boxed l' =>
        cases hm
        exact ⟨hs.2.1, hs.1, hs.2.2⟩
      | slice n l => exact hm.elim
      | iter l => exact hm.elim
    | slice S => exact hs.elim
    | iter I => exact hs.elim

theorem MeansAll.holds {base : Mem α} {h : SliceHeap α} {L : List (SliceObj α)} {M : List (ListObj α)}
    (hs : ShowsSlices base h L) (hm : MeansAll L M) : HoldsLists base h M where
  length := hs.length.trans hm.1
  holds i o N ho hN := by
    obtain ⟨O, hO, h⟩ := hm.get hN
    exact h.holds (hs.shows_ i o O ho hO)
  apart := hs.apart
  fresh := hs.fresh
  rest := hs.rest

theorem showsSlices_nil (base : Mem α) : ShowsSlices base ⟨[], base⟩ [] where
  length := rfl
  shows_ := fun i o O h => by simp at h
  apart := fun i j o o' _ h => by simp at h
  fresh := fun i o h => by simp at h
  rest := fun a _ => rfl

theorem meansAll_nil : MeansAll ([] : List (SliceObj α)) [] := ⟨rfl, fun i O N h => by simp at h⟩

theorem listStep_defined {op : SliceOp α} {M M' : List (ListObj α)} {x : SliceOut α}
    (h : listStep op M = some (x, M')) : ¬ UndefinedOut x := by
  have key : ∀ {r : Res LengthError Unit}, (∀ u, r ≠ .ub u) → ¬ UndefinedOut (.unit r : SliceOut α) :=
    fun h ⟨u, hu⟩ => h u hu
  unfold listStep at h
  split at h <;> (repeat' split at h) <;> first
    | (cases h; done)
    | (cases h; rintro ⟨u, hu⟩; cases hu; done)

theorem listRun_defined : ∀ {ops : List (SliceOp α)} {M M' : List (ListObj α)} {xs : List (SliceOut α)},
    listRun ops M = some (xs, M') → ∀ x ∈ xs, ¬ UndefinedOut x
  | [], M, M', xs, h => by cases h; simp
  | op :: ops, M, M', xs, h => by
    rw [listRun] at h
    split at h
    · cases h
    · next x M1 hs =>
      split at h
      · cases h
      · next xs' M2 hr =>
        cases h
        intro y hy
        rcases List.mem_cons.mp hy with rfl | hy
        · exact listStep_defined hs
        · exact listRun_defined hr y hy

end Oct
