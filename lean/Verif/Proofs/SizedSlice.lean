import Verif.Model.SizedSlice
import Verif.Proofs.DecInv
/- Sized slices and their iterators as stored: which items they hold. -/
namespace Oct
variable {α : Type}

theorem initAll_map_some (l : List α) : initAll (l.map some) = some l := by
  induction l with
  | nil => rfl
  | cons a l ih => rw [List.map_cons, initAll, ih]; rfl

theorem initAll_eq_some {cells : List (MaybeUninit α)} :
    ∀ {l : List α}, initAll cells = some l ↔ cells = l.map some := by
  induction cells with
  | nil =>
    intro l
    cases l with
    | nil => simp [initAll]
    | cons a l => simp [initAll]
  | cons c cells ih =>
    intro l
    cases c with
    | none => cases l <;> simp [initAll]
    | some c =>
      cases l with
      | nil => simp [initAll]
      | cons a l =>
        simp only [initAll, List.map_cons, List.cons.injEq, Option.some.injEq,
          Option.map_eq_some_iff]
        constructor
        · rintro ⟨m, hm, hca, rfl⟩
          exact ⟨hca, ih.mp hm⟩
        · rintro ⟨hca, hm⟩
          exact ⟨l, ih.mpr hm, hca, rfl⟩

theorem sliceOf_ok {ε : Type} {cells : List (MaybeUninit α)} {n : Nat} {l : List α} :
    (sliceOf cells n : Res ε (List α)) = .ok l ↔ n ≤ cells.length ∧ cells.take n = l.map some := by
  unfold sliceOf
  split
  · constructor
    · intro h; cases h
    · intro h; omega
  · rename_i hn
    cases h : initAll (cells.take n) with
    | none =>
      constructor
      · intro h; cases h
      · intro ⟨_, h'⟩
        rw [← initAll_eq_some, h] at h'
        cases h'
    | some l' =>
      have := initAll_eq_some.mp h
      constructor
      · intro h'; cases h'; exact ⟨by omega, this⟩
      · intro ⟨_, h'⟩
        rw [← initAll_eq_some, h] at h'
        cases h'; rfl

namespace SizedSlice

theorem asSlice_ok {ε : Type} {s : SizedSlice α} {l : List α} :
    (s.asSlice : Res ε (List α)) = .ok l ↔ s.len ≤ s.buf.length ∧ s.buf.take s.len = l.map some :=
  sliceOf_ok

theorem asSlice_len {ε : Type} {s : SizedSlice α} {l : List α}
    (h : (s.asSlice : Res ε (List α)) = .ok l) : s.len = l.length := by
  have h := asSlice_ok.mp h
  have := congrArg List.length h.2
  rw [List.length_take, List.length_map] at this
  omega

theorem asSlice_any {ε ε' : Type} {s : SizedSlice α} {l : List α}
    (h : (s.asSlice : Res ε (List α)) = .ok l) : (s.asSlice : Res ε' (List α)) = .ok l :=
  asSlice_ok.mpr (asSlice_ok.mp h)

/-- The buffer starts with the items. -/
theorem asSlice_buf {ε : Type} {s : SizedSlice α} {l : List α}
    (h : (s.asSlice : Res ε (List α)) = .ok l) : s.buf = l.map some ++ s.buf.drop s.len := by
  rw [← (asSlice_ok.mp h).2, List.take_append_drop]

theorem zipWrite_length : ∀ (cells : List (MaybeUninit α)) (data : List α),
    (zipWrite cells data).length = cells.length
  | [], data => by cases data <;> rfl
  | _ :: _, [] => rfl
  | _ :: cells, _ :: data => by
    rw [zipWrite, List.length_cons, zipWrite_length cells data, List.length_cons]

theorem zipWrite_take : ∀ (cells : List (MaybeUninit α)) (data : List α),
    data.length ≤ cells.length → (zipWrite cells data).take data.length = data.map some
  | [], [], _ => rfl
  | [], _ :: _, h => absurd h (by simp)
  | _ :: _, [], _ => rfl
  | _ :: cells, a :: data, h => by
    rw [zipWrite, List.length_cons, List.take_succ_cons, zipWrite_take cells data (by simpa using h)]
    rfl

theorem fillFrom_spec : ∀ (cells : List (MaybeUninit α)) (items : List α),
    (fillFrom cells items).1.length = cells.length ∧
    (fillFrom cells items).2 = min cells.length items.length ∧
    (fillFrom cells items).1.take (fillFrom cells items).2
      = (items.take cells.length).map some
  | [], items => by simp [fillFrom]
  | _ :: _, [] => by simp [fillFrom]
  | _ :: cells, a :: items => by
    have ih := fillFrom_spec cells items
    rw [fillFrom]
    generalize fillFrom cells items = r at ih
    obtain ⟨c, n⟩ := r
    simp only at ih
    refine ⟨?_, ?_, ?_⟩
    · simp only [List.length_cons]; rw [ih.1]
    · simp only [List.length_cons]; rw [ih.2.1]; omega
    · simp only [List.length_cons, List.take_succ_cons, List.map_cons]; rw [ih.2.2]

theorem copyCells_spec : ∀ (n : Nat) (cells : List (MaybeUninit α)) (l : List α),
    n ≤ cells.length → cells.take n = l.map some →
    ∃ cells', copyCells n cells = some cells' ∧ cells'.length = cells.length ∧
      cells'.take n = l.map some
  | 0, cells, l, _, h => by
    refine ⟨_, rfl, List.length_replicate, ?_⟩
    rw [List.take_zero] at h ⊢
    exact h
  | _ + 1, [], _, h, _ => absurd h (by simp)
  | n + 1, none :: cells, l, _, h => by cases l <;> simp at h
  | n + 1, some a :: cells, [], _, h => by simp at h
  | n + 1, some a :: cells, b :: l, hl, h => by
    rw [List.take_succ_cons, List.map_cons] at h
    obtain ⟨h1, h2⟩ := List.cons.inj h
    obtain ⟨c, hc, hlen, ht⟩ := copyCells_spec n cells l (by simpa using hl) h2
    refine ⟨some a :: c, ?_, ?_, ?_⟩
    · rw [copyCells, hc]; rfl
    · rw [List.length_cons, hlen, List.length_cons]
    · rw [List.take_succ_cons, ht, h1]; rfl

end SizedSlice

namespace SizedIter

/-- The iterator's remaining items are `l`, stored where it will look for them. -/
def Represents (it : SizedIter α) (l : List α) : Prop :=
  it.pos + it.len ≤ it.buf.length ∧ (it.buf.drop it.pos).take it.len = l.map some

theorem Represents.len {it : SizedIter α} {l : List α} (h : it.Represents l) :
    it.len = l.length := by
  have := congrArg List.length h.2
  rw [List.length_take, List.length_map, List.length_drop] at this
  have := h.1
  omega

theorem Represents.get {it : SizedIter α} {l : List α} (h : it.Represents l) (i : Nat)
    (hi : i < l.length) : it.buf[it.pos + i]? = some (some l[i]) := by
  have h2 := congrArg (fun m => m[i]?) h.2
  have hl := h.len
  simp only [List.getElem?_map, List.getElem?_take, List.getElem?_drop] at h2
  rw [if_pos (by omega), List.getElem?_eq_getElem hi] at h2
  exact h2

theorem represents_of_get {it : SizedIter α} {l : List α} (hlen : it.len = l.length)
    (hb : it.pos + it.len ≤ it.buf.length)
    (h : ∀ (i : Nat) (hi : i < l.length), it.buf[it.pos + i]? = some (some l[i])) :
    it.Represents l := by
  refine ⟨hb, List.ext_getElem? fun i => ?_⟩
  rw [List.getElem?_map, List.getElem?_take, List.getElem?_drop]
  split
  · rename_i hi
    rw [h i (by omega), List.getElem?_eq_getElem (by omega)]; rfl
  · rename_i hi
    rw [List.getElem?_eq_none (by omega)]; rfl

theorem asSlice_iff {it : SizedIter α} {l : List α} (hb : it.pos ≤ it.buf.length) :
    it.asSlice = .ok l ↔ it.Represents l := by
  unfold asSlice Represents
  rw [sliceOf_ok, List.length_drop]
  constructor
  · intro h; exact ⟨by omega, h.2⟩
  · intro h; exact ⟨by omega, h.2⟩

theorem Represents.asSlice {it : SizedIter α} {l : List α} (h : it.Represents l) :
    it.asSlice = .ok l := (asSlice_iff (by have := h.1; omega)).mpr h

theorem represents_intoIter {ε : Type} {s : SizedSlice α} {l : List α}
    (h : (s.asSlice : Res ε (List α)) = .ok l) : s.intoIter.Represents l := by
  have h := SizedSlice.asSlice_ok.mp h
  exact ⟨by rw [show s.intoIter.pos = 0 from rfl, Nat.zero_add]; exact h.1, h.2⟩

theorem Represents.next_nil {it : SizedIter α} (h : it.Represents []) :
    it.next = .ok (none, it) := if_pos h.len

theorem Represents.nextBack_nil {it : SizedIter α} (h : it.Represents []) :
    it.nextBack = .ok (none, it) := if_pos h.len

theorem Represents.next_cons {it : SizedIter α} {a : α} {l : List α} (h : it.Represents (a :: l)) :
    it.next = .ok (some a, { buf := it.buf.set it.pos none, pos := it.pos + 1, len := it.len - 1 }) ∧
    SizedIter.Represents { buf := it.buf.set it.pos none, pos := it.pos + 1, len := it.len - 1 } l := by
  have hl := h.len
  rw [List.length_cons] at hl
  have h0 := h.get 0 (by simp)
  rw [Nat.add_zero] at h0
  constructor
  · unfold next
    rw [if_neg (by omega), take, h0]; rfl
  · refine represents_of_get (by simp only; omega) ?_ ?_
    · simp only [List.length_set]; have := h.1; omega
    · intro i hi
      simp only
      rw [List.getElem?_set_ne (by omega)]
      have := h.get (i + 1) (by simpa using hi)
      rw [show it.pos + 1 + i = it.pos + (i + 1) by omega, this]
      rfl

theorem Represents.nextBack_concat {it : SizedIter α} {a : α} {l : List α}
    (h : it.Represents (l ++ [a])) :
    it.nextBack = .ok (some a,
      { buf := it.buf.set (it.pos + it.len - 1) none, pos := it.pos, len := it.len - 1 }) ∧
    SizedIter.Represents
      { buf := it.buf.set (it.pos + it.len - 1) none, pos := it.pos, len := it.len - 1 } l := by
  have hl := h.len
  rw [List.length_append, List.length_singleton] at hl
  have h0 := h.get l.length (by simp)
  have he : it.pos + it.len - 1 = it.pos + l.length := by omega
  constructor
  · unfold nextBack
    rw [if_neg (by omega), take, he, h0]
    simp [Res.map]
  · rw [he]
    refine represents_of_get (by simp only; omega) ?_ ?_
    · simp only [List.length_set]; have := h.1; omega
    · intro i hi
      simp only
      rw [List.getElem?_set_ne (by omega)]
      have := h.get i (by rw [List.length_append]; omega)
      rw [this, List.getElem_append_left hi]

theorem Represents.clone {it : SizedIter α} {l : List α} (h : it.Represents l) :
    ∃ it', it.clone = .ok it' ∧ it'.Represents l ∧ it'.pos = it.pos := by
  have hb := h.1
  obtain ⟨c, hc, hlen, ht⟩ := SizedSlice.copyCells_spec it.len (it.buf.drop it.pos) l
    (by rw [List.length_drop]; omega) h.2
  refine ⟨{ buf := SizedSlice.uninit it.pos ++ c, pos := it.pos, len := it.len }, ?_, ?_, rfl⟩
  · unfold SizedIter.clone
    rw [hc]
    exact if_neg (by omega)
  · have hu : (SizedSlice.uninit it.pos : List (MaybeUninit α)).length = it.pos :=
      List.length_replicate
    refine ⟨?_, ?_⟩
    · simp only [List.length_append]
      rw [hu, hlen, List.length_drop]; omega
    · simp only
      rw [List.drop_left' hu, ht]

theorem Represents.setIndex {it : SizedIter α} {l : List α} (h : it.Represents l) (i : Nat) (a : α) :
    (i < l.length → it.setIndex i a = .ok { it with buf := it.buf.set (it.pos + i) (some a) } ∧
      SizedIter.Represents { it with buf := it.buf.set (it.pos + i) (some a) } (l.set i a)) ∧
    (l.length ≤ i → it.setIndex i a = .panic .indexOutOfBounds) := by
  constructor
  · intro hi
    constructor
    · unfold SizedIter.setIndex
      rw [h.asSlice]
      exact if_pos hi
    · have hl := h.len
      refine represents_of_get (by simp only [List.length_set]; exact hl) ?_ ?_
      · simp only [List.length_set]; exact h.1
      · intro j hj
        rw [List.length_set] at hj
        simp only
        rw [List.getElem?_set, List.getElem_set]
        have hb := h.1
        by_cases hij : i = j
        · rw [if_pos (by omega), if_pos (by omega), if_pos hij]
        · rw [if_neg (by omega), if_neg hij]; exact h.get j hj
  · intro hi
    unfold SizedIter.setIndex
    rw [h.asSlice]
    exact if_neg (Nat.not_lt.mpr hi)

end SizedIter
end Oct

namespace Oct
variable {α : Type}

/-- The stored-form decoder of sized slices does what `decSizedSlice` does. -/
theorem SizedSlice.decodeCells_eq (dec : Dec α) : ∀ (cells : List (MaybeUninit α)) (k : Nat)
    (i : Input), decodeCells dec cells k i
      = (((decItems dec cells.length k) i).1.map (fun l => l.val.map some),
          ((decItems dec cells.length k) i).2)
  | [], _, _ => rfl
  | c :: cells, k, i => by
    show Dec.bind _ _ i = ((Dec.bind _ _ i).1.map _, (Dec.bind _ _ i).2)
    unfold Dec.bind
    generalize Dec.mapErr (fun e => DecErr.badItem (DecErr.item k e)) dec i = r
    obtain ⟨r, i1⟩ := r
    cases r with
    | err e => rfl
    | panic p => rfl
    | ub u => rfl
    | ok v =>
      simp only
      show Dec.bind _ _ i1 = ((Dec.bind _ _ i1).1.map _, (Dec.bind _ _ i1).2)
      unfold Dec.bind
      rw [decodeCells_eq dec cells (k + 1) i1]
      generalize (decItems dec cells.length (k + 1)) i1 = r
      obtain ⟨r, i2⟩ := r
      cases r <;> rfl

end Oct
