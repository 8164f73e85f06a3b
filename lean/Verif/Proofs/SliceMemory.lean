import Verif.Spec.SliceMemory
import Verif.Proofs.Memory
/- Lemmas for C123: sized slices and their iterators in memory. -/
namespace Oct
open Spec
set_option linter.unusedVariables false

namespace Mem
variable {α : Type}

theorem alloc_same (m : Mem α) (a : Nat) (c : List (Option α)) : m.alloc a c a = some c := if_pos rfl

theorem alloc_ne (m : Mem α) {a b : Nat} (c : List (Option α)) (h : b ≠ a) : m.alloc a c b = m b :=
  if_neg h

theorem alloc_alloc (m : Mem α) (a : Nat) (c d : List (Option α)) : (m.alloc a c).alloc a d = m.alloc a d := by
  funext b
  unfold alloc
  split <;> rfl

theorem alloc_self {m : Mem α} {a : Nat} {c : List (Option α)} (h : m a = some c) : m.alloc a c = m := by
  funext b
  unfold alloc
  split
  · next e => rw [e, h]
  · rfl

theorem alloc_comm (m : Mem α) {a b : Nat} (c d : List (Option α)) (h : a ≠ b) :
    (m.alloc a c).alloc b d = (m.alloc b d).alloc a c := by
  funext x
  unfold alloc
  split
  · next e =>
    rw [if_neg (by omega)]
  · rfl

theorem free_alloc {m : Mem α} {b : Nat} (c : List (Option α)) (h : m b = none) :
    (m.alloc b c).free b = m := by
  funext x
  unfold free alloc
  split
  · next e => rw [e, h]
  · rfl

theorem free_alloc_ne (m : Mem α) {a b : Nat} (c : List (Option α)) (h : a ≠ b) :
    (m.alloc a c).free b = (m.free b).alloc a c := by
  funext x
  unfold free alloc
  simp only
  split
  · next e => rw [if_neg (by omega)]
  · rfl

theorem load_in {m : Mem α} {p : Ptr} {c : List (Option α)} (h : m p.alloc = some c) {n : Nat}
    (hn : p.off + n ≤ c.length) : m.load p n = some ((c.drop p.off).take n) := by
  unfold load
  split
  · next e => rw [e, List.take_zero]
  · rw [h]; simp only; rw [if_pos hn]

theorem load_out {m : Mem α} {p : Ptr} {c : List (Option α)} (h : m p.alloc = some c) {n : Nat}
    (h0 : n ≠ 0) (hn : c.length < p.off + n) : m.load p n = none := by
  unfold load
  rw [if_neg h0, h]
  simp only
  rw [if_neg (by omega)]

theorem store_in {m : Mem α} {p : Ptr} {c : List (Option α)} (h : m p.alloc = some c)
    {l : List (Option α)} (hl : p.off + l.length ≤ c.length) :
    m.store p l = some (m.alloc p.alloc (c.take p.off ++ l ++ c.drop (p.off + l.length))) := by
  unfold store
  split
  · next e =>
    subst e
    rw [List.append_nil, List.length_nil, Nat.add_zero, List.take_append_drop, alloc_self h]
  · rw [h]
    simp only
    rw [if_pos hl]
    rfl

theorem store_out {m : Mem α} {p : Ptr} {c : List (Option α)} (h : m p.alloc = some c)
    {l : List (Option α)} (h0 : l ≠ []) (hl : c.length < p.off + l.length) : m.store p l = none := by
  unfold store
  rw [if_neg h0, h]
  simp only
  rw [if_neg (by omega)]

theorem values_eq {m : Mem α} {a : Nat} {c : List (Option α)} (h : m a = some c) (n : Nat) :
    (match m.values ⟨a, 0⟩ n with | .ok l => .ok l | .error u => .ub u : Res Empty (List α))
      = sliceOf c n := by
  unfold values sliceOf
  by_cases hn : n ≤ c.length
  · rw [load_in h (by show 0 + n ≤ _; omega), if_neg (by omega), List.drop_zero]
    simp only
    cases initAll (c.take n) <;> rfl
  · rw [load_out h (by omega) (by show _ < 0 + n; omega), if_pos (by omega)]

theorem values_off {m : Mem α} {a : Nat} {c : List (Option α)} (h : m a = some c) {o n : Nat}
    (hn : o + n ≤ c.length) :
    m.values ⟨a, o⟩ n = match initAll ((c.drop o).take n) with
      | some l => .ok l | none => .error .uninitRead := by
  unfold values
  rw [load_in h hn]
  simp only
  cases initAll ((c.drop o).take n) <;> rfl

theorem add_in {m : Mem α} {p : Ptr} {c : List (Option α)} (h : m p.alloc = some c) {n : Nat}
    (hn : p.off + n ≤ c.length) : m.add p n = .ok ⟨p.alloc, p.off + n⟩ := by
  unfold add
  split
  · next e => rw [e]; rfl
  · rw [h]; simp only; rw [if_pos hn]

theorem readAt_eq {m : Mem α} {p : Ptr} {c : List (Option α)} (h : m p.alloc = some c) (i : Nat) :
    m.readAt p i = match c[p.off + i]? with
      | some (some v) => .ok v | some none => .error .uninitRead | none => .error .outOfBounds := by
  unfold readAt
  by_cases hi : p.off + i < c.length
  · rw [add_in h (by omega)]
    simp only
    rw [values_off h (by omega)]
    have e : (c.drop (p.off + i)).take 1 = [c[p.off + i]] := by
      rw [List.drop_eq_getElem_cons hi]; rfl
    rw [e, List.getElem?_eq_getElem hi]
    cases c[p.off + i] <;> rfl
  · rw [List.getElem?_eq_none (by omega)]
    have hadd : m.add p i = .ok ⟨p.alloc, p.off + i⟩ ∨ m.add p i = .error .outOfBounds := by
      unfold add
      rw [h]
      split
      · next e => left; rw [e]; rfl
      · simp only
        split
        · exact .inl rfl
        · exact .inr rfl
    rcases hadd with e | e
    · rw [e]
      simp only
      unfold values
      rw [load_out (p := ⟨p.alloc, p.off + i⟩) h (by omega) (by show _ < p.off + i + 1; omega)]
    · rw [e]

theorem set_eq_take {c : List (Option α)} {i : Nat} (hi : i < c.length) (v : Option α) :
    c.take i ++ [v] ++ c.drop (i + 1) = c.set i v := by
  rw [List.set_eq_take_append_cons_drop, if_pos hi, List.append_assoc]
  rfl

theorem writeAt_in {m : Mem α} {p : Ptr} {c : List (Option α)} (h : m p.alloc = some c) {i : Nat}
    (hi : p.off + i < c.length) (v : α) :
    m.writeAt p i v = .ok (m.alloc p.alloc (c.set (p.off + i) (some v))) := by
  unfold writeAt
  rw [add_in h (by omega)]
  simp only
  rw [store_in (p := ⟨p.alloc, p.off + i⟩) h (by show p.off + i + 1 ≤ _; omega)]
  simp only
  rw [List.length_singleton, set_eq_take hi]

theorem moveAt_eq {m : Mem α} {p : Ptr} {c : List (Option α)} (h : m p.alloc = some c) (i : Nat) :
    m.moveAt p i = match c[p.off + i]? with
      | some (some v) => .ok (v, m.alloc p.alloc (c.set (p.off + i) none))
      | some none => .error .uninitRead | none => .error .outOfBounds := by
  unfold moveAt
  rw [readAt_eq h]
  cases hc : c[p.off + i]? with
  | none => rfl
  | some x =>
    have hi : p.off + i < c.length := by
      rcases Nat.lt_or_ge (p.off + i) c.length with h' | h'
      · exact h'
      · rw [List.getElem?_eq_none h'] at hc; cases hc
    cases x with
    | none => rfl
    | some v =>
      simp only
      rw [add_in h (by omega)]
      simp only
      rw [store_in (p := ⟨p.alloc, p.off + i⟩) h (by show p.off + i + 1 ≤ _; omega)]
      simp only
      rw [List.length_singleton, set_eq_take hi]

theorem copy_in {m : Mem α} {src dst : Ptr} {c d : List (Option α)} (hs : m src.alloc = some c)
    (hd : m dst.alloc = some d) (hne : src.alloc ≠ dst.alloc) {n : Nat} (h1 : src.off + n ≤ c.length)
    (h2 : dst.off + n ≤ d.length) :
    m.copyNonoverlapping src dst n = .ok (m.alloc dst.alloc
      (d.take dst.off ++ (c.drop src.off).take n ++ d.drop (dst.off + n))) := by
  unfold copyNonoverlapping
  rw [load_in hs h1]
  have hl : ((c.drop src.off).take n).length = n := by
    rw [List.length_take, List.length_drop]; omega
  simp only
  rw [if_pos (.inr (.inr (.inl hne))), store_in hd (by omega)]
  simp only
  rw [hl]

theorem copy_out {m : Mem α} {src dst : Ptr} {c d : List (Option α)} (hs : m src.alloc = some c)
    (hd : m dst.alloc = some d) (hne : src.alloc ≠ dst.alloc) {n : Nat} (h1 : src.off + n ≤ c.length)
    (h2 : d.length < dst.off + n) (h0 : n ≠ 0) :
    m.copyNonoverlapping src dst n = .error .outOfBounds := by
  unfold copyNonoverlapping
  rw [load_in hs h1]
  have hl : ((c.drop src.off).take n).length = n := by
    rw [List.length_take, List.length_drop]; omega
  simp only
  rw [if_pos (.inr (.inr (.inl hne))),
    store_out hd (fun e => by rw [e] at hl; exact h0 hl.symm) (by omega)]

theorem initAll_cons_none (l : List (Option α)) : initAll (none :: l) = none := rfl

theorem cloneLoop_eq {src dst : Ptr} (hne : src.alloc ≠ dst.alloc) (h1 : src.off = 0) (h2 : dst.off = 0)
    {c : List (Option α)} : ∀ (k i : Nat) (m : Mem α) (d : List (Option α)),
    m src.alloc = some c → m dst.alloc = some d → i + k ≤ c.length → i + k ≤ d.length →
    cloneLoop src dst k i m = match initAll ((c.drop i).take k) with
      | some vs => .ok (m.alloc dst.alloc (d.take i ++ vs.map some ++ d.drop (i + k)))
      | none => .error .uninitRead
  | 0, i, m, d, hs, hd, hc, hk => by
    rw [cloneLoop, List.take_zero]
    simp only [initAll, List.map_nil, List.append_nil, Nat.add_zero, List.take_append_drop]
    rw [alloc_self hd]
  | k + 1, i, m, d, hs, hd, hc, hk => by
    rw [cloneLoop, readAt_eq hs, h1, Nat.zero_add, List.getElem?_eq_getElem (by omega),
      List.drop_eq_getElem_cons (by omega), List.take_succ_cons]
    cases hv : c[i]'(by omega) with
    | none => rfl
    | some v =>
      simp only
      rw [writeAt_in hd (by omega), h2, Nat.zero_add]
      simp only
      rw [cloneLoop_eq hne h1 h2 k (i + 1) _ (d.set i (some v))
        (by rw [alloc_ne _ _ hne]; exact hs) (alloc_same _ _ _) (by omega)
        (by rw [List.length_set]; omega), initAll]
      cases hvs : initAll ((c.drop (i + 1)).take k) with
      | none => rfl
      | some vs =>
        simp only [Option.map_some]
        rw [alloc_alloc]
        congr 2
        have e1 : (d.set i (some v)).take (i + 1) = d.take i ++ [some v] := by
          rw [← set_eq_take (by omega), List.take_append_of_le_length (by
            rw [List.length_append, List.length_take, List.length_singleton]; omega)]
          exact List.take_of_length_le (by
            rw [List.length_append, List.length_take, List.length_singleton]; omega)
        have e2 : (d.set i (some v)).drop (i + 1 + k) = d.drop (i + (k + 1)) := by
          rw [List.drop_set_of_lt (by omega)]
          congr 1
          omega
        rw [e1, e2]
        simp [List.append_assoc]

theorem fillLoop_eq {p : Ptr} (h0 : p.off = 0) {n : Nat} : ∀ (items : List α) (i : Nat) (m : Mem α)
    (d : List (Option α)), m p.alloc = some d → d.length = n → i ≤ n →
    fillLoop p n items i m = .ok (i + min (n - i) items.length,
      m.alloc p.alloc (d.take i ++ (SizedSlice.fillFrom (d.drop i) items).1))
  | [], i, m, d, hd, hn, hi => by
    have : (SizedSlice.fillFrom (d.drop i) []).1 = d.drop i := by
      cases d.drop i <;> rfl
    rw [fillLoop, this, List.take_append_drop, alloc_self hd]
    simp
  | v :: items, i, m, d, hd, hn, hi => by
    rw [fillLoop]
    split
    · next hlt =>
      rw [writeAt_in hd (by omega), h0, Nat.zero_add]
      simp only
      rw [fillLoop_eq h0 items (i + 1) _ (d.set i (some v)) (alloc_same _ _ _)
        (by rw [List.length_set]; exact hn) (by omega), alloc_alloc]
      have e1 : (d.set i (some v)).take (i + 1) = d.take i ++ [some v] := by
        rw [← set_eq_take (by omega), List.take_append_of_le_length (by
          rw [List.length_append, List.length_take, List.length_singleton]; omega)]
        exact List.take_of_length_le (by
          rw [List.length_append, List.length_take, List.length_singleton]; omega)
      have e2 : (d.set i (some v)).drop (i + 1) = d.drop (i + 1) := by
        rw [List.drop_set_of_lt (by omega)]
      rw [e1, e2, List.drop_eq_getElem_cons (show i < d.length by omega), SizedSlice.fillFrom]
      simp only [List.length_cons]
      congr 2
      · omega
      · simp [List.append_assoc]
    · next hlt =>
      have : d.drop i = [] := List.drop_eq_nil_of_le (by omega)
      rw [this, SizedSlice.fillFrom, List.append_nil, List.take_of_length_le (by omega), alloc_self hd]
      simp
      omega

theorem dropLoop_eq {p : Ptr} (h0 : p.off = 0) : ∀ (k i : Nat) (m : Mem α) (c : List (Option α)),
    m p.alloc = some c → i + k ≤ c.length →
    dropLoop p k i m = match initAll ((c.drop i).take k) with
      | some _ => .ok (m.alloc p.alloc (c.take i ++ List.replicate k none ++ c.drop (i + k)))
      | none => .error .uninitRead
  | 0, i, m, c, hc, hk => by
    rw [dropLoop, List.take_zero]
    simp only [initAll, List.replicate_zero, List.append_nil, Nat.add_zero, List.take_append_drop]
    rw [alloc_self hc]
  | k + 1, i, m, c, hc, hk => by
    rw [dropLoop, moveAt_eq hc, h0, Nat.zero_add, List.getElem?_eq_getElem (by omega),
      List.drop_eq_getElem_cons (by omega), List.take_succ_cons]
    cases hv : c[i]'(by omega) with
    | none => rfl
    | some v =>
      simp only
      rw [dropLoop_eq h0 k (i + 1) _ (c.set i none) (alloc_same _ _ _)
        (by rw [List.length_set]; omega), List.drop_set_of_lt (by omega), initAll]
      cases hvs : initAll ((c.drop (i + 1)).take k) with
      | none => rfl
      | some vs =>
        simp only [Option.map_some]
        rw [alloc_alloc]
        congr 2
        have e1 : (c.set i none).take (i + 1) = c.take i ++ [none] := by
          rw [← set_eq_take (by omega), List.take_append_of_le_length (by
            rw [List.length_append, List.length_take, List.length_singleton]; omega)]
          exact List.take_of_length_le (by
            rw [List.length_append, List.length_take, List.length_singleton]; omega)
        have e2 : (c.set i none).drop (i + 1 + k) = c.drop (i + (k + 1)) := by
          rw [List.drop_set_of_lt (by omega)]
          congr 1
          omega
        rw [e1, e2, List.replicate_succ]
        simp [List.append_assoc]

end Mem

namespace SizedSlice
variable {α : Type}

theorem zipWrite_uninit : ∀ (data : List α) (n : Nat), data.length ≤ n →
    zipWrite (uninit n) data = data.map some ++ List.replicate (n - data.length) none
  | [], n, _ => by cases n <;> rfl
  | a :: data, 0, h => absurd h (by simp)
  | a :: data, n + 1, h => by
    show some a :: zipWrite (uninit n) data = _
    rw [zipWrite_uninit data n (by simpa using h)]
    simp

theorem copyCells_eq : ∀ (n : Nat) (cells : List (MaybeUninit α)), n ≤ cells.length →
    copyCells n cells = (initAll (cells.take n)).map
      fun vs => vs.map some ++ List.replicate (cells.length - n) none
  | 0, cells, _ => rfl
  | _ + 1, [], h => absurd h (by simp)
  | n + 1, none :: cells, _ => rfl
  | n + 1, some a :: cells, h => by
    rw [copyCells, copyCells_eq n cells (by simpa using h), List.take_succ_cons, initAll]
    cases initAll (cells.take n) with
    | none => rfl
    | some vs => simp

end SizedSlice

namespace Spec
variable {α : Type}

theorem ShowsObj.alive {m : Mem α} {o : RawObj} {O : SliceObj α} (h : ShowsObj m o O) :
    m o.alloc ≠ none := by
  cases o <;> cases O <;> first | exact h.elim | skip
  all_goals
    intro e
    rw [RawObj.alloc] at e
    have := h.2.1
    rw [e] at this
    cases this

theorem ShowsObj.congr {m m' : Mem α} {o : RawObj} {O : SliceObj α} (h : ShowsObj m o O)
    (e : m' o.alloc = m o.alloc) : ShowsObj m' o O := by
  cases o <;> cases O <;> first | exact h.elim | skip
  all_goals exact ⟨h.1, Eq.trans e h.2.1, h.2.2⟩

theorem list_get_set {β : Type} {l : List β} {i j : Nat} {x q : β} (hq : (l.set i x)[j]? = some q) :
    (j = i ∧ q = x) ∨ (j ≠ i ∧ l[j]? = some q) := by
  rw [List.getElem?_set] at hq
  by_cases e : i = j
  · rw [if_pos e] at hq
    split at hq
    · exact .inl ⟨e.symm, (Option.some.inj hq).symm⟩
    · exact nomatch hq
  · rw [if_neg e] at hq
    exact .inr ⟨Ne.symm e, hq⟩

theorem list_get_append {β : Type} {l : List β} {j : Nat} {x q : β} (hq : (l ++ [x])[j]? = some q) :
    (j = l.length ∧ q = x) ∨ (j < l.length ∧ l[j]? = some q) := by
  rcases Nat.lt_trichotomy j l.length with h | h | h
  · rw [List.getElem?_append_left h] at hq; exact .inr ⟨h, hq⟩
  · subst h; simp at hq; exact .inl ⟨rfl, hq.symm⟩
  · rw [List.getElem?_eq_none (by simp; omega)] at hq; cases hq

theorem list_lt {β : Type} {l : List β} {i : Nat} {x : β} (h : l[i]? = some x) : i < l.length := by
  rcases Nat.lt_or_ge i l.length with h' | h'
  · exact h'
  · rw [List.getElem?_eq_none h'] at h; cases h

/-- Where nothing is, no object is. -/
theorem ShowsSlices.free {base : Mem α} {h : SliceHeap α} {L : List (SliceObj α)}
    (H : ShowsSlices base h L) {a : Nat} (ha : h.mem a = none) {i : Nat} {o : RawObj}
    (hi : h.objs[i]? = some o) : o.alloc ≠ a := by
  intro e
  have hlt := list_lt hi
  rw [H.length] at hlt
  exact (H.shows_ i o _ hi (List.getElem?_eq_getElem hlt)).alive (e ▸ ha)

theorem ShowsSlices.base_free {base : Mem α} {h : SliceHeap α} {L : List (SliceObj α)}
    (H : ShowsSlices base h L) {a : Nat} (ha : h.mem a = none) : base a = none := by
  rw [← H.rest a fun i o hi => H.free ha hi]; exact ha

theorem ShowsSlices.get {base : Mem α} {h : SliceHeap α} {L : List (SliceObj α)}
    (H : ShowsSlices base h L) {i : Nat} {o : RawObj} (hi : h.objs[i]? = some o) :
    ∃ O, L[i]? = some O ∧ ShowsObj h.mem o O := by
  have hlt := list_lt hi
  rw [H.length] at hlt
  exact ⟨_, List.getElem?_eq_getElem hlt, H.shows_ i o _ hi (List.getElem?_eq_getElem hlt)⟩

theorem ShowsSlices.none_ {base : Mem α} {h : SliceHeap α} {L : List (SliceObj α)}
    (H : ShowsSlices base h L) {i : Nat} (hi : h.objs[i]? = none) : L[i]? = none := by
  rw [List.getElem?_eq_none_iff] at hi ⊢
  rw [← H.length]; exact hi

/-- One object is changed, or put in place of another one. -/
theorem ShowsSlices.set {base : Mem α} {h : SliceHeap α} {L : List (SliceObj α)}
    (H : ShowsSlices base h L) {i : Nat} {o o' : RawObj} {O' : SliceObj α} {m' : Mem α}
    (hi : h.objs[i]? = some o) (hs : ShowsObj m' o' O')
    (hf : o'.alloc = o.alloc ∨ (h.mem o'.alloc = none ∧ m' o.alloc = none))
    (ho : ∀ c, c ≠ o.alloc → c ≠ o'.alloc → m' c = h.mem c) :
    ShowsSlices base ⟨h.objs.set i o', m'⟩ (L.set i O') := by
  have hne : ∀ (j : Nat) (q : RawObj), j ≠ i → h.objs[j]? = some q → q.alloc ≠ o.alloc ∧ q.alloc ≠ o'.alloc := by
    intro j q hj hq
    have h1 := H.apart j i q o hj hq hi
    rcases hf with e | ⟨e, -⟩
    · rw [e]; exact ⟨h1, h1⟩
    · exact ⟨h1, H.free e hq⟩
  refine ⟨?_, ?_, ?_, ?_, ?_⟩
  · simp only [List.length_set, H.length]
  · intro j q Q hq hQ
    rcases list_get_set hq with ⟨e, rfl⟩ | ⟨e, hq⟩
    · subst e
      rcases list_get_set hQ with ⟨-, rfl⟩ | ⟨e, -⟩
      · exact hs
      · exact absurd rfl e
    · rcases list_get_set hQ with ⟨e', -⟩ | ⟨-, hQ⟩
      · exact absurd e' e
      · have := hne j q e hq
        exact (H.shows_ j q Q hq hQ).congr (ho _ this.1 this.2)
  · intro j k q q' hjk hq hq'
    rcases list_get_set hq with ⟨e, rfl⟩ | ⟨e, hq1⟩
    · rcases list_get_set hq' with ⟨e', rfl⟩ | ⟨e', hq1'⟩
      · exact absurd (e.trans e'.symm) hjk
      · exact Ne.symm (hne k q' e' hq1').2
    · rcases list_get_set hq' with ⟨e', rfl⟩ | ⟨e', hq1'⟩
      · exact (hne j q e hq1).2
      · exact H.apart j k q q' hjk hq1 hq1'
  · intro j q hq
    rcases list_get_set hq with ⟨e, rfl⟩ | ⟨e, hq⟩
    · rcases hf with e' | ⟨e', -⟩
      · rw [e']; exact H.fresh i o hi
      · exact H.base_free e'
    · exact H.fresh j q hq
  · intro a ha
    show m' a = _
    have hi' : (h.objs.set i o')[i]? = some o' := by
      rw [List.getElem?_set, if_pos rfl, if_pos (list_lt hi)]
    have h1 := Ne.symm (ha i o' hi')
    by_cases e : a = o.alloc
    · subst e
      rcases hf with e' | ⟨-, e'⟩
      · exact absurd e'.symm h1
      · rw [e', H.fresh i o hi]
    · rw [ho a e h1]
      apply H.rest a
      intro j q hq
      by_cases ej : j = i
      · subst ej; rw [hi] at hq; cases hq; exact Ne.symm e
      · exact ha j q (by rw [List.getElem?_set, if_neg (Ne.symm ej)]; exact hq)

/-- One object is made. -/
theorem ShowsSlices.push {base : Mem α} {h : SliceHeap α} {L : List (SliceObj α)}
    (H : ShowsSlices base h L) {o' : RawObj} {O' : SliceObj α} {m' : Mem α}
    (hs : ShowsObj m' o' O') (hf : h.mem o'.alloc = none)
    (ho : ∀ c, c ≠ o'.alloc → m' c = h.mem c) :
    ShowsSlices base ⟨h.objs ++ [o'], m'⟩ (L ++ [O']) := by
  refine ⟨?_, ?_, ?_, ?_, ?_⟩
  · simp only [List.length_append, List.length_singleton, H.length]
  · intro j q Q hq hQ
    rcases list_get_append hq with ⟨e, rfl⟩ | ⟨e, hq⟩
    · rcases list_get_append hQ with ⟨-, rfl⟩ | ⟨e', -⟩
      · exact hs
      · rw [← H.length] at e'; omega
    · rcases list_get_append hQ with ⟨e', -⟩ | ⟨-, hQ⟩
      · rw [← H.length] at e'; omega
      · exact (H.shows_ j q Q hq hQ).congr (ho _ (H.free hf hq))
  · intro j k q q' hjk hq hq'
    rcases list_get_append hq with ⟨e, rfl⟩ | ⟨e, hq1⟩
    · rcases list_get_append hq' with ⟨e', rfl⟩ | ⟨e', hq1'⟩
      · exact absurd (e.trans e'.symm) hjk
      · exact Ne.symm (H.free hf hq1')
    · rcases list_get_append hq' with ⟨e', rfl⟩ | ⟨e', hq1'⟩
      · exact H.free hf hq1
      · exact H.apart j k q q' hjk hq1 hq1'
  · intro j q hq
    rcases list_get_append hq with ⟨e, rfl⟩ | ⟨e, hq⟩
    · exact H.base_free hf
    · exact H.fresh j q hq
  · intro a ha
    show m' a = _
    rw [ho a (Ne.symm (ha h.objs.length o' (by simp)))]
    apply H.rest a
    intro j q hq
    exact ha j q (by rw [List.getElem?_append_left (list_lt hq)]; exact hq)

theorem list_get_erase {β : Type} {l : List β} {i j : Nat} {q : β} (hq : (l.eraseIdx i)[j]? = some q) :
    l[if j < i then j else j + 1]? = some q := by
  rw [List.getElem?_eraseIdx] at hq
  split at hq
  · next h => rw [if_pos h]; exact hq
  · next h => rw [if_neg h]; exact hq

/-- One object goes out of scope. -/
theorem ShowsSlices.erase {base : Mem α} {h : SliceHeap α} {L : List (SliceObj α)}
    (H : ShowsSlices base h L) {i : Nat} {o : RawObj} (hi : h.objs[i]? = some o) :
    ShowsSlices base ⟨h.objs.eraseIdx i, h.mem.free o.alloc⟩ (L.eraseIdx i) := by
  have hidx : ∀ j : Nat, (if j < i then j else j + 1) ≠ i := fun j => by split <;> omega
  have hfree : ∀ c, c ≠ o.alloc → h.mem.free o.alloc c = h.mem c := fun c hc => if_neg hc
  refine ⟨?_, ?_, ?_, ?_, ?_⟩
  · simp only [List.length_eraseIdx, H.length]
  · intro j q Q hq hQ
    have hq := list_get_erase hq
    have hQ := list_get_erase hQ
    exact (H.shows_ _ q Q hq hQ).congr (hfree _ (H.apart _ i q o (hidx j) hq hi))
  · intro j k q q' hjk hq hq'
    refine H.apart _ _ q q' ?_ (list_get_erase hq) (list_get_erase hq')
    intro e
    apply hjk
    split at e <;> split at e <;> omega
  · intro j q hq
    exact H.fresh _ q (list_get_erase hq)
  · intro a ha
    show h.mem.free o.alloc a = _
    by_cases e : a = o.alloc
    · subst e
      rw [H.fresh i o hi]
      exact if_pos rfl
    · rw [hfree a e]
      apply H.rest a
      intro j q hq
      rcases Nat.lt_trichotomy j i with hj | hj | hj
      · exact ha j q (by rw [List.getElem?_eraseIdx, if_pos hj]; exact hq)
      · subst hj; rw [hi] at hq; cases hq; exact Ne.symm e
      · refine ha (j - 1) q ?_
        rw [List.getElem?_eraseIdx, if_neg (by omega), show j - 1 + 1 = j by omega]
        exact hq

end Spec
end Oct
