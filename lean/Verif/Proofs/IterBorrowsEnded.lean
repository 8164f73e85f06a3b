import Verif.Proofs.IterBorrowsRun
import Verif.Model.SizedSlice
/-
What calls by `&mut self` end, and that positions and lengths are those of Model/SizedSlice.
-/
namespace Oct.Alias
open Spec Sound

variable {p : Place} {l : Nat}

theorem iterDrops_inward {t h : Nat} (hh : t ≤ h) : (k pos n : Nat) → t ≤ n → Inward t l (p.iterDrops h pos k n).2.2
  | 0, _, _, _ => fun _ h => nomatch h
  | k + 1, pos, n, hn => by
    rw [iterDrops_succ]
    intro e he hr
    rcases List.mem_cons.mp he with rfl | he
    · exact ⟨.inr hh, hn⟩
    · rcases List.mem_cons.mp he with rfl | he
      · exact hn
      · exact iterDrops_inward hh k (pos + 1) (n + 1) (by omega) e he hr

theorem iterNext_inward (len i n : Nat) : Inward n l (p.iterNext len i 0 n).2.2 := by
  by_cases hz : len = 0
  · subst hz
    rw [iterNext_none]
    intro e he _
    simp only [List.mem_cons, List.not_mem_nil, or_false] at he
    rcases he with rfl | rfl
    · exact ⟨.inl rfl, Nat.le_refl n⟩
    · exact .inr (Nat.le_refl n)
  · rw [iterNext_some p hz]
    intro e he _
    simp only [List.mem_cons, List.not_mem_nil, or_false] at he
    rcases he with rfl | rfl | rfl | rfl | rfl | rfl
    · exact ⟨.inl rfl, Nat.le_refl n⟩
    · exact .inr (Nat.le_refl n)
    · exact ⟨.inr (Nat.le_refl n), by omega⟩
    · exact ⟨.inr (by omega), by omega⟩
    · exact .inr (by omega)
    · exact Nat.le_refl n

theorem iterNth_inward (pos len i n : Nat) : Inward n l (p.iterNth pos len i 0 n).2.2 := by
  by_cases hz : i > len
  · rw [iterNth_none p hz]
    intro e he _
    simp only [List.mem_cons, List.not_mem_nil, or_false] at he
    rcases he with rfl | rfl
    · exact ⟨.inl rfl, Nat.le_refl n⟩
    · exact .inr (Nat.le_refl n)
  · rw [iterNth_some p hz]
    refine .append (fun e he _ => ?_) (.append (iterDrops_inward (by omega) _ _ _ (by omega)) fun e he _ => ?_)
    · simp only [List.mem_cons, List.not_mem_nil, or_false] at he
      rcases he with rfl | rfl | rfl | rfl | rfl
      · exact ⟨.inl rfl, Nat.le_refl n⟩
      · exact .inr (Nat.le_refl n)
      · exact ⟨.inr (Nat.le_refl n), by omega⟩
      · exact ⟨.inr (by omega), by omega⟩
      · exact ⟨by omega, by omega⟩
    · simp only [List.mem_cons, List.not_mem_nil, or_false] at he
      rcases he with rfl | rfl | rfl | rfl
      · exact ⟨.inr (Nat.le_refl n), by omega⟩
      · exact ⟨.inr (by omega), by omega⟩
      · exact .inr (by omega)
      · exact Nat.le_refl n

theorem iterMutSlice_inward (pos len n : Nat) : Inward n l (p.iterMutSlice pos len 0 n).2.2 := by
  rw [iterMutSlice_list]
  intro e he _
  simp only [List.mem_cons, List.not_mem_nil, or_false] at he
  rcases he with rfl | rfl | rfl | rfl | rfl
  · exact ⟨.inl rfl, Nat.le_refl n⟩
  · exact ⟨.inr (Nat.le_refl n), by omega⟩
  · exact ⟨by omega, by omega⟩
  · exact .inr (Nat.le_refl n)
  · exact ⟨.inr (by omega), by omega⟩

/-- A call by `&mut self` makes a `&mut` of the owner to all of it first. -/
theorem iter_taking {o : Cursor} {c : IterCall} (hc : IterByMut c) : Inward o.next l (c.go p o).2 ∧
    ∃ es, (c.go p o).2 = .retag .excl 0 o.next p.whole :: es := by
  cases c with
  | asMutSlice => exact ⟨iterMutSlice_inward _ _ _, _, rfl⟩
  | next => exact ⟨iterNext_inward _ _ _, _, rfl⟩
  | nextBack => exact ⟨iterNext_inward _ _ _, _, rfl⟩
  | nth i =>
    rw [nth_go_events]
    exact ⟨iterNth_inward _ _ _ _, _, rfl⟩
  | _ => exact hc.elim

theorem iter_taking_held {o : Cursor} {c : IterCall} (hc : IterByMut c) {k : Nat} {x : Held} (hx : o.held[k]? = some x) :
    (c.go p o).1.held[k]? = some x := by
  cases c with
  | asMutSlice =>
    show (o.held ++ _)[k]? = _
    rw [List.getElem?_append_left (List.getElem?_eq_some_iff.mp hx).1, hx]
  | next => exact hx
  | nextBack => exact hx
  | nth i =>
    rw [nth_go_held]
    exact hx
  | _ => exact hc.elim

theorem iter_then_get (p : Place) (o : Cursor) (c : IterCall) {k : Nat} {x : Held}
    (hx : (c.go p o).1.held[k]? = some x) (i : Nat) :
    iterEvents p o [c, .get k i] = (c.go p o).2 ++ .read x.tag ⟨x.r.lo + i, 1⟩ :: [] := by
  show (c.go p o).2 ++ ((IterCall.go p (c.go p o).1 (.get k i)).2 ++ []) = _
  generalize (c.go p o).1 = o2 at hx
  generalize (c.go p o).2 = es
  simp only [IterCall.go, hx]
  rfl

/-- Under Stacked Borrows, a `&mut` of the owner ends all that were made before. -/
theorem stack_taken {t l g : Nat} {r : Region} {es : List Event} {s : List Item} (hw : stackW 0 t s) (hl : r.has l = true)
    (hi : Inward t l (.retag .excl 0 t r :: es)) (hg : g < t) (hg0 : g ≠ 0) (fs : List Event) :
    runAt Stacked l ((.retag .excl 0 t r :: es) ++ .read g ⟨l, 1⟩ :: fs) s = none := by
  have h0 := hw.1
  rw [List.cons_append, runAt_cons ((hit_retag hl).trans hw.excl), runAt_append]
  cases hr : runAt Stacked l es [⟨t, .unique⟩, ⟨0, .unique⟩] with
  | none => rfl
  | some s' =>
    have hG : Gone t [⟨t, .unique⟩, ⟨0, .unique⟩] := by
      intro i hi
      simp only [List.mem_cons, List.not_mem_nil, or_false] at hi
      rcases hi with rfl | rfl
      · exact .inr (Nat.le_refl t)
      · exact .inl rfl
    have hB : Bottom [⟨t, .unique⟩, ⟨0, .unique⟩] := ⟨show t ≠ 0 by omega, rfl⟩
    have hgone := (stack_run h0 es hB (.inl hG) (fun e he => hi e (.tail _ he)) hr).1 hG
    rw [Option.bind_some]
    show (Event.act Stacked l (.read g ⟨l, 1⟩) s').bind _ = none
    rw [hit_read (here l)]
    show (stackRead g s').bind _ = none
    rw [stack_dead_read fun i hi => ?_]
    · rfl
    · have := hgone i hi
      omega

/-! Positions and lengths. -/

variable {α : Type}

theorem take_lt {cells : List (MaybeUninit α)} {i : Nat} {a : α} {b : List (MaybeUninit α)}
    (h : (SizedIter.take (ε := Empty) cells i) = .ok (a, b)) : i < cells.length := by
  unfold SizedIter.take at h
  split at h
  · cases h
  · cases h
  · rename_i h1
    exact (List.getElem?_eq_some_iff.mp h1).1

theorem iter_next_agrees {it it' : SizedIter α} {x : Option α} (h : it.next = .ok (x, it')) :
    it'.pos = (if it.len = 0 then it.pos else it.pos + 1) ∧ it'.len = it.len - 1 := by
  unfold SizedIter.next at h
  split at h
  · rename_i hz
    cases h
    rw [if_pos hz]
    exact ⟨rfl, by omega⟩
  · rename_i hz
    rw [if_neg hz]
    cases ht : SizedIter.take (ε := Empty) it.buf it.pos with
    | ok y => rw [ht] at h; cases h; exact ⟨rfl, rfl⟩
    | err e => nomatch e
    | panic _ => rw [ht] at h; cases h
    | ub _ => rw [ht] at h; cases h

theorem iter_back_agrees {it it' : SizedIter α} {x : Option α} (h : it.nextBack = .ok (x, it')) :
    it'.pos = it.pos ∧ it'.len = it.len - 1 := by
  unfold SizedIter.nextBack at h
  split at h
  · rename_i hz
    cases h
    exact ⟨rfl, by omega⟩
  · cases ht : SizedIter.take (ε := Empty) it.buf (it.pos + it.len - 1) with
    | ok y => rw [ht] at h; cases h; exact ⟨rfl, rfl⟩
    | err e => nomatch e
    | panic _ => rw [ht] at h; cases h
    | ub _ => rw [ht] at h; cases h

theorem dropRange_length {cells b : List (MaybeUninit α)} {i j : Nat} (hij : i ≤ j) (hj : j ≤ cells.length)
    (h : SizedIter.dropRange cells i j = .ok b) : b.length = cells.length := by
  unfold SizedIter.dropRange at h
  split at h
  · cases h
    simp only [List.length_append, List.length_take, List.length_replicate, List.length_drop]
    omega
  · cases h

theorem iter_nth_agrees {checks : Bool} {it it' : SizedIter α} {x : Option α} {i : Nat}
    (h : it.nth checks i = .ok (x, it')) :
    it'.pos = (if i > it.len then it.pos else it.pos + i) ∧ it'.len = (if i > it.len then it.len else it.len - i) ∧
      0 < i ∧ (i ≤ it.len → i < it.buf.length) := by
  unfold SizedIter.nth at h
  by_cases hz : i > it.len
  · rw [if_pos hz] at h
    cases h
    rw [if_pos hz, if_pos hz]
    exact ⟨rfl, rfl, by omega, by omega⟩
  · rw [if_neg hz] at h
    rw [if_neg hz, if_neg hz]
    by_cases h0 : it.pos + i = 0
    · simp only [if_pos h0] at h
      cases checks <;> cases h
    · simp only [if_neg h0] at h
      by_cases hb : it.pos > it.pos + i - 1 ∨ it.pos + i - 1 > it.buf.length
      · rw [if_pos hb] at h
        cases h
      · rw [if_neg hb] at h
        cases hd : SizedIter.dropRange it.buf it.pos (it.pos + i - 1) with
        | ok b =>
          rw [hd] at h
          have hlen := dropRange_length (by omega) (by omega) hd
          cases ht : SizedIter.take (ε := Empty) b i with
          | ok y =>
            simp only [ht] at h
            have := take_lt ht
            cases h
            exact ⟨rfl, rfl, by omega, fun _ => by omega⟩
          | err e => nomatch e
          | panic _ => simp only [ht] at h; cases h
          | ub _ => simp only [ht] at h; cases h
        | err e => nomatch e
        | panic _ => rw [hd] at h; cases h
        | ub _ => rw [hd] at h; cases h

end Oct.Alias
