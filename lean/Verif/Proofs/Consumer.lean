import Verif.Spec.Consumer
import Verif.Proofs.SizedIter
import Verif.Proofs.CopyIter
/- Programs that use the iterator of a sized slice. -/
namespace Oct
open Spec
variable {α β : Type}

namespace SizedIter

theorem Represents.nextCopy_nil {it : SizedIter α} (h : it.Represents []) :
    it.nextCopy = .ok (none, it) := if_pos h.len

theorem Represents.nextBackCopy_nil {it : SizedIter α} (h : it.Represents []) :
    it.nextBackCopy = .ok (none, it) := if_pos h.len

theorem Represents.nextCopy_cons {it : SizedIter α} {a : α} {l : List α} (h : it.Represents (a :: l)) :
    it.nextCopy = .ok (some a, { buf := it.buf, pos := it.pos + 1, len := it.len - 1 }) ∧
    SizedIter.Represents { buf := it.buf, pos := it.pos + 1, len := it.len - 1 } l := by
  have hl := h.len
  rw [List.length_cons] at hl
  have h0 := h.get 0 (by simp)
  rw [Nat.add_zero] at h0
  constructor
  · unfold nextCopy
    rw [if_neg (by omega), peek, h0]; rfl
  · refine represents_of_get (by simp only; omega) ?_ ?_
    · simp only; have := h.1; omega
    · intro i hi
      simp only
      have := h.get (i + 1) (by simpa using hi)
      rw [show it.pos + 1 + i = it.pos + (i + 1) by omega, this]
      rfl

theorem Represents.nextBackCopy_concat {it : SizedIter α} {a : α} {l : List α}
    (h : it.Represents (l ++ [a])) :
    it.nextBackCopy = .ok (some a, { buf := it.buf, pos := it.pos, len := it.len - 1 }) ∧
    SizedIter.Represents { buf := it.buf, pos := it.pos, len := it.len - 1 } l := by
  have hl := h.len
  rw [List.length_append, List.length_singleton] at hl
  have h0 := h.get l.length (by simp)
  have he : it.pos + it.len - 1 = it.pos + l.length := by omega
  constructor
  · unfold nextBackCopy
    rw [if_neg (by omega), peek, he, h0]
    simp [Res.map]
  · refine represents_of_get (by simp only; omega) ?_ ?_
    · simp only; have := h.1; omega
    · intro i hi
      simp only
      have := h.get i (by rw [List.length_append]; omega)
      rw [this, List.getElem_append_left hi]

theorem Represents.sizeHint_zero {it : SizedIter α} {l : List α} (h : it.Represents l) (hp : it.pos = 0) :
    it.sizeHint = .ok l.length := by
  unfold SizedIter.sizeHint
  rw [if_neg (by omega), hp, Nat.sub_zero, h.len]

end SizedIter

namespace Uses

theorem run_front_nil {plain checks : Bool} {k : Option α → Uses α β} {it : SizedIter α}
    (h : it.Represents []) : run plain checks (.front k) it = run plain checks (k none) it := by
  rw [run]
  cases plain
  · rw [if_neg Bool.false_ne_true, h.next_nil]; rfl
  · rw [if_pos rfl, h.nextCopy_nil]; rfl

theorem run_front_cons {plain checks : Bool} {k : Option α → Uses α β} {it : SizedIter α} {a : α}
    {l : List α} (h : it.Represents (a :: l)) :
    ∃ it', it'.Represents l ∧ it'.pos = it.pos + 1 ∧
      run plain checks (.front k) it = run plain checks (k (some a)) it' := by
  rw [run]
  cases plain
  · rw [if_neg Bool.false_ne_true, h.next_cons.1]
    exact ⟨_, h.next_cons.2, rfl, rfl⟩
  · rw [if_pos rfl, h.nextCopy_cons.1]
    exact ⟨_, h.nextCopy_cons.2, rfl, rfl⟩

theorem run_back_nil {plain checks : Bool} {k : Option α → Uses α β} {it : SizedIter α}
    (h : it.Represents []) : run plain checks (.back k) it = run plain checks (k none) it := by
  rw [run]
  cases plain
  · rw [if_neg Bool.false_ne_true, h.nextBack_nil]; rfl
  · rw [if_pos rfl, h.nextBackCopy_nil]; rfl

theorem run_back_concat {plain checks : Bool} {k : Option α → Uses α β} {it : SizedIter α} {a : α}
    {l : List α} (h : it.Represents (l ++ [a])) :
    ∃ it', it'.Represents l ∧ it'.pos = it.pos ∧
      run plain checks (.back k) it = run plain checks (k (some a)) it' := by
  rw [run]
  cases plain
  · rw [if_neg Bool.false_ne_true, h.nextBack_concat.1]
    exact ⟨_, h.nextBack_concat.2, rfl, rfl⟩
  · rw [if_pos rfl, h.nextBackCopy_concat.1]
    exact ⟨_, h.nextBackCopy_concat.2, rfl, rfl⟩

theorem run_hint_zero {plain checks : Bool} {k : Nat → Uses α β} {it : SizedIter α} {l : List α}
    (h : it.Represents l) (hp : it.pos = 0) :
    run plain checks (.hint k) it = run plain checks (k l.length) it := by
  rw [run, h.sizeHint_zero hp]
  rfl

/-- Prudent programs get what they should. -/
theorem run_prudent (plain checks : Bool) : ∀ (u : Uses α β) (it : SizedIter α) (l : List α) (taken : Bool),
    it.Represents l → (taken = false → it.pos = 0) → Prudent u l taken →
    run plain checks u it = .ok (Ideal u l)
  | .done b, _, _, _, _, _, _ => rfl
  | .front k, it, [], taken, h, hp, hc => by
    rw [run_front_nil h]
    exact run_prudent plain checks (k none) it [] taken h hp hc
  | .front k, it, a :: l, taken, h, hp, hc => by
    obtain ⟨it', h1, h2, h3⟩ := run_front_cons (plain := plain) (checks := checks) (k := k) h
    rw [h3]
    exact run_prudent plain checks (k (some a)) it' l true h1 (fun h => nomatch h) hc
  | .back k, it, l, taken, h, hp, hc => by
    rcases List.eq_nil_or_concat l with rfl | ⟨l', a, rfl⟩
    · rw [run_back_nil h]
      exact run_prudent plain checks (k none) it [] taken h hp hc
    · rw [List.concat_eq_append] at h hc ⊢
      obtain ⟨it', h1, h2, h3⟩ := run_back_concat (plain := plain) (checks := checks) (k := k) h
      rw [Prudent, List.getLast?_concat, List.dropLast_concat] at hc
      rw [h3, Ideal, List.getLast?_concat, List.dropLast_concat]
      exact run_prudent plain checks (k (some a)) it' l' taken h1 (fun e => h2.trans (hp e)) hc
  | .nth _ _, _, _, _, _, _, hc => hc.elim
  | .hint k, it, l, taken, h, hp, hc => by
    rw [run_hint_zero h (hp hc.1)]
    exact run_prudent plain checks (k l.length) it l taken h hp hc.2

theorem prudent_each : ∀ (fuel : Nat) (acc l : List α) (taken : Bool), Prudent (each fuel acc) l taken
  | 0, _, _, _ => trivial
  | _ + 1, _, [], _ => trivial
  | fuel + 1, _, _ :: l, _ => prudent_each fuel _ l true

theorem ideal_each : ∀ (fuel : Nat) (acc l : List α), l.length < fuel → Ideal (each fuel acc) l = acc ++ l
  | 0, _, _, h => nomatch h
  | _ + 1, acc, [], _ => (List.append_nil acc).symm
  | fuel + 1, acc, a :: l, h => by
    show Ideal (each fuel (acc ++ [a])) l = _
    rw [ideal_each fuel _ l (by simpa using h), List.append_assoc]
    rfl

theorem run_each {plain checks : Bool} {fuel : Nat} {acc l : List α} {it : SizedIter α}
    (h : it.Represents l) (hf : l.length < fuel) : run plain checks (each fuel acc) it = .ok (acc ++ l) := by
  rw [run_prudent plain checks _ it l true h (fun h => nomatch h) (prudent_each ..), ideal_each _ _ _ hf]

theorem ideal_pushAll (grant : Nat → Nat) : ∀ (fuel cap : Nat) (acc l : List α), l.length < fuel →
    Ideal (pushAll grant fuel cap acc) l = acc ++ l
  | 0, _, _, _, h => nomatch h
  | _ + 1, _, acc, [], _ => (List.append_nil acc).symm
  | fuel + 1, cap, acc, a :: l, h => by
    show Ideal (if acc.length = cap then _ else _) l = _
    have hf : l.length < fuel := by simpa using h
    split
    · rw [Ideal, ideal_pushAll grant fuel _ _ l hf, List.append_assoc]; rfl
    · rw [ideal_pushAll grant fuel _ _ l hf, List.append_assoc]; rfl

/-- There is space for all items. -/
theorem run_pushAll_fits {plain checks : Bool} (grant : Nat → Nat) : ∀ (fuel cap : Nat) (acc l : List α)
    (it : SizedIter α), it.Represents l → l.length < fuel → acc.length + l.length ≤ cap →
    run plain checks (pushAll grant fuel cap acc) it = .ok (acc ++ l)
  | 0, _, _, _, _, _, h, _ => nomatch h
  | _ + 1, _, acc, [], it, h, _, _ => by
    rw [pushAll, run_front_nil h, List.append_nil]
    rfl
  | fuel + 1, cap, acc, a :: l, it, h, hf, hc => by
    rw [List.length_cons] at hf hc
    rw [pushAll]
    obtain ⟨it', h1, _, h3⟩ := run_front_cons (plain := plain) (checks := checks) (k := fun
      | none => .done acc
      | some a =>
        if acc.length = cap then
          .hint fun lower => pushAll grant fuel (grant (max (2 * cap) (acc.length + (lower + 1)))) (acc ++ [a])
        else pushAll grant fuel cap (acc ++ [a])) h
    refine h3.trans ?_
    simp only
    rw [if_neg (by omega), run_pushAll_fits grant fuel cap (acc ++ [a]) l it' h1 (by omega)
      (by rw [List.length_append, List.length_singleton]; omega), List.append_assoc]
    rfl

/-- There is space for all items but the last. -/
theorem run_pushAll_last {plain checks : Bool} (grant : Nat → Nat) : ∀ (fuel cap : Nat) (acc l : List α)
    (it : SizedIter α), it.Represents l → l.length < fuel → l ≠ [] → acc.length + l.length = cap + 1 →
    run plain checks (pushAll grant fuel cap acc) it = .ub .uncheckedSub
  | 0, _, _, _, _, _, h, _, _ => nomatch h
  | _ + 1, _, _, [], _, _, _, h, _ => absurd rfl h
  | fuel + 1, cap, acc, a :: l, it, h, hf, _, hc => by
    rw [List.length_cons] at hf hc
    rw [pushAll]
    obtain ⟨it', h1, h2, h3⟩ := run_front_cons (plain := plain) (checks := checks) (k := fun
      | none => .done acc
      | some a =>
        if acc.length = cap then
          .hint fun lower => pushAll grant fuel (grant (max (2 * cap) (acc.length + (lower + 1)))) (acc ++ [a])
        else pushAll grant fuel cap (acc ++ [a])) h
    refine h3.trans ?_
    simp only
    cases l with
    | nil =>
      rw [List.length_nil] at hc
      rw [if_pos (by omega), run]
      have : it'.sizeHint = .ub .uncheckedSub := by
        unfold SizedIter.sizeHint
        rw [if_pos (by rw [h1.len, h2]; simp)]
      rw [this]
      rfl
    | cons b l =>
      rw [List.length_cons] at hc
      rw [if_neg (by omega), run_pushAll_last grant fuel cap (acc ++ [a]) (b :: l) it' h1 (by omega)
        (by simp) (by simp only [List.length_append, List.length_cons, List.length_nil]; omega)]

/-- Collecting into a vector. -/
theorem run_collect {plain checks : Bool} {least : Nat} {grant : Nat → Nat} {fuel : Nat} {it : SizedIter α}
    {l : List α} (h : it.Represents l) (hp : it.pos = 0) (hf : l.length ≤ fuel) (hg : ∀ n, n ≤ grant n) :
    run plain checks (collect least grant fuel) it =
      if l.length = 1 ∨ grant (max least (l.length - 1)) < l.length then .ub .uncheckedSub else .ok l := by
  cases l with
  | nil =>
    rw [collect, run_front_nil h, if_neg (by simp)]
    rfl
  | cons a l =>
    rw [List.length_cons] at hf ⊢
    rw [collect]
    obtain ⟨it', h1, h2, h3⟩ := run_front_cons (plain := plain) (checks := checks) (k := fun
      | none => .done []
      | some a => .hint fun lower => pushAll grant fuel (grant (max least (lower + 1))) [a]) h
    refine h3.trans ?_
    simp only
    rw [run]
    have hl := h1.len
    cases l with
    | nil =>
      have : it'.sizeHint = .ub .uncheckedSub := by
        unfold SizedIter.sizeHint
        rw [if_pos (by rw [hl, h2]; simp)]
      rw [this, if_pos (.inl rfl)]
      rfl
    | cons b l =>
      rw [List.length_cons] at hl hf ⊢
      have : it'.sizeHint = .ok l.length := by
        unfold SizedIter.sizeHint
        rw [if_neg (by omega), hl, h2, hp]
        simp
      rw [this]
      show run plain checks (pushAll grant fuel (grant (max least (l.length + 1))) [a]) it' = _
      rw [show l.length + 1 + 1 - 1 = l.length + 1 from rfl]
      have hge : l.length + 1 ≤ grant (max least (l.length + 1)) :=
        Nat.le_trans (Nat.le_max_right ..) (hg _)
      by_cases hc : grant (max least (l.length + 1)) < l.length + 1 + 1
      · rw [if_pos (.inr hc), run_pushAll_last grant fuel _ [a] (b :: l) it' h1 (by rw [List.length_cons]; omega)
          (by simp) (by simp only [List.length_cons, List.length_nil]; omega)]
      · rw [if_neg (by omega), run_pushAll_fits grant fuel _ [a] (b :: l) it' h1 (by rw [List.length_cons]; omega)
          (by simp only [List.length_cons, List.length_nil]; omega)]
        rfl

/-! ## From the back -/

theorem run_nthBack {plain checks : Bool} {k : Option α → Uses α β} : ∀ (n : Nat) (m : List α)
    (it : SizedIter α), it.Represents m.reverse →
    ∃ it', it'.Represents (m.drop (n + 1)).reverse ∧ it'.pos = it.pos ∧
      run plain checks (nthBack n k) it = run plain checks (k m[n]?) it'
  | n, [], it, h => by
    refine ⟨it, h, rfl, ?_⟩
    cases n with
    | zero => exact run_back_nil h
    | succ n => rw [nthBack, run_back_nil h]; rfl
  | 0, a :: m, it, h => by
    rw [List.reverse_cons] at h
    obtain ⟨it', h1, h2, h3⟩ := run_back_concat (plain := plain) (checks := checks) (k := k) h
    exact ⟨it', h1, h2, h3⟩
  | n + 1, a :: m, it, h => by
    rw [List.reverse_cons] at h
    obtain ⟨it1, h1, h2, h3⟩ := run_back_concat (plain := plain) (checks := checks) (k := fun
      | none => k none
      | some _ => nthBack n k) h
    obtain ⟨it', h4, h5, h6⟩ := run_nthBack (plain := plain) (checks := checks) (k := k) n m it1 h1
    exact ⟨it', h4, h5.trans h2, h3.trans h6⟩

theorem forward_frontOnly : ∀ (u : Uses α β) (m : List α) (taken : Bool), FrontOnly u → taken = false →
    Forward u m taken
  | .done _, _, _, _, _ => trivial
  | .front k, m, taken, hc, ht => forward_frontOnly (k m.head?) m.tail taken (hc _) ht
  | .back _, _, _, hc, _ => hc.elim
  | .nth n k, m, taken, hc, ht => forward_frontOnly (k m[n]?) (m.drop (n + 1)) taken (hc _) ht
  | .hint k, m, taken, hc, ht => ⟨ht, forward_frontOnly (k m.length) m taken (hc _) ht⟩

/-- A program that uses `rev()` and takes from its back only if it no longer asks for the number of items. -/
theorem run_rev (plain checks : Bool) : ∀ (u : Uses α β) (it : SizedIter α) (m : List α) (taken : Bool),
    it.Represents m.reverse → (taken = false → it.pos = 0) → Forward u m taken →
    run plain checks u.rev it = .ok (Ideal u m)
  | .done b, _, _, _, _, _, _ => rfl
  | .front k, it, [], taken, h, hp, hc => by
    rw [rev, run_back_nil h]
    exact run_rev plain checks (k none) it [] taken h hp hc
  | .front k, it, a :: m, taken, h, hp, hc => by
    rw [List.reverse_cons] at h
    obtain ⟨it', h1, h2, h3⟩ := run_back_concat (plain := plain) (checks := checks)
      (k := fun x => (k x).rev) h
    rw [rev, h3]
    exact run_rev plain checks (k (some a)) it' m taken h1 (fun e => h2.trans (hp e)) hc
  | .back k, it, [], taken, h, hp, hc => by
    rw [rev, run_front_nil h]
    exact run_rev plain checks (k none) it [] taken h hp hc
  | .back k, it, a :: m, taken, h, hp, hc => by
    have e : (a :: m).reverse = (a :: m).getLast (List.cons_ne_nil _ _) :: (a :: m).dropLast.reverse := by
      conv => lhs; rw [← List.dropLast_concat_getLast (List.cons_ne_nil a m)]
      rw [List.reverse_append]
      rfl
    rw [e] at h
    obtain ⟨it', h1, h2, h3⟩ := run_front_cons (plain := plain) (checks := checks)
      (k := fun x => (k x).rev) h
    rw [rev, h3, Ideal, List.getLast?_eq_some_getLast (List.cons_ne_nil a m)]
    rw [Forward, List.getLast?_eq_some_getLast (List.cons_ne_nil a m)] at hc
    exact run_rev plain checks _ it' _ true h1 (fun e => nomatch e) hc
  | .nth n k, it, m, taken, h, hp, hc => by
    obtain ⟨it', h1, h2, h3⟩ := run_nthBack (plain := plain) (checks := checks)
      (k := fun x => (k x).rev) n m it h
    rw [rev, h3]
    exact run_rev plain checks (k m[n]?) it' (m.drop (n + 1)) taken h1 (fun e => h2.trans (hp e)) hc
  | .hint k, it, m, taken, h, hp, hc => by
    rw [rev, run_hint_zero h (hp hc.1), List.length_reverse]
    exact run_rev plain checks (k m.length) it m taken h hp hc.2

/-! ## The consumers and adapters of std do what they should on an iterator that does -/

theorem ideal_nthBack {k : Option α → Uses α β} : ∀ (n : Nat) (m : List α),
    Ideal (nthBack n k) m.reverse = Ideal (k m[n]?) (m.drop (n + 1)).reverse
  | 0, [] => rfl
  | _ + 1, [] => rfl
  | 0, a :: m => by
    rw [nthBack, Ideal, List.reverse_cons, List.getLast?_concat, List.dropLast_concat]
    rfl
  | n + 1, a :: m => by
    rw [nthBack, Ideal, List.reverse_cons, List.getLast?_concat, List.dropLast_concat]
    exact ideal_nthBack n m

theorem ideal_rev : ∀ (u : Uses α β) (m : List α), Ideal u.rev m.reverse = Ideal u m
  | .done b, _ => rfl
  | .front k, [] => ideal_rev (k none) []
  | .front k, a :: m => by
    rw [rev, List.reverse_cons]
    show Ideal ((k (m.reverse ++ [a]).getLast?).rev) (m.reverse ++ [a]).dropLast = Ideal (k (some a)) m
    rw [List.getLast?_concat, List.dropLast_concat]
    exact ideal_rev (k (some a)) m
  | .back k, m => by
    rw [rev, Ideal, Ideal, List.head?_reverse, List.tail_reverse]
    exact ideal_rev (k m.getLast?) m.dropLast
  | .nth n k, m => by
    rw [rev, ideal_nthBack]
    exact ideal_rev (k m[n]?) (m.drop (n + 1))
  | .hint k, m => by
    rw [rev, Ideal, List.length_reverse]
    exact ideal_rev (k m.length) m

theorem ideal_skip : ∀ (u : Uses α β) (n : Nat) (l : List α), Ideal (u.skip n) l = Ideal u (l.drop n)
  | .done b, n, l => by rw [skip]; rfl
  | .front k, 0, l => by
    rw [skip, Ideal, ideal_skip (k l.head?) 0]
    rfl
  | .front k, n + 1, l => by
    rw [skip]
    show Ideal ((k l[n + 1]?).skip 0) (l.drop (n + 1 + 1)) = Ideal (k (l.drop (n + 1)).head?) (l.drop (n + 1)).tail
    rw [ideal_skip _ 0, List.head?_drop, List.tail_drop, List.drop_zero]
  | .back k, n, l => by
    rw [skip, Ideal, Ideal]
    split
    · next h =>
      rw [Ideal, ideal_skip]
      have hne : l.drop n ≠ [] := fun e => by
        have := congrArg List.length e
        rw [List.length_drop, List.length_nil] at this
        omega
      rw [List.getLast?_drop, if_neg (by omega), List.dropLast_eq_take, List.dropLast_eq_take,
        List.drop_take, List.length_drop]
      congr 2
      omega
    · next h =>
      have he : l.drop n = [] := List.drop_eq_nil_of_le (by omega)
      rw [ideal_skip, he]
      rfl
  | .nth m k, 0, l => by
    rw [skip, Ideal, ideal_skip _ 0]
    rfl
  | .nth m k, n + 1, l => by
    rw [skip]
    show Ideal ((k l[n + 1 + m]?).skip 0) (l.drop (n + 1 + m + 1)) =
      Ideal (k (l.drop (n + 1))[m]?) ((l.drop (n + 1)).drop (m + 1))
    rw [ideal_skip _ 0, List.getElem?_drop, List.drop_zero, List.drop_drop]
    congr 2
  | .hint k, n, l => by
    rw [skip, Ideal, Ideal, ideal_skip, List.length_drop]

theorem frontOnly_each : ∀ (fuel : Nat) (acc : List α), FrontOnly (each fuel acc)
  | 0, _ => trivial
  | _ + 1, _ => fun
    | none => trivial
    | some _ => frontOnly_each _ _

theorem frontOnly_pushAll (grant : Nat → Nat) : ∀ (fuel cap : Nat) (acc : List α),
    FrontOnly (pushAll grant fuel cap acc)
  | 0, _, _ => trivial
  | fuel + 1, cap, acc => fun
    | none => trivial
    | some a => by
      show FrontOnly (if acc.length = cap then _ else _)
      split
      · exact fun lower => frontOnly_pushAll grant fuel _ _
      · exact frontOnly_pushAll grant fuel _ _

theorem frontOnly_collect (least : Nat) (grant : Nat → Nat) (fuel : Nat) :
    FrontOnly (collect least grant fuel : Uses α (List α)) := fun
  | none => trivial
  | some _ => fun _ => frontOnly_pushAll ..

theorem frontOnly_skip : ∀ (u : Uses α β) (n : Nat), FrontOnly u → FrontOnly (u.skip n)
  | .done _, _, _ => by rw [skip]; trivial
  | .front k, 0, h => by rw [skip]; exact fun x => frontOnly_skip (k x) 0 (h x)
  | .front k, _ + 1, h => by rw [skip]; exact fun x => frontOnly_skip (k x) 0 (h x)
  | .back _, _, h => h.elim
  | .nth _ k, 0, h => by rw [skip]; exact fun x => frontOnly_skip (k x) 0 (h x)
  | .nth _ k, _ + 1, h => by rw [skip]; exact fun x => frontOnly_skip (k x) 0 (h x)
  | .hint k, n, h => by rw [skip]; exact fun x => frontOnly_skip (k (x - n)) n (h (x - n))

theorem frontOnly_stepBy (step : Nat) : ∀ (fuel : Nat) (first : Bool) (acc : List α),
    FrontOnly (stepBy step first fuel acc)
  | 0, _, _ => trivial
  | _ + 1, _, _ => fun
    | none => trivial
    | some _ => frontOnly_stepBy step _ _ _

theorem everyNth_nil (step : Nat) : everyNth step ([] : List α) = [] := rfl

theorem everyNth_filter {l : List α} {step : Nat} : ∀ m, m ≤ step →
    ((List.range m).map (1 + ·)).filterMap (fun i => if i % (step + 1) = 0 then l[i]? else none) = [] := by
  intro m hm
  rw [List.filterMap_eq_nil_iff]
  intro i hi
  obtain ⟨j, hj, rfl⟩ := List.mem_map.mp hi
  rw [List.mem_range] at hj
  rw [if_neg]
  rw [Nat.mod_eq_of_lt (by omega)]
  omega

theorem everyNth_cons (step : Nat) (a : α) (l : List α) :
    everyNth step (a :: l) = a :: everyNth step (l.drop step) := by
  unfold everyNth
  by_cases h : l.length ≤ step
  · rw [List.drop_eq_nil_of_le h, List.length_cons, Nat.add_comm l.length, List.range_add, List.filterMap_append,
      everyNth_filter _ h]
    rfl
  · have e : (a :: l).length = 1 + step + (l.length - step) := by rw [List.length_cons]; omega
    rw [e, List.range_add, List.range_add, List.filterMap_append, List.filterMap_append,
      everyNth_filter _ (Nat.le_refl _), List.append_nil, List.length_drop, List.filterMap_map]
    show [a] ++ _ = _
    rw [List.singleton_append]
    congr 2
    funext i
    simp only [Function.comp_def, List.getElem?_drop]
    rw [show 1 + step + i = step + 1 + i by omega, Nat.add_mod_left,
      show step + 1 + i = step + i + 1 by omega, List.getElem?_cons_succ]

theorem ideal_stepBy_rest (step : Nat) : ∀ (fuel : Nat) (acc l : List α), l.length < fuel + step →
    0 < fuel → Ideal (stepBy step false fuel acc) l = acc ++ everyNth step (l.drop step)
  | 0, _, _, _, h => nomatch h
  | fuel + 1, acc, l, hf, _ => by
    rw [stepBy, Ideal]
    simp only [Bool.false_eq_true, if_false]
    by_cases h : step < l.length
    · rw [List.getElem?_eq_getElem h, List.drop_eq_getElem_cons h]
      simp only
      rw [everyNth_cons]
      cases fuel with
      | zero =>
        have : (l.drop (step + 1)).drop step = [] := by
          rw [List.drop_drop]; exact List.drop_eq_nil_of_le (by omega)
        rw [this]
        rfl
      | succ fuel =>
        rw [ideal_stepBy_rest step (fuel + 1) _ _ (by rw [List.length_drop]; omega) (by omega),
          List.append_assoc]
        rfl
    · rw [List.getElem?_eq_none (by omega), List.drop_eq_nil_of_le (by omega : l.length ≤ step)]
      exact (List.append_nil acc).symm

theorem ideal_stepBy (step : Nat) (fuel : Nat) (l : List α) (hf : l.length < fuel) :
    Ideal (stepBy step true fuel []) l = everyNth step l := by
  cases fuel with
  | zero => cases hf
  | succ fuel =>
    rw [stepBy, Ideal]
    cases l with
    | nil => rfl
    | cons a l =>
      rw [everyNth_cons]
      rw [List.length_cons] at hf
      exact ideal_stepBy_rest step fuel [a] l (by omega) (by omega)

/-! ## What is wrong -/

theorem skip_each : ∀ (fuel : Nat) (acc : List α), (each fuel acc).skip 0 = each fuel acc
  | 0, _ => by rw [each, skip]
  | fuel + 1, acc => by
    rw [each, skip]
    congr 1
    funext x
    cases x with
    | none => simp only; rw [skip]
    | some a => exact skip_each fuel _

end Uses

namespace SizedIter

/-- `nth` where nothing has been taken. -/
theorem Represents.nth_fresh {it : SizedIter α} {l : List α} (hr : it.Represents l) (hp : it.pos = 0)
    (checks : Bool) {k : Nat} (h0 : 0 < k) (hk : k < l.length) :
    it.nth checks k = .ok (some l[k],
      ⟨(List.replicate (k - 1) none ++ it.buf.drop (k - 1)).set k none, k, it.len - k⟩) := by
  have hlen := hr.len
  have hb := hr.1
  obtain ⟨buf, pos, len⟩ := it
  cases hp
  simp only at hlen hb
  have h2 := hr.2
  simp only [List.drop_zero] at h2
  have hd : SizedIter.dropRange buf 0 (k - 1) = .ok (List.replicate (k - 1) none ++ buf.drop (k - 1)) := by
    unfold SizedIter.dropRange
    have : (buf.drop 0).take (k - 1 - 0) = (l.take (k - 1)).map some := by
      rw [List.map_take, ← h2, List.take_take, List.drop_zero, Nat.min_eq_left (by omega), Nat.sub_zero]
    rw [this, initAll_map_some]
    rfl
  unfold SizedIter.nth
  rw [if_neg (by simp only; omega)]
  simp only
  rw [if_neg (by omega), if_neg (by omega), Nat.zero_add, hd]
  simp only
  have hget : (List.replicate (k - 1) none ++ buf.drop (k - 1))[k]? = some (some l[k]) := by
    rw [List.getElem?_append_right (by simp)]
    simp only [List.length_replicate, List.getElem?_drop]
    have := hr.get k hk
    rw [← this]
    simp only
    congr 1
    omega
  unfold SizedIter.take
  rw [hget]
  rfl

/-- `nth` of plain data where nothing has been taken. -/
theorem Represents.nthCopy_fresh {it : SizedIter α} {l : List α} (hr : it.Represents l) (hp : it.pos = 0)
    (checks : Bool) {k : Nat} (h0 : 0 < k) (hk : k < l.length) :
    it.nthCopy checks k = .ok (some l[k], { buf := it.buf, pos := k, len := it.len - k }) := by
  have hlen := hr.len
  have hb := hr.1
  obtain ⟨buf, pos, len⟩ := it
  cases hp
  simp only at hlen hb
  have h2 := hr.2
  simp only [List.drop_zero] at h2
  have hi : initAll ((buf.drop 0).take (k - 1 - 0)) = some (l.take (k - 1)) := by
    have : (buf.drop 0).take (k - 1 - 0) = (l.take (k - 1)).map some := by
      rw [List.map_take, ← h2, List.take_take, List.drop_zero, Nat.min_eq_left (by omega), Nat.sub_zero]
    rw [this, initAll_map_some]
  have hget : buf[k]? = some (some l[k]) := by
    have := hr.get k hk
    rw [← this]
    simp only
    congr 1
    omega
  unfold SizedIter.nthCopy
  rw [if_neg (by simp only; omega)]
  simp only
  rw [if_neg (by omega), if_neg (by omega), Nat.zero_add, hi]
  simp only
  unfold SizedIter.peek
  rw [hget]
  rfl

theorem Represents.drop {it : SizedIter α} {l : List α} (hr : it.Represents l) (hp : it.pos = 0) {k : Nat}
    (hk : k ≤ l.length) : SizedIter.Represents { buf := it.buf, pos := k, len := it.len - k } (l.drop k) := by
  have hlen := hr.len
  have hb := hr.1
  refine represents_of_get (by simp only; rw [List.length_drop]; omega) (by simp only; omega) fun i hi => ?_
  rw [List.length_drop] at hi
  have := hr.get (k + i) (by omega)
  rw [hp, Nat.zero_add] at this
  rw [this, List.getElem_drop]

end SizedIter

namespace Uses

/-- `for item in iter.skip(n)` over plain data. -/
theorem run_skip_plain {checks : Bool} {it : SizedIter α} {l : List α} (hr : it.Represents l) (hp : it.pos = 0)
    {n fuel : Nat} (h0 : 0 < n) (hn : n < l.length) (hf : l.length < fuel) :
    run true checks ((each (fuel + 1) []).skip n) it = .ok (l[n] :: l.drop n) := by
  obtain ⟨n, rfl⟩ : ∃ m, n = m + 1 := ⟨n - 1, by omega⟩
  rw [each, skip, run, if_pos rfl, hr.nthCopy_fresh hp checks h0 hn]
  show run true checks ((each fuel ([] ++ [l[n + 1]])).skip 0) _ = _
  rw [skip_each, run_each (hr.drop hp (Nat.le_of_lt hn)) (by rw [List.length_drop]; omega)]
  rfl

/-- `for item in iter.skip(n)` over items that own something. -/
theorem run_skip_moved {checks : Bool} {it : SizedIter α} {l : List α} (hr : it.Represents l) (hp : it.pos = 0)
    {n fuel : Nat} (h0 : 0 < n) (hn : n < l.length) :
    run false checks ((each (fuel + 2) []).skip n) it = .ub .uninitRead := by
  obtain ⟨n, rfl⟩ : ∃ m, n = m + 1 := ⟨n - 1, by omega⟩
  have hlen := hr.len
  have hb := hr.1
  rw [each, skip, run, if_neg Bool.false_ne_true, hr.nth_fresh hp checks h0 hn]
  show run false checks ((each (fuel + 1) ([] ++ [l[n + 1]])).skip 0) _ = _
  rw [skip_each, each, run, if_neg Bool.false_ne_true]
  have : (SizedIter.next
      ⟨(List.replicate (n + 1 - 1) none ++ it.buf.drop (n + 1 - 1)).set (n + 1) none, n + 1, it.len - (n + 1)⟩ : Res Empty (Option α × SizedIter α)) = .ub .uninitRead := by
    unfold SizedIter.next
    rw [if_neg (by simp only; omega)]
    simp only
    unfold SizedIter.take
    rw [List.getElem?_set_self (by
      rw [List.length_append, List.length_replicate, List.length_drop]; omega)]
    rfl
  rw [this]
  rfl

/-- `for item in iter.step_by(step + 1)`. -/
theorem run_stepBy {plain checks : Bool} {it : SizedIter α} (hp : it.pos = 0) (step fuel : Nat) :
    run plain checks (stepBy step true (fuel + 1) []) it =
      if checks then .panic .arithmeticOverflow else .ub .outOfBounds := by
  rw [stepBy, run]
  have h1 : it.nthCopy checks 0 = if checks then .panic .arithmeticOverflow else .ub .outOfBounds := by
    unfold SizedIter.nthCopy
    rw [if_neg (Nat.not_lt_zero _)]
    simp only
    rw [if_pos (by omega)]
  have h2 : it.nth checks 0 = if checks then .panic .arithmeticOverflow else .ub .outOfBounds := by
    unfold SizedIter.nth
    rw [if_neg (Nat.not_lt_zero _)]
    simp only
    rw [if_pos (by omega)]
  rw [if_pos rfl, h1, h2]
  cases plain <;> cases checks <;> rfl

end Uses
end Oct
