import Verif.Proofs.Source
/-
C139: collecting sized slices and sized strings from any iterator.
-/
namespace Oct.Props
open Oct Spec
variable {σ α : Type}

/-- C139 (part). Collecting a sized slice ends, whatever the iterator is, after at most `N` calls of `next`:
all items that these gave are kept, in their order, and the iterator is left as it is after them. It ends
early only if the iterator gives nothing, or panics, and does not ask again then. -/
theorem C139_slice (next : Source σ α) (n : Nat) (s : σ) :
    ∃ l s1, Gave next s l s1 ∧ l.length ≤ n ∧
      ((l.length = n ∧ ∃ x : SizedSlice α, SizedSlice.fromSource next n s = (.ok x, s1) ∧ x.capacity = n ∧
          (x.asSlice : Res Empty _) = .ok l) ∨
        (l.length < n ∧ ∃ s2, next s1 = (.ok none, s2) ∧ ∃ x : SizedSlice α,
          SizedSlice.fromSource next n s = (.ok x, s2) ∧ x.capacity = n ∧ (x.asSlice : Res Empty _) = .ok l) ∨
        (l.length < n ∧ ∃ s2 p, next s1 = (.panic p, s2) ∧ SizedSlice.fromSource next n s = (.panic p, s2)) ∨
        (l.length < n ∧ ∃ s2 u, next s1 = (.ub u, s2) ∧ SizedSlice.fromSource next n s = (.ub u, s2))) := by
  obtain ⟨l, s1, h1, h2, h3⟩ := gave_upTo next n s
  refine ⟨l, s1, h1, h2, ?_⟩
  by_cases hl : l.length = n
  · subst hl
    obtain ⟨h4, h5⟩ := SizedSlice.holds_full l
    exact .inl ⟨rfl, _, SizedSlice.fromSource_full h1, h5, h4⟩
  · have hl : l.length < n := by omega
    obtain ⟨h4, h5, h6⟩ := SizedSlice.fromSource_ends h1 hl
    obtain ⟨h7, h8⟩ := SizedSlice.holds_items l (n - l.length)
    cases hs : next s1 with
    | mk r s2 =>
      cases r with
      | ok x =>
        cases x with
        | none => exact .inr (.inl ⟨hl, s2, rfl, _, h4 s2 hs, by rw [h8]; omega, h7⟩)
        | some a => exact absurd hs (h3 hl a s2)
      | err e => exact e.elim
      | panic p => exact .inr (.inr (.inl ⟨hl, s2, p, rfl, h5 p s2 hs⟩))
      | ub u => exact .inr (.inr (.inr ⟨hl, s2, u, rfl, h6 u s2 hs⟩))

/-- C139 (part). Collecting a sized string ends, whatever the iterator is: the chars that it gave and that fit
are kept, at most `N` of them. It ends when the iterator gives nothing or panics, or with the first char that
does not fit. Missing: that char is lost, see `C139_false_text`. -/
theorem C139_text_partial (next : Source σ Char) (n : Nat) (s : σ) :
    ∃ l s1, Gave next s l s1 ∧ l.length ≤ n ∧ (utf8 l).length ≤ n ∧
      ((∃ s2, (next s1 = (.ok none, s2) ∨ ∃ c, next s1 = (.ok (some c), s2) ∧ n < (utf8 (l ++ [c])).length) ∧
          ∃ x : SizedStr, SizedStr.fromSource next n s = (.ok x, s2) ∧ x.capacity = n ∧
            (x.asBytes : Res Empty _) = .ok (utf8 l)) ∨
        (∃ s2 p, next s1 = (.panic p, s2) ∧ SizedStr.fromSource next n s = (.panic p, s2)) ∨
        (∃ s2 u, next s1 = (.ub u, s2) ∧ SizedStr.fromSource next n s = (.ub u, s2))) := by
  obtain ⟨l, s1, h1, h2, h3⟩ := SizedStr.gave_fitting next n s
  refine ⟨l, s1, h1, Nat.le_trans (SizedStr.utf8_length_ge l) h2, h2, ?_⟩
  obtain ⟨h4, h5, h6⟩ := SizedStr.fromSource_ends h1 h2
  cases hs : next s1 with
  | mk r s2 =>
    cases r with
    | ok x =>
      cases x with
      | none =>
        obtain ⟨x, h7, h8, h9, -⟩ := h4 s2 (.inl hs)
        exact .inl ⟨s2, .inl rfl, x, h7, h8, h9⟩
      | some c =>
        obtain ⟨x, h7, h8, h9, -⟩ := h4 s2 (.inr ⟨c, hs, h3 c s2 hs⟩)
        exact .inl ⟨s2, .inr ⟨c, rfl, h3 c s2 hs⟩, x, h7, h8, h9⟩
    | err e => exact e.elim
    | panic p => exact .inr (.inl ⟨s2, p, rfl, h5 p s2 hs⟩)
    | ub u => exact .inr (.inr ⟨s2, u, rfl, h6 u s2 hs⟩)

/-- C139 (part). So an iterator can be collected into sized slices, one after the other, until one is empty:
together they have all its items, and all but the last are full. -/
theorem C139_parts (next : Source σ α) (n : Nat) (hn : 0 < n) (s s1 : σ) (l : List α) (h : Gave next s l s1)
    (he : next s1 = (.ok none, s1)) (fuel : Nat) (hf : l.length < fuel) :
    ∃ (xs : List (SizedSlice α)) (ls : List (List α)), SizedSlice.parts next n fuel s = (.ok xs, s1) ∧
      xs.map (fun x => (x.asSlice : Res Empty _)) = ls.map .ok ∧ ls.flatten = l ∧
      (∀ m ∈ ls, 0 < m.length ∧ m.length ≤ n) ∧ ∀ m ∈ ls.dropLast, m.length = n :=
  SizedSlice.parts_spec hn he fuel l s hf h

/-- C139 is false of sized strings: where collecting stops for lack of room, the iterator has given one char
more than the string holds. -/
theorem C139_false_text (next : Source σ Char) (n : Nat) (s s1 : σ) (l : List Char) (c : Char)
    (h : Gave next s (l ++ [c]) s1) (hl : (utf8 l).length ≤ n) (hc : n < (utf8 (l ++ [c])).length) :
    ∃ x : SizedStr, SizedStr.fromSource next n s = (.ok x, s1) ∧ (x.asBytes : Res Empty _) = .ok (utf8 l) := by
  obtain ⟨s2, h1, h2⟩ := h.split
  cases h2 with
  | cons h3 h4 =>
    cases h4
    obtain ⟨x, h5, -, h6, -⟩ := (SizedStr.fromSource_ends h1 hl).1 s1 (.inr ⟨c, h3, hc⟩)
    exact ⟨x, h5, h6⟩

/-- C139 (part). For iterators that give a list of items and end, this is what C27 and C30 are about. -/
theorem C139_finite (n : Nat) :
    (∀ l : List α, ∃ x : SizedSlice α, SizedSlice.fromSource listSource n l = (.ok x, l.drop n) ∧
      (x.asSlice : Res Empty _) = (SizedSlice.fromIter n l).asSlice) ∧
    (∀ l : List Char, ∃ x k, SizedStr.fromSource listSource n l = (.ok x, l.drop (k + 1)) ∧
      (x.asBytes : Res Empty _) = .ok (utf8 (l.take k)) ∧ (utf8 (l.take k)).length ≤ n ∧
      (k < l.length → n < (utf8 (l.take (k + 1))).length)) := by
  constructor
  · intro l
    obtain ⟨f1, f2, f3⟩ := SizedSlice.fillFrom_spec (SizedSlice.uninit n) l
    have hu : (SizedSlice.uninit n : List (MaybeUninit α)).length = n := List.length_replicate
    rw [hu] at f1 f2 f3
    have hi : ((SizedSlice.fromIter n l).asSlice : Res Empty _) = .ok (l.take n) := by
      refine SizedSlice.asSlice_ok.mpr ⟨?_, f3⟩
      show (SizedSlice.fillFrom (SizedSlice.uninit n) l).2 ≤ (SizedSlice.fillFrom (SizedSlice.uninit n) l).1.length
      rw [f1, f2]; omega
    have hg := gave_list (l.take n) (l.drop n)
    rw [List.take_append_drop] at hg
    rw [hi]
    by_cases hl : l.length < n
    · have hd : l.drop n = [] := List.drop_eq_nil_of_le (Nat.le_of_lt hl)
      have ht : l.take n = l := List.take_of_length_le (Nat.le_of_lt hl)
      rw [hd, ht] at hg
      rw [hd, ht]
      exact ⟨_, (SizedSlice.fromSource_ends hg hl).1 [] rfl, (SizedSlice.holds_items l _).1⟩
    · have hlen : (l.take n).length = n := by rw [List.length_take]; omega
      have := SizedSlice.fromSource_full hg
      rw [hlen] at this
      have h2 := (SizedSlice.holds_full (l.take n)).1
      rw [hlen] at h2
      exact ⟨_, this, h2⟩
  · intro l
    obtain ⟨m, s1, h1, h2, h3⟩ := SizedStr.gave_fitting listSource n l
    have key : ∀ {l m s1 : List Char}, Gave listSource l m s1 → l = m ++ s1 := by
      intro l m s1 h
      induction h with
      | nil s => rfl
      | @cons s s1 s2 a l h _ ih =>
        cases s with
        | nil => cases h
        | cons b s => cases h; rw [List.cons_append, ← ih]
    have hl := key h1
    subst hl
    have ht : (m ++ s1).take m.length = m := List.take_left
    cases s1 with
    | nil =>
      obtain ⟨x, h7, -, h9, -⟩ := (SizedStr.fromSource_ends h1 h2).1 [] (.inl rfl)
      refine ⟨x, m.length, ?_, by rw [ht]; exact h9, by rw [ht]; exact h2, fun h => ?_⟩
      · rw [h7, List.append_nil, List.drop_eq_nil_of_le (Nat.le_succ _)]
      · rw [List.append_nil] at h; exact absurd h (Nat.lt_irrefl _)
    | cons c s1 =>
      have hc := h3 c s1 rfl
      obtain ⟨x, h7, -, h9, -⟩ := (SizedStr.fromSource_ends h1 h2).1 s1 (.inr ⟨c, rfl, hc⟩)
      refine ⟨x, m.length, ?_, by rw [ht]; exact h9, by rw [ht]; exact h2, fun _ => ?_⟩
      · rw [h7]
        congr 1
        rw [show m ++ c :: s1 = (m ++ [c]) ++ s1 by simp, List.drop_left' (by simp)]
      · rw [show m ++ c :: s1 = (m ++ [c]) ++ s1 by simp, List.take_left' (by simp)]
        exact hc

/-- C139 (part). A sized slice made of the items of another one, by way of its iterator, has as many of them as
fit, and the others are left in the iterator. -/
theorem C139_between (s : SizedSlice α) (l : List α) (h : (s.asSlice : Res Empty _) = .ok l) (n : Nat) :
    ∃ (x : SizedSlice α) (it : SizedIter α), SizedSlice.fromSource SizedIter.source n s.intoIter = (.ok x, it) ∧
      x.capacity = n ∧ (x.asSlice : Res Empty _) = .ok (l.take n) ∧ it.asSlice = .ok (l.drop n) := by
  have key : ∀ (n : Nat) (l : List α) (it : SizedIter α), it.Represents l → n ≤ l.length →
      ∃ it', Gave SizedIter.source it (l.take n) it' ∧ it'.Represents (l.drop n) := by
    intro n
    induction n with
    | zero => exact fun l it hr _ => ⟨it, .nil it, hr⟩
    | succ n ih =>
      intro l it hr hn
      cases l with
      | nil => cases hn
      | cons a l =>
        obtain ⟨h1, h2⟩ := hr.next_cons
        obtain ⟨it', h3, h4⟩ := ih l _ h2 (Nat.le_of_succ_le_succ hn)
        refine ⟨it', .cons ?_ h3, h4⟩
        unfold SizedIter.source
        rw [h1]
  have hr := SizedIter.represents_intoIter h
  by_cases hl : l.length < n
  · obtain ⟨it', h1, h2⟩ := key l.length l _ hr (Nat.le_refl _)
    rw [List.take_length] at h1
    rw [List.drop_length] at h2
    have he : SizedIter.source it' = (.ok none, it') := by
      unfold SizedIter.source
      rw [h2.next_nil]
    obtain ⟨h7, h8⟩ := SizedSlice.holds_items l (n - l.length)
    rw [List.take_of_length_le (Nat.le_of_lt hl), List.drop_eq_nil_of_le (Nat.le_of_lt hl)]
    exact ⟨_, it', (SizedSlice.fromSource_ends h1 hl).1 it' he, by rw [h8]; omega, h7, h2.asSlice⟩
  · obtain ⟨it', h1, h2⟩ := key n l _ hr (by omega)
    have hlen : (l.take n).length = n := by rw [List.length_take]; omega
    have h3 := SizedSlice.fromSource_full h1
    obtain ⟨h4, h5⟩ := SizedSlice.holds_full (l.take n)
    rw [hlen] at h3 h4 h5
    exact ⟨_, it', h3, h5, h4, h2.asSlice⟩

/-- `std::iter::repeat(7)`, which never ends, and an iterator that panics at the third call. -/
example : SizedSlice.fromSource (fun _ : Unit => (.ok (some 7), ())) 3 () = (.ok ⟨[some 7, some 7, some 7], 3⟩, ()) ∧
    SizedSlice.fromSource (fun k : Nat => (if k < 2 then .ok (some k) else .panic .assertion, k + 1)) 3 0
      = (.panic .assertion, 3) := ⟨rfl, rfl⟩

/-- Seven items in sized slices of three. -/
example : SizedSlice.parts listSource 3 9 [1, 2, 3, 4, 5, 6, 7]
    = (.ok [⟨[some 1, some 2, some 3], 3⟩, ⟨[some 4, some 5, some 6], 3⟩, ⟨[some 7, none, none], 1⟩], []) := rfl

/-- `"abcdef"` in sized strings of two octets: `c` and `f` are lost. -/
example : SizedStr.parts listSource 2 9 ['a', 'b', 'c', 'd', 'e', 'f']
    = (.ok [⟨⟨[some 97, some 98], 2⟩⟩, ⟨⟨[some 100, some 101], 2⟩⟩], []) := by decide +kernel

example : Gave listSource ['a', 'b', 'c', 'd'] (['a', 'b'] ++ ['c']) ['d'] ∧
    (utf8 ['a', 'b']).length ≤ 2 ∧ 2 < (utf8 (['a', 'b'] ++ ['c'])).length :=
  ⟨.cons rfl (.cons rfl (.cons rfl (.nil _))), by decide, by decide⟩

end Oct.Props
