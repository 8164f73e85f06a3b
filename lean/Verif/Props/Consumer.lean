import Verif.Proofs.Consumer
/-
C138: programs that use the iterator of a sized slice, by themselves or through what std makes of iterators.
-/
namespace Oct.Props
open Oct Spec
variable {α β : Type}

/-- C138 (part). Any program that, in the course of its use of the iterator of a sized slice, never calls
`nth` and asks for the number of items only before it has taken one from the front, ends with the value that
the documentation of iterators promises, for plain data and for items that own something. Missing: all
others; see `C138_collect_exactly`, `C138_false_skip` and `C138_false_step`. -/
theorem C138_prudent_partial (plain checks : Bool) (s : SizedSlice α) (l : List α)
    (h : (s.asSlice : Res Empty (List α)) = .ok l) (u : Uses α β) (hu : Prudent u l false) :
    u.run plain checks s.intoIter = .ok (Ideal u l) :=
  Uses.run_prudent plain checks u s.intoIter l false (SizedIter.represents_intoIter h) (fun _ => rfl) hu

/-- C138 (part). Loops (`for`, `fold`, `for_each` and so on) and `extend` of std's other collections get all
items in their order. -/
theorem C138_loops (plain checks : Bool) (s : SizedSlice α) (l : List α)
    (h : (s.asSlice : Res Empty (List α)) = .ok l) (fuel : Nat) (hf : l.length < fuel) :
    (Uses.each fuel []).run plain checks s.intoIter = .ok l ∧
    (Uses.extend fuel).run plain checks s.intoIter = .ok l := by
  constructor
  · rw [C138_prudent_partial plain checks s l h _ (Uses.prudent_each ..), Uses.ideal_each _ _ _ hf]
    rfl
  · rw [C138_prudent_partial plain checks s l h (Uses.extend fuel) ⟨rfl, Uses.prudent_each ..⟩]
    exact congrArg _ (Uses.ideal_each fuel [] l hf)

/-- C138 (part). Whatever uses `rev()` of the iterator gets what it should from the items in reverse order,
unless it asks for the number of items after it has taken one from the back: `nth` is right there, and
`size_hint` as long as nothing is taken from the front of the iterator itself. -/
theorem C138_rev (plain checks : Bool) (s : SizedSlice α) (l : List α)
    (h : (s.asSlice : Res Empty (List α)) = .ok l) (u : Uses α β) (hu : Forward u l.reverse false) :
    u.rev.run plain checks s.intoIter = .ok (Ideal u l.reverse) :=
  Uses.run_rev plain checks u s.intoIter l.reverse false
    (by rw [List.reverse_reverse]; exact SizedIter.represents_intoIter h) (fun _ => rfl) hu

/-- C138 (part). What is written down of std is right: on an iterator that does as the documentation says,
collecting gives the items, `rev` reverses them, `skip` leaves out the first ones and `step_by` all but
every n-th. -/
theorem C138_std (l : List α) (fuel : Nat) (hf : l.length < fuel) :
    (∀ least grant, Ideal (Uses.collect least grant fuel) l = l) ∧
    (∀ u : Uses α β, Ideal u.rev l = Ideal u l.reverse) ∧
    (∀ (n : Nat) (u : Uses α β), Ideal (u.skip n) l = Ideal u (l.drop n)) ∧
    (∀ step, Ideal (Uses.stepBy step true fuel []) l = everyNth step l) := by
  refine ⟨fun least grant => ?_, fun u => ?_, fun n u => Uses.ideal_skip u n l,
    fun step => Uses.ideal_stepBy step fuel l hf⟩
  · cases l with
    | nil => rfl
    | cons a l =>
      show Ideal (Uses.pushAll grant fuel (grant (max least (l.length + 1))) [a]) l = _
      rw [Uses.ideal_pushAll grant fuel _ _ _ (by rw [List.length_cons] at hf; omega)]
      rfl
  · have := Uses.ideal_rev u l.reverse
    rwa [List.reverse_reverse] at this

/-- C138 (part). So `rev()` can be collected, skipped and stepped through, where the iterator itself
cannot. -/
theorem C138_rev_std (plain checks : Bool) (s : SizedSlice α) (l : List α)
    (h : (s.asSlice : Res Empty (List α)) = .ok l) (fuel : Nat) (hf : l.length < fuel) :
    (∀ least grant, (Uses.collect least grant fuel).rev.run plain checks s.intoIter = .ok l.reverse) ∧
    (∀ n, ((Uses.each fuel []).skip n).rev.run plain checks s.intoIter = .ok (l.reverse.drop n)) ∧
    (∀ n least grant, ((Uses.collect least grant fuel).skip n).rev.run plain checks s.intoIter
      = .ok (l.reverse.drop n)) ∧
    (∀ step, (Uses.stepBy step true fuel []).rev.run plain checks s.intoIter
      = .ok (everyNth step l.reverse)) := by
  have hl : ∀ n, (l.reverse.drop n).length < fuel := fun n => by
    rw [List.length_drop, List.length_reverse]; omega
  refine ⟨fun least grant => ?_, fun n => ?_, fun n least grant => ?_, fun step => ?_⟩
  · rw [C138_rev plain checks s l h _ (Uses.forward_frontOnly _ _ _ (Uses.frontOnly_collect least grant fuel) rfl),
      (C138_std (β := Unit) l.reverse fuel (hl 0)).1]
  · rw [C138_rev plain checks s l h _ (Uses.forward_frontOnly _ _ _ (Uses.frontOnly_skip _ n (Uses.frontOnly_each ..)) rfl), Uses.ideal_skip,
      Uses.ideal_each _ _ _ (hl n)]
    rfl
  · rw [C138_rev plain checks s l h _ (Uses.forward_frontOnly _ _ _ (Uses.frontOnly_skip _ n (Uses.frontOnly_collect least grant fuel)) rfl),
      Uses.ideal_skip,
      (C138_std (β := Unit) _ fuel (hl n)).1]
  · rw [C138_rev plain checks s l h _ (Uses.forward_frontOnly _ _ _ (Uses.frontOnly_stepBy ..) rfl), Uses.ideal_stepBy step fuel l.reverse (hl 0)]

/-- C138 (part). Collecting the iterator into a vector is undefined exactly if the slice holds one item, or
if the allocator grants no more than what is asked of it, one item less than there are, which is at least
`least` (four for most types of items); else it gives the items. -/
theorem C138_collect_exactly (plain checks : Bool) (s : SizedSlice α) (l : List α)
    (h : (s.asSlice : Res Empty (List α)) = .ok l) (least : Nat) (grant : Nat → Nat) (hg : ∀ n, n ≤ grant n)
    (fuel : Nat) (hf : l.length ≤ fuel) :
    (Uses.collect least grant fuel).run plain checks s.intoIter =
      if l.length = 1 ∨ grant (max least (l.length - 1)) < l.length then .ub .uncheckedSub else .ok l :=
  Uses.run_collect (SizedIter.represents_intoIter h) rfl hf hg

/-- C138 is false: with an allocator that grants what is asked, as that of std does, collecting is undefined
for one item and for all numbers of items above `least`. -/
theorem C138_false_collect (plain checks : Bool) (s : SizedSlice α) (l : List α)
    (h : (s.asSlice : Res Empty (List α)) = .ok l) (least : Nat) (fuel : Nat) (hf : l.length ≤ fuel) :
    (l.length = 1 ∨ (0 < l.length ∧ least < l.length) →
      (Uses.collect least id fuel).run plain checks s.intoIter = .ub .uncheckedSub) ∧
    (l.length = 0 ∨ (l.length ≠ 1 ∧ l.length ≤ least) →
      (Uses.collect least id fuel).run plain checks s.intoIter = .ok l) := by
  have hc := C138_collect_exactly plain checks s l h least id (fun n => Nat.le_refl n) fuel hf
  simp only [id] at hc
  constructor
  · intro hl
    rw [hc, if_pos]
    rcases hl with hl | hl
    · exact .inl hl
    · by_cases h1 : l.length = 1
      · exact .inl h1
      · exact .inr (by omega)
  · intro hl
    rw [hc, if_neg]
    omega

/-- C138 is false: `for item in iter.skip(n)` gives the first item that is not skipped twice if the items are
plain data, and is undefined if they are not. -/
theorem C138_false_skip (checks : Bool) (s : SizedSlice α) (l : List α)
    (h : (s.asSlice : Res Empty (List α)) = .ok l) (n : Nat) (h0 : 0 < n) (hn : n < l.length) (fuel : Nat)
    (hf : l.length < fuel) :
    ((Uses.each (fuel + 1) []).skip n).run true checks s.intoIter = .ok (l[n] :: l.drop n) ∧
    ((Uses.each (fuel + 1) []).skip n).run false checks s.intoIter = .ub .uninitRead ∧
    Ideal ((Uses.each (fuel + 1) []).skip n) l = l.drop n := by
  have hr := SizedIter.represents_intoIter h
  obtain ⟨fuel, rfl⟩ : ∃ m, fuel = m + 1 := ⟨fuel - 1, by omega⟩
  refine ⟨Uses.run_skip_plain hr rfl h0 hn hf, Uses.run_skip_moved hr rfl h0 hn, ?_⟩
  rw [Uses.ideal_skip, Uses.ideal_each _ _ _ (by rw [List.length_drop]; omega)]
  rfl

/-- C138 is false: `step_by` panics or is undefined as soon as its first item is asked for, even on an
iterator over nothing. -/
theorem C138_false_step (plain checks : Bool) (s : SizedSlice α) (step fuel : Nat) :
    (Uses.stepBy step true (fuel + 1) []).run plain checks s.intoIter =
      if checks then .panic .arithmeticOverflow else .ub .outOfBounds :=
  Uses.run_stepBy rfl step fuel

/-- A program that finds out how many items there are, takes one from the back, then one from the front. -/
def ends : Uses Nat (Nat × Option Nat × Option Nat) :=
  .hint fun n => .back fun x => .front fun y => .done (n, x, y)

/-- A program that takes one item from the back, then the second of the rest. -/
def ends' : Uses Nat (Option Nat × Option Nat) :=
  .back fun x => .nth 1 fun y => .done (y, x)

example : Prudent ends [10, 20, 30] false ∧ Ideal ends [10, 20, 30] = (3, some 30, some 10) ∧
    ∃ s : SizedSlice Nat, SizedSlice.new 4 [10, 20, 30] = .ok s ∧
      (s.asSlice : Res Empty (List Nat)) = .ok [10, 20, 30] ∧
      ends.run false true s.intoIter = .ok (3, some 30, some 10) :=
  ⟨⟨rfl, trivial⟩, rfl, _, rfl, rfl, rfl⟩

example : ∃ s : SizedSlice Nat, SizedSlice.new 4 [10, 20, 30, 40] = .ok s ∧
      ((Uses.each 6 []).skip 1).rev.run false true s.intoIter = .ok [30, 20, 10] ∧
      (Uses.stepBy 1 true 6 []).rev.run false true s.intoIter = .ok [40, 20] ∧
      (Uses.collect 4 id 6).run false true s.intoIter = .ok [10, 20, 30, 40] ∧
      (Uses.collect 1 id 6).run false true s.intoIter = .ub .uncheckedSub ∧
      (Uses.collect 4 (2 * ·) 6).run false true s.intoIter = .ok [10, 20, 30, 40] ∧
      ((Uses.each 6 []).skip 1).run true true s.intoIter = .ok [20, 20, 30, 40] ∧
      ((Uses.each 6 []).skip 1).run false true s.intoIter = .ub .uninitRead :=
  ⟨_, rfl, rfl, rfl, rfl, rfl, rfl, rfl, rfl⟩

/-- From both ends of `rev()`. -/
example : Forward ends' [30, 20, 10] false ∧ Ideal ends' [30, 20, 10] = (some 20, some 10) ∧
    ∃ s : SizedSlice Nat, SizedSlice.new 4 [10, 20, 30] = .ok s ∧
      (s.asSlice : Res Empty (List Nat)) = .ok [10, 20, 30] ∧
      ends'.rev.run false true s.intoIter = .ok (some 20, some 10) :=
  ⟨trivial, rfl, _, rfl, rfl, rfl⟩

example : everyNth 1 [10, 20, 30, 40, 50] = [10, 30, 50] := rfl

end Oct.Props
