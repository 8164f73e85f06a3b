import Verif.Proofs.IterBorrowsEnded
/-
C153: programs that own an iterator of a sized slice and compile have no undefined behaviour by aliasing.
-/
namespace Oct.Props
open Spec Alias

/-- C153: under Stacked Borrows, a program that owns an iterator, calls its methods and uses what they return has no
undefined behaviour if it compiles and does not call `nth` as in C25. -/
theorem C153_stacked (p : Place) (n : Nat) (hn : n ≤ p.cap) (cs : List IterCall) (hc : IterChecked p.cap n [] cs) :
    Defined Stacked p (iterEvents p (Cursor.new n) cs) := stackedGlance.iter_defined n hn cs hc

example : IterChecked 8 5 [] [.asSlice, .sizeHint, .get 0 4, .clone, .get 0 0, .next, .nth 2, .asMutSlice, .set 1 1,
    .get 1 0, .nextBack, .next, .next, .nextBack] :=
  ⟨trivial, trivial, ⟨_, rfl, rfl, by decide⟩, trivial, ⟨_, rfl, rfl, by decide⟩, trivial, ⟨by decide, fun _ => by decide⟩,
    trivial, ⟨_, rfl, rfl, rfl, by decide⟩, ⟨_, rfl, rfl, by decide⟩, trivial, trivial, trivial, trivial, trivial⟩

/-- C153: likewise under Tree Borrows. -/
theorem C153_tree (p : Place) (n : Nat) (hn : n ≤ p.cap) (cs : List IterCall) (hc : IterChecked p.cap n [] cs) :
    Defined Tree p (iterEvents p (Cursor.new n) cs) := treeGlance.iter_defined n hn cs hc

example : IterChecked 3 2 [] [.nth 9, .asMutSlice, .set 0 1, .asSlice, .asSlice, .get 1 0, .get 2 1, .nth 1, .clone] :=
  ⟨⟨by decide, fun h => absurd h (by decide)⟩, trivial, ⟨_, rfl, rfl, rfl, by decide⟩, trivial, trivial,
    ⟨_, rfl, rfl, by decide⟩, ⟨_, rfl, rfl, by decide⟩, ⟨by decide, fun _ => by decide⟩, trivial, trivial⟩

/-- C153: what calls read and write is what they should: position and length, `next`, `next_back` and `nth` the item that
they return, `clone` the items that are left; and `nth` writes what it destroys. -/
theorem C153_touched (p : Place) (o : Cursor) (c : IterCall) (hset : ∀ h i, c ≠ .set h i) (l : Nat) :
    ((∀ h i, c ≠ .get h i) → (ReadAt (c.go p o).2 l ↔ IterReads p o.pos o.len c l)) ∧
    (WrittenAt (c.go p o).2 l ↔ IterWrites p o.pos o.len c l) :=
  ⟨fun hget => iter_read p o c hget hset l, iter_written p o c hset l⟩

example : WrittenAt (IterCall.go ⟨0, 8⟩ (Cursor.new 6) (.nth 3)).2 1 ∧
    ¬ WrittenAt (IterCall.go ⟨0, 8⟩ (Cursor.new 6) (.nth 3)).2 2 ∧
    ReadAt (IterCall.go ⟨0, 8⟩ (Cursor.new 6) (.nth 3)).2 3 :=
  ⟨((C153_touched ⟨0, 8⟩ (Cursor.new 6) (.nth 3) (fun _ _ h => nomatch h) 1).2).mpr
      ⟨by decide, .inr ⟨by decide, by decide⟩⟩,
    fun h => by
      rcases (((C153_touched ⟨0, 8⟩ (Cursor.new 6) (.nth 3) (fun _ _ h => nomatch h) 2).2).mp h).2 with h | h
      · cases h
      · exact absurd h.2 (by decide),
    ((C153_touched ⟨0, 8⟩ (Cursor.new 6) (.nth 3) (fun _ _ h => nomatch h) 3).1 (fun _ _ h => nomatch h)).mpr
      (.inr ⟨by decide, rfl⟩)⟩

/-- C153: under Stacked Borrows, after any such program and any call by `&mut self`, to look by what was returned before is
undefined; even if the call returns nothing. -/
theorem C153_ended (p : Place) (n : Nat) (hn : n ≤ p.cap) (cs : List IterCall) (hc : IterChecked p.cap n [] cs)
    (c : IterCall) (hm : IterByMut c) (k : Nat) (x : Held) (i j : Nat)
    (hx : (iterAfter p (Cursor.new n) cs).held[k]? = some x) (hj : j < p.cap) (same : x.r.lo + i = p.at_ + j) :
    ¬ Defined Stacked p (iterEvents p (Cursor.new n) (cs ++ [c, .get k i])) := by
  refine stackedGlance.stuck hn hc hj fun s _ hw ht => ?_
  have hmem := List.mem_of_getElem? hx
  obtain ⟨hi, es, he⟩ := iter_taking (p := p) (l := p.at_ + j) (o := iterAfter p (Cursor.new n) cs) hm
  rw [iter_then_get p _ c (iter_taking_held hm hx), he, same]
  rw [he] at hi
  exact stack_taken hw (buf_whole (buf_at hj)) hi (ht x hmem).2 (by have := (ht x hmem).1; omega) []

example : IterChecked 2 1 [] [.asSlice] ∧ IterByMut .next ∧
    (iterAfter ⟨0, 2⟩ (Cursor.new 1) [.asSlice]).held[0]? = some ⟨5, ⟨0, 1⟩⟩ := ⟨⟨trivial, trivial⟩, trivial, rfl⟩

/-- C153: what `nth` destroyed may not be looked at afterwards by what was returned before, under both. -/
theorem C153_written (p : Place) (n : Nat) (hn : n ≤ p.cap) (cs : List IterCall) (hc : IterChecked p.cap n [] cs)
    (q : Nat) (k : Nat) (x : Held) (i j : Nat) (hx : (iterAfter p (Cursor.new n) cs).held[k]? = some x) (hj : j < p.cap)
    (same : x.r.lo + i = p.at_ + j) (hw : q ≤ (iterAfter p (Cursor.new n) cs).len)
    (hlo : (iterAfter p (Cursor.new n) cs).pos ≤ j) (hhi : j + 1 < (iterAfter p (Cursor.new n) cs).pos + q) :
    ¬ Defined Stacked p (iterEvents p (Cursor.new n) (cs ++ [.nth q, .get k i])) ∧
      ¬ Defined Tree p (iterEvents p (Cursor.new n) (cs ++ [.nth q, .get k i])) := by
  refine ⟨C153_ended p n hn cs hc (.nth q) trivial k x i j hx hj same, treeGlance.stuck hn hc hj fun s hs hs' ht => ?_⟩
  have hmem := List.mem_of_getElem? hx
  obtain ⟨hi, _⟩ := iter_taking (p := p) (l := p.at_ + j) (o := iterAfter p (Cursor.new n) cs) (c := .nth q) trivial
  rw [iter_then_get p _ (.nth q) (iter_taking_held (c := .nth q) trivial hx), same]
  refine tree_written hs' (Rooted.run _ (fun m hm => by rcases List.mem_singleton.mp hm with rfl; exact .head _) hs) hi
    ((iter_written p _ (.nth q) (fun _ _ h => nomatch h) _).mpr ⟨hw, .inr ⟨by omega, by omega⟩⟩) (ht x hmem).2
    (by have := (ht x hmem).1; omega) []

example : IterChecked 4 3 [] [.asSlice] ∧ (iterAfter ⟨0, 4⟩ (Cursor.new 3) [.asSlice]).held[0]? = some ⟨5, ⟨0, 3⟩⟩ ∧
    3 ≤ (iterAfter ⟨0, 4⟩ (Cursor.new 3) [.asSlice]).len ∧ 1 + 1 < (iterAfter ⟨0, 4⟩ (Cursor.new 3) [.asSlice]).pos + 3 :=
  ⟨⟨trivial, trivial⟩, rfl, by decide, by decide⟩

/-- C153: position and length are those of the iterator of C25, of which a `nth` that returns is one that is permitted
here. -/
theorem C153_agrees {α : Type} (p : Place) (o : Cursor) (loans : List Loan) (it it' : SizedIter α) (x : Option α)
    (hb : it.buf.length = p.cap) (hpos : it.pos = o.pos) (hlen : it.len = o.len) :
    (it.next = .ok (x, it') → it'.pos = (IterCall.go p o .next).1.pos ∧ it'.len = (IterCall.go p o .next).1.len) ∧
    (it.nextBack = .ok (x, it') →
      it'.pos = (IterCall.go p o .nextBack).1.pos ∧ it'.len = (IterCall.go p o .nextBack).1.len) ∧
    (∀ checks i, it.nth checks i = .ok (x, it') → IterPermits p.cap o.len loans (.nth i) ∧
      it'.pos = (IterCall.go p o (.nth i)).1.pos ∧ it'.len = (IterCall.go p o (.nth i)).1.len) := by
  refine ⟨fun h => ?_, fun h => ?_, fun checks i h => ?_⟩
  · obtain ⟨h1, h2⟩ := iter_next_agrees h
    rw [hpos, hlen] at h1
    rw [hlen] at h2
    exact ⟨h1, h2⟩
  · obtain ⟨h1, h2⟩ := iter_back_agrees h
    rw [hpos] at h1
    rw [hlen] at h2
    exact ⟨h1, h2⟩
  · obtain ⟨h1, h2, h3, h4⟩ := iter_nth_agrees h
    rw [hpos, hlen] at h1
    rw [hlen] at h2 h4
    rw [hb] at h4
    refine ⟨⟨h3, h4⟩, ?_⟩
    by_cases hz : i > o.len
    · rw [nth_go_none hz]
      rw [if_pos hz] at h1 h2
      exact ⟨h1, h2⟩
    · rw [nth_go_some hz]
      rw [if_neg hz] at h1 h2
      exact ⟨h1, h2⟩

example : (SizedIter.nth true ⟨[some 1, some 2, some 3, none], 0, 3⟩ 2 : Res Empty (Option Nat × SizedIter Nat)) =
    .ok (some 3, ⟨[none, some 2, none, none], 2, 1⟩) := rfl

end Oct.Props
