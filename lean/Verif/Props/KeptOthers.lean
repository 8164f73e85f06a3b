import Verif.Proofs.KeptOthers
import Verif.Props.StackKept
/-
C157 and C158 for the other references that are shared, and pointers made of such.
-/
namespace Oct.Props
open Spec Alias

/-- C157: under Tree Borrows, what `as_ptr` of slots returned may be looked at exactly until
something is written there. -/
theorem C157_slot_ptr (p : Place) (d n : Nat) (cs ds : List SlotCall) (i : Nat) (hi : i < p.cap)
    (h : Defined Tree p (slotEvents p d (Owner.new n) (cs ++ .asPtr :: ds))) :
    Defined Tree p (slotEvents p d (Owner.new n)
      (cs ++ .asPtr :: (ds ++ [.get (slotAfter p d (Owner.new n) cs).held.length i]))) ↔
    ¬ WrittenAt (slotEvents p d (slotAfter p d (Owner.new n) (cs ++ [.asPtr])) ds) (p.at_ + i) := by
  simp only [← slot_after, ← slot_events, Device.after_append] at *
  exact ((slotDevice p d).both (o := Owner.new n) (cs := cs) (ds := ds) (c := .asPtr) (pre := [_, _, _]) (post := [])
    (r := p.buf) (r' := p.buf) rfl rfl (.retag (.read (.retag .nil))) .nil
    (by show (_ ++ [_])[_]? = _; simp; rfl) (by rw [has_iff]; exact ⟨Nat.le_add_right _ _, Nat.add_lt_add_left hi _⟩)
    (Calmly.nil.unclaimed _)).1 h

example : Defined Tree ⟨0, 2⟩ (slotEvents ⟨0, 2⟩ 3 (Owner.new 1) ([.len] ++ .asPtr :: [.copyFromSlice 1])) :=
  C151_tree _ _ (by show 0 + 2 < 3; omega) _ (by decide) _ ⟨trivial, trivial, (by decide : 1 ≤ 2), trivial⟩

/-- C158: under Stacked Borrows, what `as_ptr` of slots returned may be looked at exactly until
something there is written, or a `&mut` to it is made. -/
theorem C158_slot_ptr (p : Place) (d n : Nat) (cs ds : List SlotCall) (i : Nat) (hi : i < p.cap)
    (h : Defined Stacked p (slotEvents p d (Owner.new n) (cs ++ .asPtr :: ds))) :
    Defined Stacked p (slotEvents p d (Owner.new n)
      (cs ++ .asPtr :: (ds ++ [.get (slotAfter p d (Owner.new n) cs).held.length i]))) ↔
    ¬ ClaimedAt (slotEvents p d (slotAfter p d (Owner.new n) (cs ++ [.asPtr])) ds) (p.at_ + i) := by
  simp only [← slot_after, ← slot_events, Device.after_append] at *
  exact ((slotDevice p d).both (o := Owner.new n) (cs := cs) (ds := ds) (c := .asPtr) (pre := [_, _, _]) (post := [])
    (r := p.buf) (r' := p.buf) rfl rfl (.retag (.read (.retag .nil))) .nil
    (by show (_ ++ [_])[_]? = _; simp; rfl) (by rw [has_iff]; exact ⟨Nat.le_add_right _ _, Nat.add_lt_add_left hi _⟩)
    (Calmly.nil.unclaimed _)).2 h

example : Defined Stacked ⟨0, 2⟩ (slotEvents ⟨0, 2⟩ 3 (Owner.new 1) ([.len] ++ .asPtr :: [.asMutSlice])) :=
  C151_stacked _ _ (by show 0 + 2 < 3; omega) _ (by decide) _ ⟨trivial, trivial, trivial, trivial⟩

/-- C157: under Tree Borrows, what `as_ptr` of streams returned may be looked at exactly until
something is written there. -/
theorem C157_stream_ptr (p : Place) (d : Nat) (cs ds : List StreamCall) (i : Nat) (hi : i < p.cap)
    (h : Defined Tree p (streamEvents p d (Owner.new 0) (cs ++ .asPtr :: ds))) :
    Defined Tree p (streamEvents p d (Owner.new 0)
      (cs ++ .asPtr :: (ds ++ [.get (streamAfter p d (Owner.new 0) cs).held.length i]))) ↔
    ¬ WrittenAt (streamEvents p d (streamAfter p d (Owner.new 0) (cs ++ [.asPtr])) ds) (p.at_ + i) := by
  simp only [← stream_after, ← stream_events, Device.after_append] at *
  exact ((streamDevice p d).both (o := Owner.new 0) (cs := cs) (ds := ds) (c := .asPtr) (pre := [_, _, _]) (post := [])
    (r := p.buf) (r' := p.buf) rfl rfl (.retag (.read (.retag .nil))) .nil
    (by show (_ ++ [_])[_]? = _; simp; rfl) (by rw [has_iff]; exact ⟨Nat.le_add_right _ _, Nat.add_lt_add_left hi _⟩)
    (Calmly.nil.unclaimed _)).1 h

example : Defined Tree ⟨0, 2⟩ (streamEvents ⟨0, 2⟩ 3 (Owner.new 0) ([.write 1] ++ .asPtr :: [.write 1])) :=
  C155_tree _ _ (by show 0 + 2 < 3; omega) _ ⟨trivial, trivial, trivial, trivial⟩

/-- C158: under Stacked Borrows, what `as_ptr` of streams returned may be looked at exactly until
something there is written, or a `&mut` to it is made. -/
theorem C158_stream_ptr (p : Place) (d : Nat) (cs ds : List StreamCall) (i : Nat) (hi : i < p.cap)
    (h : Defined Stacked p (streamEvents p d (Owner.new 0) (cs ++ .asPtr :: ds))) :
    Defined Stacked p (streamEvents p d (Owner.new 0)
      (cs ++ .asPtr :: (ds ++ [.get (streamAfter p d (Owner.new 0) cs).held.length i]))) ↔
    ¬ ClaimedAt (streamEvents p d (streamAfter p d (Owner.new 0) (cs ++ [.asPtr])) ds) (p.at_ + i) := by
  simp only [← stream_after, ← stream_events, Device.after_append] at *
  exact ((streamDevice p d).both (o := Owner.new 0) (cs := cs) (ds := ds) (c := .asPtr) (pre := [_, _, _]) (post := [])
    (r := p.buf) (r' := p.buf) rfl rfl (.retag (.read (.retag .nil))) .nil
    (by show (_ ++ [_])[_]? = _; simp; rfl) (by rw [has_iff]; exact ⟨Nat.le_add_right _ _, Nat.add_lt_add_left hi _⟩)
    (Calmly.nil.unclaimed _)).2 h

example : Defined Stacked ⟨0, 2⟩ (streamEvents ⟨0, 2⟩ 3 (Owner.new 0) ([.write 1] ++ .asPtr :: [.position])) :=
  C155_stacked _ _ (by show 0 + 2 < 3; omega) _ ⟨trivial, trivial, trivial, trivial⟩

/-- C157: under Tree Borrows, what `read` of streams returned may be looked at exactly until
something is written there. -/
theorem C157_stream_read (p : Place) (d : Nat) (cs ds : List StreamCall) (m i : Nat) (hi : i < m)
    (hm : (streamAfter p d (Owner.new 0) cs).len + m ≤ p.cap)
    (h : Defined Tree p (streamEvents p d (Owner.new 0) (cs ++ (.read m) :: ds))) :
    Defined Tree p (streamEvents p d (Owner.new 0)
      (cs ++ (.read m) :: (ds ++ [.get (streamAfter p d (Owner.new 0) cs).held.length i]))) ↔
    ¬ WrittenAt (streamEvents p d (streamAfter p d (Owner.new 0) (cs ++ [(.read m)])) ds) (p.at_ + (streamAfter p d (Owner.new 0) cs).len + i) := by
  simp only [← stream_after, ← stream_events, Device.after_append] at *
  have go : StreamCall.go p d ((streamDevice p d).after (Owner.new 0) cs) (.read m) =
      (⟨((streamDevice p d).after (Owner.new 0) cs).len + m, ((streamDevice p d).after (Owner.new 0) cs).next + 4,
        ((streamDevice p d).after (Owner.new 0) cs).held ++
          [⟨((streamDevice p d).after (Owner.new 0) cs).next + 3,
            ⟨p.at_ + ((streamDevice p d).after (Owner.new 0) cs).len, m⟩⟩]⟩,
        [.retag .excl ownerTag ((streamDevice p d).after (Owner.new 0) cs).next p.head,
          .read ((streamDevice p d).after (Owner.new 0) cs).next p.head,
          .retag .shared ownerTag (((streamDevice p d).after (Owner.new 0) cs).next + 1) p.buf,
          .retag .shared ownerTag (((streamDevice p d).after (Owner.new 0) cs).next + 2) p.buf,
          .retag .shared (((streamDevice p d).after (Owner.new 0) cs).next + 2)
            (((streamDevice p d).after (Owner.new 0) cs).next + 3)
            ⟨p.at_ + ((streamDevice p d).after (Owner.new 0) cs).len, m⟩,
          .write ((streamDevice p d).after (Owner.new 0) cs).next p.head]) := by
    simp only [StreamCall.go, Place.streamRead, if_pos hm]
    rfl
  have hd : (streamDevice p d).go ((streamDevice p d).after (Owner.new 0) cs) (.read m) = _ := go
  refine ((streamDevice p d).both (o := Owner.new 0) (cs := cs) (ds := ds) (c := .read m) (pre := [_, _, _, _])
    (post := [_]) (r' := ⟨p.at_ + ((streamDevice p d).after (Owner.new 0) cs).len, m⟩) rfl (by rw [hd]; rfl)
    (.retag (.read (.retag (.retag .nil)))) (by rw [hd]; exact .write .nil)
    (by rw [hd]; show (_ ++ [_])[_]? = _; simp; rfl)
    (by rw [has_iff]; exact ⟨Nat.le_add_right _ _, Nat.add_lt_add_left hi _⟩) ?_).1 h
  rintro (⟨t, r, h1, h2⟩ | ⟨t, q, r, h1, h2⟩)
  · cases List.mem_singleton.mp h1
    rw [has_iff] at h2
    have : p.at_ + p.cap ≤ p.at_ + ((streamDevice p d).after (Owner.new 0) cs).len + i := h2.1
    omega
  · cases List.mem_singleton.mp h1

example : Defined Tree ⟨0, 2⟩ (streamEvents ⟨0, 2⟩ 3 (Owner.new 0) ([.read 1] ++ .read 1 :: [.readInto 1])) ∧
    (streamAfter ⟨0, 2⟩ 3 (Owner.new 0) [.read 1]).len + 1 ≤ 2 :=
  ⟨C155_tree _ _ (by show 0 + 2 < 3; omega) _ ⟨trivial, trivial, trivial, trivial⟩, by decide⟩

/-- C158: under Stacked Borrows, what `read` of streams returned may be looked at exactly until
something there is written, or a `&mut` to it is made. -/
theorem C158_stream_read (p : Place) (d : Nat) (cs ds : List StreamCall) (m i : Nat) (hi : i < m)
    (hm : (streamAfter p d (Owner.new 0) cs).len + m ≤ p.cap)
    (h : Defined Stacked p (streamEvents p d (Owner.new 0) (cs ++ (.read m) :: ds))) :
    Defined Stacked p (streamEvents p d (Owner.new 0)
      (cs ++ (.read m) :: (ds ++ [.get (streamAfter p d (Owner.new 0) cs).held.length i]))) ↔
    ¬ ClaimedAt (streamEvents p d (streamAfter p d (Owner.new 0) (cs ++ [(.read m)])) ds) (p.at_ + (streamAfter p d (Owner.new 0) cs).len + i) := by
  simp only [← stream_after, ← stream_events, Device.after_append] at *
  have go : StreamCall.go p d ((streamDevice p d).after (Owner.new 0) cs) (.read m) =
      (⟨((streamDevice p d).after (Owner.new 0) cs).len + m, ((streamDevice p d).after (Owner.new 0) cs).next + 4,
        ((streamDevice p d).after (Owner.new 0) cs).held ++
          [⟨((streamDevice p d).after (Owner.new 0) cs).next + 3,
            ⟨p.at_ + ((streamDevice p d).after (Owner.new 0) cs).len, m⟩⟩]⟩,
        [.retag .excl ownerTag ((streamDevice p d).after (Owner.new 0) cs).next p.head,
          .read ((streamDevice p d).after (Owner.new 0) cs).next p.head,
          .retag .shared ownerTag (((streamDevice p d).after (Owner.new 0) cs).next + 1) p.buf,
          .retag .shared ownerTag (((streamDevice p d).after (Owner.new 0) cs).next + 2) p.buf,
          .retag .shared (((streamDevice p d).after (Owner.new 0) cs).next + 2)
            (((streamDevice p d).after (Owner.new 0) cs).next + 3)
            ⟨p.at_ + ((streamDevice p d).after (Owner.new 0) cs).len, m⟩,
          .write ((streamDevice p d).after (Owner.new 0) cs).next p.head]) := by
    simp only [StreamCall.go, Place.streamRead, if_pos hm]
    rfl
  have hd : (streamDevice p d).go ((streamDevice p d).after (Owner.new 0) cs) (.read m) = _ := go
  refine ((streamDevice p d).both (o := Owner.new 0) (cs := cs) (ds := ds) (c := .read m) (pre := [_, _, _, _])
    (post := [_]) (r' := ⟨p.at_ + ((streamDevice p d).after (Owner.new 0) cs).len, m⟩) rfl (by rw [hd]; rfl)
    (.retag (.read (.retag (.retag .nil)))) (by rw [hd]; exact .write .nil)
    (by rw [hd]; show (_ ++ [_])[_]? = _; simp; rfl)
    (by rw [has_iff]; exact ⟨Nat.le_add_right _ _, Nat.add_lt_add_left hi _⟩) ?_).2 h
  rintro (⟨t, r, h1, h2⟩ | ⟨t, q, r, h1, h2⟩)
  · cases List.mem_singleton.mp h1
    rw [has_iff] at h2
    have : p.at_ + p.cap ≤ p.at_ + ((streamDevice p d).after (Owner.new 0) cs).len + i := h2.1
    omega
  · cases List.mem_singleton.mp h1

example : Defined Stacked ⟨0, 2⟩ (streamEvents ⟨0, 2⟩ 3 (Owner.new 0) ([.read 1] ++ .read 1 :: [.read 1])) ∧
    (streamAfter ⟨0, 2⟩ 3 (Owner.new 0) [.read 1]).len + 1 ≤ 2 :=
  ⟨C155_stacked _ _ (by show 0 + 2 < 3; omega) _ ⟨trivial, trivial, trivial, trivial⟩, by decide⟩

/-- C157: under Tree Borrows, what `each_ref` returned may be looked at exactly until
something is written there. -/
theorem C157_slice_each (p : Place) (d n : Nat) (cs ds : List Call) (j : Nat) (hc : j < p.cap)
    (hj : j < (ownerAfter p d (Owner.new n) cs).len)
    (h : Defined Tree p (events p d (Owner.new n) (cs ++ .eachRef :: ds))) :
    Defined Tree p (events p d (Owner.new n)
      (cs ++ .eachRef :: (ds ++ [.get ((ownerAfter p d (Owner.new n) cs).held.length + j) 0]))) ↔
    ¬ WrittenAt (events p d (ownerAfter p d (Owner.new n) (cs ++ [.eachRef])) ds) (p.at_ + j) := by
  simp only [← slice_after, ← slice_events, Device.after_append] at *
  obtain ⟨pre, u, g, post, e1, e2, e3, e4, e5⟩ := eachRef_split p d ((sliceDevice p d).after (Owner.new n) cs) j hj
  exact ((sliceDevice p d).both (o := Owner.new n) (cs := cs) (ds := ds) (c := .eachRef) (i := 0) rfl e1 e2 e3 e5
    (by rw [has_iff]; exact ⟨Nat.le_add_right _ _, Nat.add_lt_add_left hc _⟩) (e4.unclaimed _)).1 h

example : Defined Tree ⟨0, 2⟩ (events ⟨0, 2⟩ 3 (Owner.new 2) ([.len] ++ .eachRef :: [.copyFromSlice 1])) :=
  C150_tree _ _ (.inl (by decide)) _ (by decide) _ ⟨trivial, trivial, (by decide : 1 ≤ 2), trivial⟩

/-- C158: under Stacked Borrows, what `each_ref` returned may be looked at exactly until
something there is written, or a `&mut` to it is made. -/
theorem C158_slice_each (p : Place) (d n : Nat) (cs ds : List Call) (j : Nat) (hc : j < p.cap)
    (hj : j < (ownerAfter p d (Owner.new n) cs).len)
    (h : Defined Stacked p (events p d (Owner.new n) (cs ++ .eachRef :: ds))) :
    Defined Stacked p (events p d (Owner.new n)
      (cs ++ .eachRef :: (ds ++ [.get ((ownerAfter p d (Owner.new n) cs).held.length + j) 0]))) ↔
    ¬ ClaimedAt (events p d (ownerAfter p d (Owner.new n) (cs ++ [.eachRef])) ds) (p.at_ + j) := by
  simp only [← slice_after, ← slice_events, Device.after_append] at *
  obtain ⟨pre, u, g, post, e1, e2, e3, e4, e5⟩ := eachRef_split p d ((sliceDevice p d).after (Owner.new n) cs) j hj
  exact ((sliceDevice p d).both (o := Owner.new n) (cs := cs) (ds := ds) (c := .eachRef) (i := 0) rfl e1 e2 e3 e5
    (by rw [has_iff]; exact ⟨Nat.le_add_right _ _, Nat.add_lt_add_left hc _⟩) (e4.unclaimed _)).2 h

example : Defined Stacked ⟨0, 2⟩ (events ⟨0, 2⟩ 3 (Owner.new 2) ([.len] ++ .eachRef :: [.asMutSlice])) :=
  C150_stacked_partial _ _ (.inl (by decide)) _ (by decide) _ ⟨trivial, trivial, trivial, trivial⟩

end Oct.Props
