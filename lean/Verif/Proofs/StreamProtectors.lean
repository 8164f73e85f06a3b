import Verif.Proofs.ProtectorsSlot
import Verif.Proofs.IterProtectors
import Verif.Spec.StreamProtectors
/-
That while a method of a stream runs, all that is used of its arguments' memory was made of the arguments; and what it
consists of.
-/
namespace Oct.Alias
open Spec Sound

section
variable (s : Place)

theorem streamRead_same (pos n u : Nat) : Same (s.streamReadP pos n u) (s.streamRead pos n u) :=
  .call fun self => (Same.lift (read self s.head)).bind fun _ => Same.drop <| by
    by_cases h : pos + n ≤ s.cap
    · rw [if_pos h, if_pos h]
      exact fun _ => ⟨rfl, rfl, rfl⟩
    · rw [if_neg h, if_neg h]
      exact .pure _

theorem streamRemaining_same (u : Nat) : Same (s.streamRemainingP u) (s.streamRemaining u) := fun _ => ⟨rfl, rfl, rfl⟩

theorem streamReadInto_same (d pos n u : Nat) : Same (s.streamReadIntoP d pos n u) (s.streamReadInto d pos n u) :=
  .call fun self => .call fun buf => (streamRemaining_same s self).bind fun _ => by
    by_cases h : pos + n ≤ s.cap
    · rw [if_pos h, if_pos h]
      exact fun _ => ⟨rfl, rfl, rfl⟩
    · rw [if_neg h, if_neg h]
      exact .pure _

theorem streamWrite_same (d pos n u : Nat) : Same (s.streamWriteP d pos n u) (s.streamWrite d pos n u) :=
  .call fun self => .call fun data => (Same.lift (read self s.head)).bind fun _ => Same.drop <| by
    by_cases h : pos + n ≤ s.cap
    · rw [if_pos h, if_pos h]
      exact fun _ => ⟨rfl, rfl, rfl⟩
    · rw [if_neg h, if_neg h]
      exact .pure _

/-- With protectors, a call does the same. -/
theorem streamCall_same (d : Nat) (o : Owner) : (c : StreamCall) → plain (c.marks s d o) = (c.go s d o).2
  | .read n => by
    refine (streamRead_same s o.len n ownerTag o.next).2.2.trans ?_
    simp only [StreamCall.go]
    split <;> rfl
  | .readInto n => (streamReadInto_same s d o.len n ownerTag o.next).2.2
  | .write n => (streamWrite_same s d o.len n ownerTag o.next).2.2
  | .asPtr => rfl
  | .asSlice => rfl
  | .capacity => rfl
  | .position => rfl
  | .remaining => rfl
  | .get h i => by
    simp only [StreamCall.marks, StreamCall.go]
    cases o.held[h]? <;> rfl

theorem streamMarks_same (d : Nat) : (o : Owner) → (cs : List StreamCall) →
    plain (streamMarks s d o cs) = streamEvents s d o cs
  | _, [] => rfl
  | o, c :: cs => by
    show plain (c.marks s d o ++ streamMarks s d (c.go s d o).1 cs) = (c.go s d o).2 ++ _
    rw [plain_append, streamCall_same, streamMarks_same]

end

section
variable {s : Place} {l t u : Nat} {P : List Nat}

theorem streamCapacityP_fit (h : Clear s l P u) (hu : u < t) : Fit l P t (s.streamCapacityP u) :=
  .call shared_raw h.2 (.bind (.read (h.head hu).2) (.call shared_raw (h.head hu).buf (.pure ())))

theorem streamPositionP_fit (h : Clear s l P u) (hu : u < t) : Fit l P t (s.streamPositionP u) :=
  .call shared_raw h.2 (.read (h.head hu).2)

theorem streamRemainingP_fit (h : Clear s l P u) (hu : u < t) : Fit l P t (s.streamRemainingP u) :=
  .bind (streamCapacityP_fit h hu) (streamPositionP_fit h (show u < t + 2 by omega))

theorem streamPtrP_fit (h : Clear s l P u) (hu : u < t) : Fit l P t (s.streamPtrP u) :=
  .call shared_raw h.2 (.bind (.read (h.head hu).2) (.call shared_raw (h.head hu).buf (.retag (h.head hu).into)))

theorem streamSliceP_fit (n : Nat) (hn : n ≤ s.cap) (h : Clear s l P u) (hu : u < t) : Fit l P t (s.streamSliceP n u) :=
  .call shared_raw h.2 (.bind (streamPtrP_fit (h.head hu) (Nat.lt_succ_self t)) (.bind (streamPositionP_fit (h.head hu)
    (show t < t + 4 by omega)) (.retag fun hb => (h.head hu).buf (items_buf hn hb))))

/-- What is copied is in the buffer. -/
theorem copied_buf {pos n : Nat} (hn : pos + n ≤ s.cap) (hl : (⟨s.at_ + pos, n⟩ : Region).has l = true) :
    s.buf.has l = true := by
  rw [has_iff] at hl ⊢
  simp only [Place.buf] at hl ⊢
  omega

theorem streamReadP_fit (pos n : Nat) (h : Clear s l P u) (hu : u < t) : Fit l P t (s.streamReadP pos n u) := by
  have hc := h.head hu
  refine .call excl_raw h.2 (.bind (.read hc.2) (.bind (.call shared_raw hc.buf (.pure ())) ?_))
  by_cases hn : pos + n ≤ s.cap
  · rw [if_pos hn]
    exact .bind (.call shared_raw hc.buf (.pure _)) (.bind (.retag fun hl => hc.buf (copied_buf hn hl))
      (.bind (.write hc.2) (.pure _)))
  · rw [if_neg hn]
    exact .pure _

theorem streamWriteP_fit {d : Nat} (hd : Behind s d) (pos n : Nat) (ht : 0 < t) :
    Fit l [] t (s.streamWriteP d pos n ownerTag) := by
  have c0 : Clear s l (if s.head.has l then [t] else []) t := Clear.none.head (u := 0) ht
  have hc : Clear s l _ t := c0.data (t := t + 1) (n := n) hd
  refine .call excl_raw (fun _ => no_args) (.call shared_raw (fun h => ?_) (.bind (.read hc.2) (.bind
    (.call shared_raw hc.buf (.pure ())) ?_)))
  · rw [if_neg (behind_head hd h)]
    exact no_args
  by_cases hn : pos + n ≤ s.cap
  · rw [if_pos hn]
    refine .bind (.call excl_raw hc.buf (.retag hc.into)) (.bind (.read fun h => ?_) (.bind
      (.write fun h => hc.buf (copied_buf hn h)) (.write hc.2)))
    rw [if_neg (behind_head hd h)]
    exact arg_on (Nat.le_refl _) no_args
  · rw [if_neg hn]
    exact .pure ()

theorem streamReadIntoP_fit {d : Nat} (hd : Behind s d) (pos n : Nat) (ht : 0 < t) :
    Fit l [] t (s.streamReadIntoP d pos n ownerTag) := by
  have c0 : Clear s l (if s.head.has l then [t] else []) t := Clear.none.head (u := 0) ht
  have hc : Clear s l _ t := c0.data (t := t + 1) (n := n) hd
  refine .call excl_raw (fun _ => no_args) (.call excl_raw (fun h => ?_) (.bind
    (streamRemainingP_fit hc (by omega)) ?_))
  · rw [if_neg (behind_head hd h)]
    exact no_args
  by_cases hn : pos + n ≤ s.cap
  · rw [if_pos hn]
    refine .bind (.call shared_raw hc.buf (.pure _)) (.bind (.retag fun h => ?_) (.bind
      (.read fun h => hc.buf (copied_buf hn h)) (.bind (.write fun h => ?_) (.write hc.2))))
    · rw [if_neg (behind_head hd h)]
      exact arg_on (Nat.le_refl _) no_args
    · rw [if_neg (behind_head hd h)]
      exact arg_on (show t + 1 ≤ t + 1 + 1 + 2 + 1 + 1 by omega) no_args
  · rw [if_neg hn]
    exact .pure ()

end

theorem streamCall_fits (s : Place) (d : Nat) (hd : Behind s d) (l : Nat) (o : Owner) (ho : 2 ≤ o.next)
    (hl : o.len ≤ s.cap) (c : StreamCall) :
    Fits l [] o.next (c.marks s d o) (c.go s d o).1.next ∧ (c.go s d o).1.len ≤ s.cap := by
  have h0 : ownerTag < o.next := by show 0 < o.next; omega
  have fits (n : Nat) : (if o.len + n ≤ s.cap then o.len + n else o.len) ≤ s.cap := by split <;> assumption
  cases c with
  | read n =>
    have e : (StreamCall.go s d o (.read n)).1.next = (s.streamRead o.len n ownerTag o.next).2.1 ∧
        (StreamCall.go s d o (.read n)).1.len = if o.len + n ≤ s.cap then o.len + n else o.len := by
      simp only [StreamCall.go]
      split <;> exact ⟨rfl, rfl⟩
    rw [e.1, e.2, ← (streamRead_same s _ _ ownerTag o.next).2.1]
    exact ⟨streamReadP_fit _ _ .none h0, fits n⟩
  | readInto n =>
    refine ⟨?_, fits n⟩
    show Fits l [] o.next (s.streamReadIntoP d o.len n ownerTag o.next).2.2
      (s.streamReadInto d o.len n ownerTag o.next).2.1
    rw [← (streamReadInto_same s d _ _ ownerTag o.next).2.1]
    exact streamReadIntoP_fit hd _ _ h0
  | write n =>
    refine ⟨?_, fits n⟩
    show Fits l [] o.next (s.streamWriteP d o.len n ownerTag o.next).2.2 (s.streamWrite d o.len n ownerTag o.next).2.1
    rw [← (streamWrite_same s d _ _ ownerTag o.next).2.1]
    exact streamWriteP_fit hd _ _ h0
  | asPtr => exact ⟨streamPtrP_fit .none h0, hl⟩
  | asSlice => exact ⟨streamSliceP_fit _ hl .none h0, hl⟩
  | capacity => exact ⟨streamCapacityP_fit .none h0, hl⟩
  | position => exact ⟨streamPositionP_fit .none h0, hl⟩
  | remaining => exact ⟨streamRemainingP_fit .none h0, hl⟩
  | get h i =>
    simp only [StreamCall.marks, StreamCall.go]
    cases o.held[h]? with
    | none => exact ⟨.nil, hl⟩
    | some x => exact ⟨.read (fun _ => no_args) .nil, hl⟩

theorem streamMarks_fit (s : Place) (d : Nat) (hd : Behind s d) (l : Nat) : (o : Owner) → 2 ≤ o.next → o.len ≤ s.cap →
    (cs : List StreamCall) → ∃ t, Fits l [] o.next (streamMarks s d o cs) t
  | o, _, _, [] => ⟨_, .nil⟩
  | o, ho, hl, c :: cs => by
    obtain ⟨h1, h2⟩ := streamCall_fits s d hd l o ho hl c
    obtain ⟨t, ht⟩ := streamMarks_fit s d hd l (c.go s d o).1 (Nat.le_trans ho h1.grows) h2 cs
    exact ⟨t, h1.append ht⟩

/-! What calls consist of. -/

section
variable (s : Place)

theorem streamCapacity_walks (u : Nat) : Walks (s.streamCapacityP u) (capacityDeeds s) :=
  (Walks.call fun _ => .bind .read fun _ => .call fun _ => .pure _).cast rfl

theorem streamPosition_walks (u : Nat) : Walks (s.streamPositionP u) (positionDeeds s) :=
  (Walks.call fun _ => .read).cast rfl

theorem streamRemaining_walks (u : Nat) : Walks (s.streamRemainingP u) (capacityDeeds s ++ positionDeeds s) :=
  .bind (streamCapacity_walks s u) fun _ => streamPosition_walks s u

theorem streamPtr_walks (u : Nat) : Walks (s.streamPtrP u) (ptrDeeds s) :=
  (Walks.call fun _ => .bind .read fun _ => .call fun _ => .retag).cast rfl

/-- A branch, if there is room. -/
theorem Walks.room {α : Type} {c : Prop} [Decidable c] {m n : Acts α} {ss : List Deed} (h : c → Walks m ss)
    (h' : Walks n []) : Walks (if c then m else n) (if c then ss else []) := by
  by_cases hc : c
  · rw [if_pos hc, if_pos hc]
    exact h hc
  · rw [if_neg hc, if_neg hc]
    exact h'

theorem streamCall_walks (d : Nat) (o : Owner) (c : StreamCall) (hget : ∀ k i, c ≠ .get k i) :
    deeds (c.marks s d o) = streamDeeds s d o.len c ∧ Nested (c.marks s d o) := by
  cases c with
  | read n =>
    refine Walks.nested (m := s.streamReadP o.len n ownerTag) ((Walks.call fun _ => .bind .read fun _ =>
      .bind (.call fun _ => .pure _) fun _ => .room (ss := lookDeeds s ++ [.makes .shared ⟨s.at_ + o.len, n⟩, .writes s.head])
        (fun _ => (Walks.bind (.call fun _ => .pure _) fun _ => .bind .retag fun _ => .bind .write fun _ => .pure _).cast rfl)
        (.pure _)).cast ?_) _
    simp [streamDeeds, lookDeeds]
  | readInto n =>
    refine Walks.nested (m := s.streamReadIntoP d o.len n ownerTag) ((Walks.call fun q => .call fun _ =>
      .bind (streamRemaining_walks s q) fun _ => .room (ss := lookDeeds s ++ [.makes .raw ⟨d, n⟩,
          .reads ⟨s.at_ + o.len, n⟩, .writes ⟨d, n⟩, .writes s.head])
        (fun _ => (Walks.bind (.call fun _ => .pure _) fun _ => .bind .retag fun _ => .bind .read fun _ =>
          .bind .write fun _ => .write).cast rfl)
        (.pure _)).cast ?_) _
    simp [streamDeeds]
  | write n =>
    refine Walks.nested (m := s.streamWriteP d o.len n ownerTag) ((Walks.call fun _ => .call fun _ => .bind .read fun _ =>
      .bind (.call fun _ => .pure _) fun _ => .room (ss := [.into .excl s.buf, .makes .raw s.buf, .out, .reads ⟨d, n⟩,
          .writes ⟨s.at_ + o.len, n⟩, .writes s.head])
        (fun _ => (Walks.bind (.call fun _ => .retag) fun _ => .bind .read fun _ => .bind .write fun _ => .write).cast rfl)
        (.pure _)).cast ?_) _
    simp [streamDeeds, lookDeeds]
  | asPtr => exact (streamPtr_walks s ownerTag).nested _
  | asSlice =>
    exact Walks.nested (m := s.streamSliceP o.len ownerTag) ((Walks.call fun q => .bind (streamPtr_walks s q) fun _ =>
      .bind (streamPosition_walks s q) fun _ => .retag).cast rfl) _
  | capacity => exact (streamCapacity_walks s ownerTag).nested _
  | position => exact (streamPosition_walks s ownerTag).nested _
  | remaining => exact (streamRemaining_walks s ownerTag).nested _
  | get k i => exact absurd rfl (hget k i)

end

end Oct.Alias
