import Verif.Proofs.ProtectorsRun
/-
That while a method of a slot or a stream runs, all that is used of its arguments' memory was made of the arguments.
-/
namespace Oct.Alias
open Spec Sound

/-- No argument is to the buffer, and those to the slot itself are not newer than `u`. -/
def Clear (s : Place) (l : Nat) (P : List Nat) (u : Nat) : Prop :=
  (s.buf.has l = true → P = []) ∧ (s.head.has l = true → ∀ p ∈ P, p ≤ u)

theorem head_buf {s : Place} {l : Nat} (h : s.buf.has l = true) : ¬ s.head.has l = true := by
  intro h'
  rw [has_iff] at h h'
  simp only [Place.buf, Place.head] at h h'
  omega

section
variable {s : Place} {l t u : Nat} {P : List Nat}

theorem Clear.none : Clear s l [] u := ⟨fun _ => rfl, fun _ => no_args⟩

/-- A method is called. -/
theorem Clear.head (h : Clear s l P u) (hu : u < t) : Clear s l (if s.head.has l then t :: P else P) t :=
  ⟨fun hb => by rw [if_neg (head_buf hb)]; exact h.1 hb,
    fun hh => arg_on (Nat.le_refl t) (older (h.2 hh) (Nat.le_of_lt hu))⟩

/-- Octets elsewhere are an argument. -/
theorem Clear.data {d n : Nat} (hd : Behind s d) (h : Clear s l P u) :
    Clear s l (if (⟨d, n⟩ : Region).has l then t :: P else P) u := by
  by_cases hl : (⟨d, n⟩ : Region).has l = true
  · have : d ≤ l := ((has_iff _ _).mp hl).1
    have hd : s.at_ + s.cap < d := hd
    refine ⟨fun h => ?_, fun h => ?_⟩ <;>
    · rw [has_iff] at h
      simp only [Place.buf, Place.head] at h
      omega
  · rw [if_neg hl]
    exact h

theorem Clear.buf (h : Clear s l P u) {v : Nat} : s.buf.has l = true → ∀ p ∈ P, p ≤ v := fun hb => by
  rw [h.1 hb]
  exact no_args

theorem Clear.into (h : Clear s l P u) {q : Nat} : s.buf.has l = true →
    ∀ p ∈ (if s.buf.has l then q :: P else P), p ≤ q := fun hb => arg_on (Nat.le_refl q) (h.buf hb)

theorem slotPtr_fit (h : Clear s l P u) (hu : u < t) : Fit l P t (s.slotPtrP u) :=
  .call shared_raw h.2 (.bind (.read (h.head hu).2) (.call shared_raw (h.head hu).buf (.retag (h.head hu).into)))

theorem slotMutPtr_fit (h : Clear s l P u) (hu : u < t) : Fit l P t (s.slotMutPtrP u) :=
  .call excl_raw h.2 (.bind (.read (h.head hu).2) (.call excl_raw (h.head hu).buf (.retag (h.head hu).into)))

theorem slotCapacity_fit (h : Clear s l P u) (hu : u < t) : Fit l P t (s.slotCapacityP u) :=
  .call shared_raw h.2 (.bind (.read (h.head hu).2) (.call shared_raw (h.head hu).buf (.pure ())))

theorem slotLen_fit (h : Clear s l P u) (hu : u < t) : Fit l P t (s.slotLenP u) :=
  .call shared_raw h.2 (.read (h.head hu).2)

theorem slotSlice_fit (n : Nat) (hn : n ≤ s.cap) (h : Clear s l P u) (hu : u < t) : Fit l P t (s.slotSliceP n u) :=
  .call shared_raw h.2 (.bind (slotPtr_fit (h.head hu) (Nat.lt_succ_self t)) (.bind (slotLen_fit (h.head hu)
    (show t < t + 4 by omega)) (.retag fun hb => (h.head hu).buf (items_buf hn hb))))

theorem slotMutSlice_fit (h : Clear s l P u) (hu : u < t) : Fit l P t (s.slotMutSliceP u) :=
  .call excl_raw h.2 (.bind (slotMutPtr_fit (h.head hu) (Nat.lt_succ_self t)) (.bind (slotCapacity_fit (h.head hu)
    (show t < t + 4 by omega)) (.retag (h.head hu).buf)))

theorem setLenUnchecked_fit (h : Clear s l P u) (hu : u < t) : Fit l P t (s.setLenUncheckedP u) :=
  .call excl_raw h.2 (.bind (slotCapacity_fit (h.head hu) (Nat.lt_succ_self t)) (.write (h.head hu).2))

theorem setLen_fit (h : Clear s l P u) (hu : u < t) : Fit l P t (s.setLenP u) :=
  .call excl_raw h.2 (.bind (slotCapacity_fit (h.head hu) (Nat.lt_succ_self t)) (setLenUnchecked_fit (h.head hu)
    (show t < t + 3 by omega)))

/-- Octets elsewhere are not in the slot. -/
theorem behind_head {d n : Nat} (hd : Behind s d) (h : (⟨d, n⟩ : Region).has l = true) : ¬ s.head.has l = true := by
  have hd : s.at_ + s.cap < d := hd
  intro h'
  rw [has_iff] at h h'
  simp only [Place.head] at h h'
  omega

theorem slotCopy_fit {d n : Nat} (hd : Behind s d) (hn : n ≤ s.cap) (ht : 0 < t) :
    Fit l [] t (s.slotCopyP d n ownerTag) := by
  have c0 : Clear s l (if s.head.has l then [t] else []) t := Clear.none.head (u := 0) ht
  have hc : Clear s l _ t := c0.data (t := t + 1) (n := n) hd
  refine .call excl_raw (fun _ => no_args) (.call shared_raw (fun h => ?_) (.bind (slotCapacity_fit hc (by omega)) (.bind
    (slotMutPtr_fit hc (show t < t + 4 by omega)) (.bind (.read fun h => ?_) (.bind (.write fun h => hc.buf (items_buf hn h))
      (setLenUnchecked_fit hc (show t < t + 7 by omega)))))))
  · rw [if_neg (behind_head hd h)]
    exact no_args
  · rw [if_neg (behind_head hd h)]
    exact arg_on (Nat.le_refl _) no_args

theorem outputWriteP_fit {d b pos n : Nat} (hd : Behind s d) (h : Clear s l P u)
    (hP : (⟨d, n⟩ : Region).has l = true → P = []) : Fit l P t (s.outputWriteP d b pos n) := by
  have hc : Clear s l (if (⟨d, n⟩ : Region).has l then t :: P else P) u := h.data hd
  refine .call shared_raw (fun hl => by rw [hP hl]; exact no_args) (.bind (.call shared_raw hc.buf (.pure ())) ?_)
  by_cases hn : pos + n ≤ s.cap
  · rw [if_pos hn]
    refine .bind (.call excl_raw hc.buf (.retag hc.into)) (.bind (.read fun hl => ?_) (.write fun hl => ?_))
    · exact arg_on (Nat.le_refl _) (by rw [hP hl]; exact no_args)
    · refine hc.buf ?_
      rw [has_iff] at hl ⊢
      simp only [Place.buf] at hl ⊢
      omega
  · rw [if_neg hn]
    exact .pure ()

theorem outputWrites_fit {d b : Nat} (hd : Behind s d) (h : Clear s l P u) (hP : d ≤ l → P = []) : (ns : List Nat) →
    (pos t : Nat) → Fit l P t (s.outputWritesP d b pos ns)
  | [], _, _ => .pure ()
  | _ :: ns, _, _ => .bind (outputWriteP_fit hd h fun hl => hP ((has_iff _ _).mp hl).1) (outputWrites_fit hd h hP ns _ _)

theorem slotWrite_fit {d : Nat} (hd : Behind s d) (ns : List Nat) (ok : Bool) (ht : 0 < t) :
    Fit l [] t (s.slotWriteP d ns ok ownerTag) := by
  have hc : Clear s l (if s.head.has l then [t] else []) t := Clear.none.head (u := 0) ht
  have hP : d ≤ l → (if s.head.has l then [t] else []) = ([] : List Nat) := fun h => by
    rw [if_neg]
    intro h'
    have hd : s.at_ + s.cap < d := hd
    rw [has_iff] at h'
    simp only [Place.head] at h'
    omega
  have hw := outputWrites_fit (b := t + 1) hd hc hP ns 0 (t + 1 + 1)
  have grow : t + 1 + 1 ≤ _ := Fits.grows hw
  refine .call excl_raw (fun _ => no_args) (.bind (.read hc.2) (.bind (.call excl_raw hc.buf (.pure _)) (.bind hw ?_)))
  cases ok with
  | true => exact setLen_fit hc (Nat.lt_of_lt_of_le (show t < t + 1 + 1 by omega) grow)
  | false => exact .pure ()

theorem inputReadP_fit {b pos n : Nat} (h : Clear s l P u) : Fit l P t (s.inputReadP b pos n) := by
  refine .bind (.call shared_raw h.buf (.pure ())) ?_
  by_cases hn : pos + n ≤ s.cap
  · rw [if_pos hn]
    have inn : (⟨s.at_ + pos, n⟩ : Region).has l = true → s.buf.has l = true := fun hl => by
      rw [has_iff] at hl ⊢
      simp only [Place.buf] at hl ⊢
      omega
    exact .bind (.call shared_raw h.buf (.retag fun hl => h.into (inn hl))) (.read fun hl => h.buf (inn hl))
  · rw [if_neg hn]
    exact .pure ()

theorem inputReads_fit {b : Nat} (h : Clear s l P u) : (ns : List Nat) → (pos t : Nat) →
    Fit l P t (s.inputReadsP b pos ns)
  | [], _, _ => .pure ()
  | _ :: ns, _, _ => .bind (inputReadP_fit h) (inputReads_fit h ns _ _)

theorem slotRead_fit (ns : List Nat) (ht : 0 < t) : Fit l [] t (s.slotReadP ns ownerTag) :=
  have hc : Clear s l (if s.head.has l then [t] else []) t := Clear.none.head (u := 0) ht
  .call shared_raw (fun _ => no_args) (.bind (.read hc.2) (.bind (.call shared_raw hc.buf (.pure _))
    (inputReads_fit hc ns 0 _)))

end

/-- A call of a function that does nothing. -/
theorem Same.drop {α : Type} {k : Kind} {u : Nat} {r : Region} {m : Acts α} {n : Make α} (h : Same m n) :
    Same (calling k u r (fun _ => Acts.pure ()) >>= fun _ => m) (retag k u r >>= fun _ => n) := fun t =>
  ⟨(h (t + 1)).1, (h (t + 1)).2.1, congrArg (Event.retag k u t r :: ·) (h (t + 1)).2.2⟩

theorem outputWrite_same (s : Place) (d b pos n : Nat) : Same (s.outputWriteP d b pos n) (s.outputWrite d b pos n) :=
  .call fun _ => Same.drop <| by
    by_cases h : pos + n ≤ s.cap
    · rw [if_pos h, if_pos h]
      exact fun _ => ⟨rfl, rfl, rfl⟩
    · rw [if_neg h, if_neg h]
      exact .pure ()

theorem outputWrites_same (s : Place) (d b : Nat) : (ns : List Nat) → (pos : Nat) →
    Same (s.outputWritesP d b pos ns) (s.outputWrites d b pos ns)
  | [], _ => .pure ()
  | _ :: ns, _ => (outputWrite_same s d b _ _).bind fun _ => outputWrites_same s d b ns _

theorem inputRead_same (s : Place) (b pos n : Nat) : Same (s.inputReadP b pos n) (s.inputRead b pos n) :=
  Same.drop <| by
    by_cases h : pos + n ≤ s.cap
    · rw [if_pos h, if_pos h]
      exact fun _ => ⟨rfl, rfl, rfl⟩
    · rw [if_neg h, if_neg h]
      exact .pure ()

theorem inputReads_same (s : Place) (b : Nat) : (ns : List Nat) → (pos : Nat) →
    Same (s.inputReadsP b pos ns) (s.inputReads b pos ns)
  | [], _ => .pure ()
  | _ :: ns, _ => (inputRead_same s b _ _).bind fun _ => inputReads_same s b ns _

theorem slotWrite_same (s : Place) (d : Nat) (ns : List Nat) (ok : Bool) (u : Nat) :
    Same (s.slotWriteP d ns ok u) (s.slotWrite d ns ok u) :=
  .call fun self => (Same.lift (read self s.head)).bind fun _ =>
    Same.bind (n := retag .excl ownerTag s.buf) (fun _ => ⟨rfl, rfl, rfl⟩) fun b =>
      (outputWrites_same s d b ns 0).bind fun _ => by
        cases ok with
        | true => exact fun _ => ⟨rfl, rfl, rfl⟩
        | false => exact fun _ => ⟨rfl, rfl, rfl⟩

theorem slotRead_same (s : Place) (ns : List Nat) (u : Nat) : Same (s.slotReadP ns u) (s.slotRead ns u) :=
  .call fun self => (Same.lift (read self s.head)).bind fun _ =>
    Same.bind (n := retag .shared ownerTag s.buf) (fun _ => ⟨rfl, rfl, rfl⟩) fun b => inputReads_same s b ns 0

/-- With protectors, a call does the same. -/
theorem slotCall_same (s : Place) (d : Nat) (o : Owner) : (c : SlotCall) → plain (c.marks s d o) = (c.go s d o).2
  | .len => rfl
  | .capacity => rfl
  | .asSlice => rfl
  | .asMutSlice => rfl
  | .asPtr => rfl
  | .asMutPtr => rfl
  | .setLen _ => rfl
  | .copyFromSlice _ => rfl
  | .write ns ok => (slotWrite_same s d ns ok ownerTag o.next).2.2
  | .read ns => (slotRead_same s ns ownerTag o.next).2.2
  | .get h i => by
    show plain (match o.held[h]? with | some x => _ | none => []) = (match o.held[h]? with | some x => (o, _) | none => (o, [])).2
    cases o.held[h]? <;> rfl
  | .set h i => by
    show plain (match o.held[h]? with | some x => _ | none => []) = (match o.held[h]? with | some x => (o, _) | none => (o, [])).2
    cases o.held[h]? <;> rfl

theorem slotMarks_same (s : Place) (d : Nat) : (o : Owner) → (cs : List SlotCall) →
    plain (slotMarks s d o cs) = slotEvents s d o cs
  | _, [] => rfl
  | o, c :: cs => by
    show plain (c.marks s d o ++ slotMarks s d (c.go s d o).1 cs) = (c.go s d o).2 ++ _
    rw [plain_append, slotCall_same, slotMarks_same]

/-- A stream is never further than its capacity. -/
theorem position_fits {cap : Nat} : (ns : List Nat) → (pos : Nat) → pos ≤ cap → position cap pos ns ≤ cap
  | [], _, h => h
  | n :: ns, pos, h => by
    show position cap (if pos + n ≤ cap then pos + n else pos) ns ≤ cap
    split
    · rename_i h'
      exact position_fits ns _ h'
    · exact position_fits ns _ h

theorem slotCall_fits (s : Place) (d : Nat) (hd : Behind s d) (l : Nat) (o : Owner) (ho : 2 ≤ o.next) (hl : o.len ≤ s.cap)
    (c : SlotCall) (hc : SlotRoom s.cap [c]) :
    Fits l [] o.next (c.marks s d o) (c.go s d o).1.next ∧ (c.go s d o).1.len ≤ s.cap := by
  have h0 : ownerTag < o.next := by show 0 < o.next; omega
  cases c with
  | len => exact ⟨slotLen_fit .none h0, hl⟩
  | capacity => exact ⟨slotCapacity_fit .none h0, hl⟩
  | asSlice => exact ⟨slotSlice_fit o.len hl .none h0, hl⟩
  | asMutSlice => exact ⟨slotMutSlice_fit .none h0, hl⟩
  | asPtr => exact ⟨slotPtr_fit .none h0, hl⟩
  | asMutPtr => exact ⟨slotMutPtr_fit .none h0, hl⟩
  | setLen n => exact ⟨setLen_fit .none h0, (hc n).2 (.head _)⟩
  | copyFromSlice n => exact ⟨slotCopy_fit hd ((hc n).1 (.head _)) h0, (hc n).1 (.head _)⟩
  | write ns ok =>
    refine ⟨?_, ?_⟩
    · show Fits l [] o.next (s.slotWriteP d ns ok ownerTag o.next).2.2 (s.slotWrite d ns ok ownerTag o.next).2.1
      rw [← (slotWrite_same s d ns ok ownerTag o.next).2.1]
      exact slotWrite_fit hd ns ok h0
    · show (if ok = true then position s.cap 0 ns else o.len) ≤ s.cap
      split
      · exact position_fits ns 0 (Nat.zero_le _)
      · exact hl
  | read ns =>
    refine ⟨?_, hl⟩
    show Fits l [] o.next (s.slotReadP ns ownerTag o.next).2.2 (s.slotRead ns ownerTag o.next).2.1
    rw [← (slotRead_same s ns ownerTag o.next).2.1]
    exact slotRead_fit ns h0
  | get h i =>
    show Fits l [] o.next (match o.held[h]? with | some x => _ | none => [])
      (match o.held[h]? with | some x => (o, _) | none => (o, [])).1.next ∧
      (match o.held[h]? with | some x => (o, _) | none => (o, [])).1.len ≤ _
    cases o.held[h]? with
    | none => exact ⟨.nil, hl⟩
    | some x => exact ⟨.read (fun _ => no_args) .nil, hl⟩
  | set h i =>
    show Fits l [] o.next (match o.held[h]? with | some x => _ | none => [])
      (match o.held[h]? with | some x => (o, _) | none => (o, [])).1.next ∧
      (match o.held[h]? with | some x => (o, _) | none => (o, [])).1.len ≤ _
    cases o.held[h]? with
    | none => exact ⟨.nil, hl⟩
    | some x => exact ⟨.write (fun _ => no_args) .nil, hl⟩

theorem slotMarks_fit (s : Place) (d : Nat) (hd : Behind s d) (l : Nat) : (o : Owner) → 2 ≤ o.next → o.len ≤ s.cap →
    (cs : List SlotCall) → SlotRoom s.cap cs → ∃ t, Fits l [] o.next (slotMarks s d o cs) t
  | o, _, _, [], _ => ⟨_, .nil⟩
  | o, ho, hl, c :: cs, hc => by
    have single : SlotRoom s.cap [c] := fun n => ⟨fun h => (hc n).1 (List.mem_singleton.mp h ▸ .head _),
      fun h => (hc n).2 (List.mem_singleton.mp h ▸ .head _)⟩
    obtain ⟨h1, h2⟩ := slotCall_fits s d hd l o ho hl c single
    obtain ⟨t, ht⟩ := slotMarks_fit s d hd l (c.go s d o).1 (Nat.le_trans ho h1.grows) h2 cs
      fun n => ⟨fun h => (hc n).1 (.tail _ h), fun h => (hc n).2 (.tail _ h)⟩
    exact ⟨t, h1.append ht⟩

end Oct.Alias
