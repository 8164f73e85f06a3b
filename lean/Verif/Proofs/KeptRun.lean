import Verif.Proofs.TreeKept
import Verif.Model.IterBorrows
import Verif.Model.StreamBorrows
/-
All programs make new tags only.
-/
namespace Oct.Alias
open Spec

/-- Tags are made in order. -/
def Counted {α : Type} (m : Make α) : Prop := ∀ t, Counts t (m t).2.2 (m t).2.1

theorem Counted.bind {α β : Type} {m : Make α} {f : α → Make β} (h : Counted m) (h' : ∀ a, Counted (f a)) :
    Counted (m >>= f) := fun t => (h t).append (h' (m t).1 (m t).2.1)

theorem Counted.pure {α : Type} (a : α) : Counted (Pure.pure a : Make α) := fun _ => .nil
theorem Counted.made {α : Type} (a : α) : Counted (Make.pure a) := fun _ => .nil
theorem Counted.retag (k : Kind) (p : Nat) (r : Region) : Counted (retag k p r) := fun _ => .retag .nil
theorem Counted.read (p : Nat) (r : Region) : Counted (read p r) := fun _ => .read .nil
theorem Counted.write (p : Nat) (r : Region) : Counted (write p r) := fun _ => .write .nil

theorem Counted.ite {α : Type} {c : Prop} [Decidable c] {m m' : Make α} (h : Counted m) (h' : Counted m') :
    Counted (if c then m else m') := by
  split
  · exact h
  · exact h'

/-- Goes through a method. -/
macro "count" : tactic => `(tactic| repeat' (first
  | exact Counted.retag _ _ _ | exact Counted.read _ _ | exact Counted.write _ _ | exact Counted.pure _
  | exact Counted.made _ | assumption | apply Counted.bind | apply Counted.ite | intro _))

variable (s : Place)

theorem asPtr_counted (self : Nat) : Counted (s.asPtr self) := by unfold Place.asPtr; count
theorem asMutPtr_counted (self : Nat) : Counted (s.asMutPtr self) := by unfold Place.asMutPtr; count
theorem len_counted (self : Nat) : Counted (s.len self) := by unfold Place.len; count
theorem asSlice_counted (n self : Nat) : Counted (s.asSlice n self) := by
  unfold Place.asSlice Place.asPtr Place.len; count
theorem asMutSlice_counted (n self : Nat) : Counted (s.asMutSlice n self) := by
  unfold Place.asMutSlice Place.asMutPtr Place.len; count
theorem copyFromSlice_counted (data d n self : Nat) : Counted (s.copyFromSlice data d n self) := by
  unfold Place.copyFromSlice; count

theorem refs_counted (self : Nat) : ∀ k, Counted (s.refs self k)
  | 0 => .made _
  | k + 1 => (asPtr_counted s self).bind fun _ => (refs_counted self k).bind fun _ => .made _

theorem muts_counted (self : Nat) : ∀ k, Counted (s.muts self k)
  | 0 => .made _
  | k + 1 => (asMutPtr_counted s self).bind fun _ => (muts_counted self k).bind fun _ => .made _

theorem eachRef_counted (n self : Nat) : Counted (s.eachRef n self) :=
  (Counted.retag _ _ _).bind fun _ => (Counted.read _ _).bind fun _ => refs_counted s _ n

theorem eachMut_counted (n self : Nat) : Counted (s.eachMut n self) :=
  (Counted.retag _ _ _).bind fun _ => (Counted.read _ _).bind fun _ => muts_counted s _ n

theorem slotPtr_counted (self : Nat) : Counted (s.slotPtr self) := by unfold Place.slotPtr; count
theorem slotMutPtr_counted (self : Nat) : Counted (s.slotMutPtr self) := by unfold Place.slotMutPtr; count
theorem slotCapacity_counted (self : Nat) : Counted (s.slotCapacity self) := by unfold Place.slotCapacity; count
theorem slotLen_counted (self : Nat) : Counted (s.slotLen self) := by unfold Place.slotLen; count
theorem slotSlice_counted (n self : Nat) : Counted (s.slotSlice n self) := by
  unfold Place.slotSlice Place.slotPtr Place.slotLen; count
theorem slotMutSlice_counted (self : Nat) : Counted (s.slotMutSlice self) := by
  unfold Place.slotMutSlice Place.slotMutPtr Place.slotCapacity; count
theorem setLenUnchecked_counted (self : Nat) : Counted (s.setLenUnchecked self) := by
  unfold Place.setLenUnchecked Place.slotCapacity; count
theorem setLen_counted (self : Nat) : Counted (s.setLen self) := by
  unfold Place.setLen Place.setLenUnchecked Place.slotCapacity; count
theorem slotCopy_counted (d n self : Nat) : Counted (s.slotCopy d n self) := by
  unfold Place.slotCopy Place.setLenUnchecked Place.slotCapacity Place.slotMutPtr; count
theorem outputWrite_counted (d buf pos n : Nat) : Counted (s.outputWrite d buf pos n) := by
  unfold Place.outputWrite; count
theorem inputRead_counted (buf pos n : Nat) : Counted (s.inputRead buf pos n) := by
  unfold Place.inputRead; count

theorem outputWrites_counted (d buf : Nat) : ∀ (pos : Nat) (ns : List Nat), Counted (s.outputWrites d buf pos ns)
  | _, [] => .made _
  | _, _ :: ns => (outputWrite_counted s d buf _ _).bind fun _ => outputWrites_counted d buf _ ns

theorem inputReads_counted (buf : Nat) : ∀ (pos : Nat) (ns : List Nat), Counted (s.inputReads buf pos ns)
  | _, [] => .made _
  | _, _ :: ns => (inputRead_counted s buf _ _).bind fun _ => inputReads_counted buf _ ns

theorem slotWrite_counted (d : Nat) (ns : List Nat) (ok : Bool) (self : Nat) : Counted (s.slotWrite d ns ok self) :=
  (Counted.retag _ _ _).bind fun _ => (Counted.read _ _).bind fun _ => (Counted.retag _ _ _).bind fun _ =>
    (outputWrites_counted s d _ _ ns).bind fun _ => .ite (setLen_counted s _) (.made _)

theorem slotRead_counted (ns : List Nat) (self : Nat) : Counted (s.slotRead ns self) :=
  (Counted.retag _ _ _).bind fun _ => (Counted.read _ _).bind fun _ => (Counted.retag _ _ _).bind fun _ =>
    inputReads_counted s _ _ ns

theorem iterSlice_counted (pos len self : Nat) : Counted (s.iterSlice pos len self) := by unfold Place.iterSlice; count
theorem iterMutSlice_counted (pos len self : Nat) : Counted (s.iterMutSlice pos len self) := by
  unfold Place.iterMutSlice; count
theorem iterTake_counted (i self : Nat) : Counted (s.iterTake i self) := by unfold Place.iterTake; count
theorem iterNext_counted (len i self : Nat) : Counted (s.iterNext len i self) := by
  unfold Place.iterNext Place.iterTake; count
theorem iterHint_counted (self : Nat) : Counted (s.iterHint self) := by unfold Place.iterHint; count

theorem iterDrops_counted (iter : Nat) : ∀ pos k, Counted (s.iterDrops iter pos k)
  | _, 0 => .made _
  | _, k + 1 => (Counted.retag _ _ _).bind fun _ => (Counted.write _ _).bind fun _ => iterDrops_counted iter _ k

theorem iterClones_counted (self : Nat) : ∀ pos k, Counted (s.iterClones self pos k)
  | _, 0 => .made _
  | _, k + 1 => (Counted.retag _ _ _).bind fun _ => (Counted.retag _ _ _).bind fun _ => (Counted.retag _ _ _).bind fun _ =>
    (Counted.read _ _).bind fun _ => iterClones_counted self _ k

theorem iterNth_counted (pos len index self : Nat) : Counted (s.iterNth pos len index self) :=
  (Counted.retag _ _ _).bind fun _ => (Counted.read _ _).bind fun _ => .ite (.made _) <|
    (Counted.retag _ _ _).bind fun _ => (Counted.retag _ _ _).bind fun _ => (Counted.retag _ _ _).bind fun _ =>
    (iterDrops_counted s _ _ _).bind fun _ => (iterTake_counted s _ _).bind fun _ => .write _ _

theorem iterClone_counted (pos len self : Nat) : Counted (s.iterClone pos len self) :=
  (Counted.retag _ _ _).bind fun _ => (Counted.read _ _).bind fun _ => iterClones_counted s _ _ _

theorem streamCapacity_counted (self : Nat) : Counted (s.streamCapacity self) := by unfold Place.streamCapacity; count
theorem streamPosition_counted (self : Nat) : Counted (s.streamPosition self) := by unfold Place.streamPosition; count
theorem streamRemaining_counted (self : Nat) : Counted (s.streamRemaining self) :=
  (streamCapacity_counted s _).bind fun _ => streamPosition_counted s _
theorem streamRead_counted (pos n self : Nat) : Counted (s.streamRead pos n self) := by unfold Place.streamRead; count
theorem streamReadInto_counted (d pos n self : Nat) : Counted (s.streamReadInto d pos n self) := by
  unfold Place.streamReadInto Place.streamRemaining Place.streamCapacity Place.streamPosition; count
theorem streamWrite_counted (d pos n self : Nat) : Counted (s.streamWrite d pos n self) := by
  unfold Place.streamWrite; count
theorem streamPtr_counted (self : Nat) : Counted (s.streamPtr self) := by unfold Place.streamPtr; count
theorem streamSlice_counted (pos self : Nat) : Counted (s.streamSlice pos self) := by
  unfold Place.streamSlice Place.streamPtr Place.streamPosition; count

/-! Programs in general. -/

/-- A kind of programs: what a call does to a state, and the next tag and the references in it. -/
structure Device (σ κ : Type) where
  go : σ → κ → σ × List Event
  next : σ → Nat
  held : σ → List Held
  get : Nat → Nat → κ
  counts : ∀ o c, Counts (next o) (go o c).2 (next (go o c).1)
  keeps : ∀ o c, ∃ hs, held (go o c).1 = held o ++ hs
  looks : ∀ o k i x, (held o)[k]? = some x → (go o (get k i)).2 = [.read x.tag ⟨x.r.lo + i, 1⟩]

variable {σ κ : Type} (D : Device σ κ)

def Device.events : σ → List κ → List Event
  | _, [] => []
  | o, c :: cs => (D.go o c).2 ++ Device.events (D.go o c).1 cs

def Device.after : σ → List κ → σ
  | o, [] => o
  | o, c :: cs => Device.after (D.go o c).1 cs

theorem Device.events_append : ∀ (o : σ) (cs ds : List κ), D.events o (cs ++ ds) = D.events o cs ++ D.events (D.after o cs) ds
  | _, [], _ => rfl
  | o, c :: cs, ds => by
    show (D.go o c).2 ++ D.events _ (cs ++ ds) = ((D.go o c).2 ++ D.events _ cs) ++ _
    rw [Device.events_append _ cs ds, List.append_assoc]
    rfl

theorem Device.after_append : ∀ (o : σ) (cs ds : List κ), D.after o (cs ++ ds) = D.after (D.after o cs) ds
  | _, [], _ => rfl
  | o, c :: cs, ds => Device.after_append (D.go o c).1 cs ds

theorem Device.events_counts : ∀ (o : σ) (cs : List κ), Counts (D.next o) (D.events o cs) (D.next (D.after o cs))
  | _, [] => .nil
  | o, c :: cs => (D.counts o c).append (Device.events_counts (D.go o c).1 cs)

theorem Device.after_keeps : ∀ (o : σ) (cs : List κ), ∃ hs, D.held (D.after o cs) = D.held o ++ hs
  | _, [] => ⟨[], (List.append_nil _).symm⟩
  | o, c :: cs => by
    obtain ⟨h1, e1⟩ := D.keeps o c
    obtain ⟨h2, e2⟩ := Device.after_keeps (D.go o c).1 cs
    exact ⟨h1 ++ h2, by rw [show D.held (D.after o (c :: cs)) = _ from e2, e1, List.append_assoc]⟩

theorem Device.still {o : σ} {k : Nat} {x : Held} (h : (D.held o)[k]? = some x) (cs : List κ) :
    (D.held (D.after o cs))[k]? = some x := by
  obtain ⟨hs, e⟩ := D.after_keeps o cs
  rw [e, List.getElem?_append_left (List.getElem?_eq_some_iff.mp h).1, h]

theorem Device.look {o : σ} {k i : Nat} {x : Held} (h : (D.held o)[k]? = some x) :
    D.events o [D.get k i] = [.read x.tag ⟨x.r.lo + i, 1⟩] := by
  show (D.go o (D.get k i)).2 ++ [] = _
  rw [List.append_nil, D.looks o k i x h]

/-- What may be looked at may be looked at for as long as nothing is written there. -/
theorem Device.kept {p : Place} {o : σ} {cs ds : List κ} {k i : Nat} {x : Held} (h0 : D.next o = 2)
    (hx : (D.held (D.after o cs))[k]? = some x) (h : Defined Tree p (D.events o (cs ++ ds)))
    (hr : Defined Tree p (D.events o (cs ++ [D.get k i])))
    (hw : ¬ WrittenAt (D.events (D.after o cs) ds) (x.r.lo + i)) :
    Defined Tree p (D.events o (cs ++ ds ++ [D.get k i])) := by
  rw [D.events_append, D.events_append, D.after_append, D.look (D.still hx ds)]
  rw [D.events_append] at h
  rw [D.events_append, D.look hx] at hr
  exact tree_kept (h0 ▸ D.events_counts o cs) (D.events_counts (D.after o cs) ds) h hr hw

/-- What a call returned last as a shared reference may be looked at exactly for as long as nothing is written there. -/
theorem Device.exactly {p : Place} {o : σ} {cs ds : List κ} {c : κ} {i u : Nat} {pre : List Event} {r : Region}
    (h0 : D.next o = 2) (hi : i < r.size)
    (n : Nat) (hp : Counts (D.next (D.after o cs)) pre n) (he : (D.go (D.after o cs) c).2 = pre ++ [.retag .shared u n r])
    (hn : D.next (D.go (D.after o cs) c).1 = n + 1)
    (hh : D.held (D.go (D.after o cs) c).1 = D.held (D.after o cs) ++ [⟨n, r⟩])
    (h : Defined Tree p (D.events o (cs ++ c :: ds))) :
    Defined Tree p (D.events o (cs ++ c :: (ds ++ [D.get (D.held (D.after o cs)).length i]))) ↔
      ¬ WrittenAt (D.events (D.go (D.after o cs) c).1 ds) (r.lo + i) := by
  have hx : (D.held (D.go (D.after o cs) c).1)[(D.held (D.after o cs)).length]? = some ⟨n, r⟩ := by
    rw [hh]
    simp
  have e1 : D.events o (cs ++ c :: ds) = (D.events o cs ++ pre ++ [.retag .shared u n r]) ++
      D.events (D.go (D.after o cs) c).1 ds := by
    rw [D.events_append]
    show _ ++ ((D.go (D.after o cs) c).2 ++ _) = _
    rw [he]
    simp only [List.append_assoc]
  have e2 : D.events o (cs ++ c :: (ds ++ [D.get (D.held (D.after o cs)).length i])) =
      (D.events o cs ++ pre ++ [.retag .shared u n r]) ++ D.events (D.go (D.after o cs) c).1 ds ++
        [.read n ⟨r.lo + i, 1⟩] := by
    rw [D.events_append]
    show _ ++ ((D.go (D.after o cs) c).2 ++ D.events _ (ds ++ _)) = _
    rw [D.events_append, D.look (D.still hx ds), he]
    simp only [List.append_assoc]
  rw [e1] at h
  rw [e2]
  refine tree_exactly ((h0 ▸ D.events_counts o cs : Counts 2 _ _).append hp) (hn ▸ D.events_counts _ ds) ?_ h
  rw [has_iff]
  omega

/-! The four kinds of programs. -/

theorem look_held {o : List Held} {k i : Nat} {x : Held} {σ : Type} (a : σ) (h : o[k]? = some x) :
    (match o[k]? with
      | some x => (a, [Event.read x.tag ⟨x.r.lo + i, 1⟩])
      | none => (a, [])).2 = [.read x.tag ⟨x.r.lo + i, 1⟩] := by rw [h]

def sliceDevice (s : Place) (d : Nat) : Device Owner Call where
  go o c := c.go s d o
  next := Owner.next
  held := Owner.held
  get := .get
  counts o c := by
    cases c with
    | len => exact len_counted s _ _
    | asSlice => exact asSlice_counted s _ _ _
    | asMutSlice => exact asMutSlice_counted s _ _ _
    | copyFromSlice n => exact copyFromSlice_counted s _ _ _ _ _
    | eachRef => exact eachRef_counted s _ _ _
    | eachMut => exact eachMut_counted s _ _ _
    | get h i =>
      simp only [Call.go]
      split
      · exact .read .nil
      · exact .nil
    | set h i =>
      simp only [Call.go]
      split
      · exact .write .nil
      · exact .nil
  keeps o c := by
    cases c with
    | len => exact ⟨[], (List.append_nil _).symm⟩
    | asSlice => exact ⟨_, rfl⟩
    | asMutSlice => exact ⟨_, rfl⟩
    | copyFromSlice n => exact ⟨[], (List.append_nil _).symm⟩
    | eachRef => exact ⟨_, rfl⟩
    | eachMut => exact ⟨_, rfl⟩
    | get h i => simp only [Call.go]; split <;> exact ⟨[], (List.append_nil _).symm⟩
    | set h i => simp only [Call.go]; split <;> exact ⟨[], (List.append_nil _).symm⟩
  looks o _ _ _ h := look_held o h

def slotDevice (s : Place) (d : Nat) : Device Owner SlotCall where
  go o c := c.go s d o
  next := Owner.next
  held := Owner.held
  get := .get
  counts o c := by
    cases c with
    | len => exact slotLen_counted s _ _
    | capacity => exact slotCapacity_counted s _ _
    | asSlice => exact slotSlice_counted s _ _ _
    | asMutSlice => exact slotMutSlice_counted s _ _
    | asPtr => exact slotPtr_counted s _ _
    | asMutPtr => exact slotMutPtr_counted s _ _
    | setLen n => exact setLen_counted s _ _
    | copyFromSlice n => exact slotCopy_counted s _ _ _ _
    | write ns ok => exact slotWrite_counted s _ _ _ _ _
    | read ns => exact slotRead_counted s _ _ _
    | get h i =>
      simp only [SlotCall.go]
      split
      · exact .read .nil
      · exact .nil
    | set h i =>
      simp only [SlotCall.go]
      split
      · exact .write .nil
      · exact .nil
  keeps o c := by
    cases c with
    | asSlice => exact ⟨_, rfl⟩
    | asMutSlice => exact ⟨_, rfl⟩
    | asPtr => exact ⟨_, rfl⟩
    | asMutPtr => exact ⟨_, rfl⟩
    | get h i => simp only [SlotCall.go]; split <;> exact ⟨[], (List.append_nil _).symm⟩
    | set h i => simp only [SlotCall.go]; split <;> exact ⟨[], (List.append_nil _).symm⟩
    | _ => exact ⟨[], (List.append_nil _).symm⟩
  looks o _ _ _ h := look_held o h

def iterDevice (s : Place) : Device Cursor IterCall where
  go o c := c.go s o
  next := Cursor.next
  held := Cursor.held
  get := .get
  counts o c := by
    cases c with
    | asSlice => exact iterSlice_counted s _ _ _ _
    | asMutSlice => exact iterMutSlice_counted s _ _ _ _
    | next => exact iterNext_counted s _ _ _ _
    | nextBack => exact iterNext_counted s _ _ _ _
    | nth i =>
      simp only [IterCall.go]
      split <;> exact iterNth_counted s _ _ _ _ _
    | clone => exact iterClone_counted s _ _ _ _
    | sizeHint => exact iterHint_counted s _ _
    | get h i =>
      simp only [IterCall.go]
      split
      · exact .read .nil
      · exact .nil
    | set h i =>
      simp only [IterCall.go]
      split
      · exact .write .nil
      · exact .nil
  keeps o c := by
    cases c with
    | asSlice => exact ⟨_, rfl⟩
    | asMutSlice => exact ⟨_, rfl⟩
    | nth i => simp only [IterCall.go]; split <;> exact ⟨[], (List.append_nil _).symm⟩
    | get h i => simp only [IterCall.go]; split <;> exact ⟨[], (List.append_nil _).symm⟩
    | set h i => simp only [IterCall.go]; split <;> exact ⟨[], (List.append_nil _).symm⟩
    | _ => exact ⟨[], (List.append_nil _).symm⟩
  looks o _ _ _ h := look_held o h

def streamDevice (s : Place) (d : Nat) : Device Owner StreamCall where
  go o c := c.go s d o
  next := Owner.next
  held := Owner.held
  get := .get
  counts o c := by
    cases c with
    | read n =>
      simp only [StreamCall.go]
      split <;> exact streamRead_counted s _ _ _ _
    | readInto n => exact streamReadInto_counted s _ _ _ _ _
    | write n => exact streamWrite_counted s _ _ _ _ _
    | asPtr => exact streamPtr_counted s _ _
    | asSlice => exact streamSlice_counted s _ _ _
    | capacity => exact streamCapacity_counted s _ _
    | position => exact streamPosition_counted s _ _
    | remaining => exact streamRemaining_counted s _ _
    | get h i =>
      simp only [StreamCall.go]
      split
      · exact .read .nil
      · exact .nil
  keeps o c := by
    cases c with
    | read n =>
      simp only [StreamCall.go]
      split
      · exact ⟨_, rfl⟩
      · exact ⟨[], (List.append_nil _).symm⟩
    | asSlice => exact ⟨_, rfl⟩
    | asPtr => exact ⟨_, rfl⟩
    | get h i => simp only [StreamCall.go]; split <;> exact ⟨[], (List.append_nil _).symm⟩
    | _ => exact ⟨[], (List.append_nil _).symm⟩
  looks o _ _ _ h := look_held o h

theorem slice_events (s : Place) (d : Nat) : ∀ (o : Owner) (cs : List Call), (sliceDevice s d).events o cs = events s d o cs
  | _, [] => rfl
  | o, c :: cs => congrArg ((c.go s d o).2 ++ ·) (slice_events s d (c.go s d o).1 cs)
theorem slice_after (s : Place) (d : Nat) : ∀ (o : Owner) (cs : List Call), (sliceDevice s d).after o cs = ownerAfter s d o cs
  | _, [] => rfl
  | o, c :: cs => slice_after s d (c.go s d o).1 cs
theorem slot_events (s : Place) (d : Nat) : ∀ (o : Owner) (cs : List SlotCall),
    (slotDevice s d).events o cs = slotEvents s d o cs
  | _, [] => rfl
  | o, c :: cs => congrArg ((c.go s d o).2 ++ ·) (slot_events s d (c.go s d o).1 cs)
theorem slot_after (s : Place) (d : Nat) : ∀ (o : Owner) (cs : List SlotCall),
    (slotDevice s d).after o cs = slotAfter s d o cs
  | _, [] => rfl
  | o, c :: cs => slot_after s d (c.go s d o).1 cs
theorem iter_events (s : Place) : ∀ (o : Cursor) (cs : List IterCall), (iterDevice s).events o cs = iterEvents s o cs
  | _, [] => rfl
  | o, c :: cs => congrArg ((c.go s o).2 ++ ·) (iter_events s (c.go s o).1 cs)
theorem iter_after (s : Place) : ∀ (o : Cursor) (cs : List IterCall), (iterDevice s).after o cs = iterAfter s o cs
  | _, [] => rfl
  | o, c :: cs => iter_after s (c.go s o).1 cs
theorem stream_events (s : Place) (d : Nat) : ∀ (o : Owner) (cs : List StreamCall),
    (streamDevice s d).events o cs = streamEvents s d o cs
  | _, [] => rfl
  | o, c :: cs => congrArg ((c.go s d o).2 ++ ·) (stream_events s d (c.go s d o).1 cs)
theorem stream_after (s : Place) (d : Nat) : ∀ (o : Owner) (cs : List StreamCall),
    (streamDevice s d).after o cs = streamAfter s d o cs
  | _, [] => rfl
  | o, c :: cs => stream_after s d (c.go s d o).1 cs

end Oct.Alias
