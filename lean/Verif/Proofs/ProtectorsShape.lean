import Verif.Spec.Protectors
/-
When functions are entered and left.
-/
namespace Oct.Alias
open Spec

def Shown (ms : List Mark) (bs : List Beat) : Prop :=
  ∀ st rest, beats st (ms ++ rest) = (beats st rest).map (bs ++ ·)

theorem Shown.all {ms : List Mark} {bs : List Beat} (h : Shown ms bs) : beats [] ms = some bs := by
  have := h [] []
  rw [List.append_nil] at this
  rw [this]
  simp [beats]

/-- What it consists of. -/
def Shows {α : Type} (m : Acts α) (bs : List Beat) : Prop := ∀ t, Shown (m t).2.2 bs

theorem Shows.bind {α β : Type} {m : Acts α} {f : α → Acts β} {as bs : List Beat} (h : Shows m as)
    (h' : ∀ a, Shows (f a) bs) : Shows (m >>= f) (as ++ bs) := by
  intro t st rest
  show beats st (((m t).2.2 ++ (f (m t).1 (m t).2.1).2.2) ++ rest) = _
  rw [List.append_assoc, h t, h' _ _, Option.map_map]
  congr 1
  funext x
  simp

theorem Shows.pure {α : Type} (a : α) : Shows (Acts.pure a) [] := by
  intro t st rest
  show beats st rest = _
  simp

theorem Shows.event {α : Type} {m : Make α} (e : Nat → Event) (h : ∀ t, (m t).2.2 = [e t]) :
    Shows (Alias.lift m) [.does] := by
  intro t st rest
  show beats st ((m t).2.2.map Mark.event ++ rest) = _
  rw [h]
  cases st <;> rfl

theorem Shows.retag {k : Kind} {u : Nat} {r : Region} : Shows (Alias.lift (Alias.retag k u r)) [.does] :=
  .event (fun t => .retag k u t r) fun _ => rfl

theorem Shows.read {u : Nat} {r : Region} : Shows (Alias.lift (Alias.read u r)) [.does] := .event (fun _ => .read u r) fun _ => rfl

theorem Shows.write {u : Nat} {r : Region} : Shows (Alias.lift (Alias.write u r)) [.does] :=
  .event (fun _ => .write u r) fun _ => rfl

theorem Shows.call {α : Type} {k : Kind} {u : Nat} {r : Region} {f : Nat → Acts α} {bs : List Beat}
    (h : ∀ q, Shows (f q) bs) : Shows (calling k u r f) (.into k r :: (bs ++ [.out])) := by
  intro t st rest
  have e : beats st (.enter k u t r :: ((f t (t + 1)).2.2 ++ (.leave t r :: rest))) =
      (beats ((t, r) :: st) ((f t (t + 1)).2.2 ++ (.leave t r :: rest))).map (.into k r :: ·) := by cases st <;> rfl
  show beats st (.enter k u t r :: ((f t (t + 1)).2.2 ++ [.leave t r]) ++ rest) = _
  rw [List.cons_append, List.append_assoc, List.singleton_append, e, h t (t + 1)]
  simp only [beats, and_self, if_true, Option.map_map]
  congr 1
  funext x
  simp

theorem Shows.cast {α : Type} {m : Acts α} {as bs : List Beat} (h : Shows m as) (e : as = bs) : Shows m bs := e ▸ h

variable (s : Place)

theorem asPtr_shows (u : Nat) : Shows (s.asPtrP u) (ptrBeats s .shared) := .call fun _ => .call fun _ => .retag

theorem asMutPtr_shows (u : Nat) : Shows (s.asMutPtrP u) (ptrBeats s .excl) := .call fun _ => .call fun _ => .retag

theorem len_shows (u : Nat) : Shows (s.lenP u) [.into .shared s.whole, .does, .out] := .call fun _ => .read

theorem asSlice_shows (n u : Nat) : Shows (s.asSliceP n u) (callBeats s d l .asSlice) :=
  .call fun _ => .bind (asPtr_shows s _) fun _ => .bind (len_shows s _) fun _ => .retag

theorem asMutSlice_shows (n u : Nat) : Shows (s.asMutSliceP n u) (callBeats s d l .asMutSlice) :=
  .call fun _ => .bind (asMutPtr_shows s _) fun _ => .bind (len_shows s _) fun _ => .retag

theorem copy_shows (x d n u : Nat) : Shows (s.copyFromSliceP x d n u) (callBeats s d l (.copyFromSlice n)) :=
  .call fun _ => .call fun _ => .bind (.call fun _ => .retag) fun _ => .bind .read fun _ => .bind .write fun _ =>
    .call fun _ => .write

theorem refs_shows (u : Nat) : (n : Nat) → Shows (s.refsP u n) (List.replicate n (ptrBeats s .shared)).flatten
  | 0 => .pure _
  | n + 1 => ((Shows.bind (asPtr_shows s u) fun _ => .bind (refs_shows u n) fun _ => .pure _)).cast (by
      rw [List.replicate_succ, List.flatten_cons, List.append_nil])

theorem muts_shows (u : Nat) : (n : Nat) → Shows (s.mutsP u n) (List.replicate n (ptrBeats s .excl)).flatten
  | 0 => .pure _
  | n + 1 => ((Shows.bind (asMutPtr_shows s u) fun _ => .bind (muts_shows u n) fun _ => .pure _)).cast (by
      rw [List.replicate_succ, List.flatten_cons, List.append_nil])

theorem eachRef_shows (n u : Nat) : Shows (s.eachRefP n u) (callBeats s d n .eachRef) :=
  .call fun _ => .bind .read fun _ => refs_shows s _ n

theorem eachMut_shows (n u : Nat) : Shows (s.eachMutP n u) (callBeats s d n .eachMut) :=
  .call fun _ => .bind .read fun _ => muts_shows s _ n

theorem does_shown (e : Event) : Shown [.event e] [.does] := by
  intro st rest
  cases st <;> rfl

/-- Sized slices. -/
theorem call_shown (d : Nat) (o : Owner) (c : Call) (h : ∀ k i, c = .get k i ∨ c = .set k i → k < o.held.length) :
    Shown (c.marks s d o) (callBeats s d o.len c) := by
  cases c with
  | len => exact len_shows s _ _
  | asSlice => exact asSlice_shows s _ _ _
  | asMutSlice => exact asMutSlice_shows s _ _ _
  | copyFromSlice n => exact copy_shows s _ _ _ _ _
  | eachRef => exact eachRef_shows s _ _ _
  | eachMut => exact eachMut_shows s _ _ _
  | get k i =>
    have e := List.getElem?_eq_getElem (h k i (.inl rfl))
    simp only [Call.marks, e]
    exact does_shown _
  | set k i =>
    have e := List.getElem?_eq_getElem (h k i (.inr rfl))
    simp only [Call.marks, e]
    exact does_shown _

theorem slotPtr_shows (u : Nat) : Shows (s.slotPtrP u) (slotPtrBeats s .shared) :=
  .call fun _ => .bind .read fun _ => .call fun _ => .retag

theorem slotMutPtr_shows (u : Nat) : Shows (s.slotMutPtrP u) (slotPtrBeats s .excl) :=
  .call fun _ => .bind .read fun _ => .call fun _ => .retag

theorem capacity_shows (u : Nat) : Shows (s.slotCapacityP u) (capacityBeats s) :=
  .call fun _ => .bind .read fun _ => .call fun _ => .pure _

theorem slotLen_shows (u : Nat) : Shows (s.slotLenP u) (slotLenBeats s) := .call fun _ => .read

theorem slotSlice_shows (n u : Nat) : Shows (s.slotSliceP n u) (slotCallBeats s d .asSlice) :=
  (Shows.call fun _ => .bind (slotPtr_shows s _) fun _ => .bind (slotLen_shows s _) fun _ => .retag).cast rfl

theorem slotMutSlice_shows (u : Nat) : Shows (s.slotMutSliceP u) (slotCallBeats s d .asMutSlice) :=
  (Shows.call fun _ => .bind (slotMutPtr_shows s _) fun _ => .bind (capacity_shows s _) fun _ => .retag).cast rfl

theorem setLenUnchecked_shows (u : Nat) : Shows (s.setLenUncheckedP u) (setBeats s) :=
  (Shows.call fun _ => .bind (capacity_shows s _) fun _ => .write).cast rfl

theorem setLen_shows (u n : Nat) : Shows (s.setLenP u) (slotCallBeats s d (.setLen n)) :=
  (Shows.call fun _ => .bind (capacity_shows s _) fun _ => setLenUnchecked_shows s _).cast rfl

theorem slotCopy_shows (d n u : Nat) : Shows (s.slotCopyP d n u) (slotCallBeats s d (.copyFromSlice n)) :=
  (Shows.call fun _ => .call fun _ => .bind (capacity_shows s _) fun _ => .bind (slotMutPtr_shows s _) fun _ =>
    .bind .read fun _ => .bind .write fun _ => setLenUnchecked_shows s _).cast rfl

theorem outputWrites_shows (d b : Nat) : (pos : Nat) → (ns : List Nat) →
    Shows (s.outputWritesP d b pos ns) (writeBeats s d pos ns)
  | _, [] => .pure _
  | pos, n :: ns => by
    have ih := outputWrites_shows d b (if pos + n ≤ s.cap then pos + n else pos) ns
    unfold Place.outputWritesP writeBeats
    by_cases h : pos + n ≤ s.cap
    · rw [if_pos h] at ih ⊢
      rw [if_pos h]
      refine .bind (m := s.outputWriteP d b pos n) ?_ fun _ => ih
      unfold Place.outputWriteP
      simp only [if_pos h]
      exact .call fun _ => .bind (.call fun _ => .pure _) fun _ => .bind (.call fun _ => .retag) fun _ =>
        .bind .read fun _ => .write
    · rw [if_neg h] at ih ⊢
      rw [if_neg h]
      refine .bind (m := s.outputWriteP d b pos n) ?_ fun _ => ih
      unfold Place.outputWriteP
      simp only [if_neg h]
      exact .call fun _ => .bind (.call fun _ => .pure _) fun _ => .pure _

theorem inputReads_shows (b : Nat) : (pos : Nat) → (ns : List Nat) → Shows (s.inputReadsP b pos ns) (readBeats s pos ns)
  | _, [] => .pure _
  | pos, n :: ns => by
    have ih := inputReads_shows b (if pos + n ≤ s.cap then pos + n else pos) ns
    unfold Place.inputReadsP readBeats
    by_cases h : pos + n ≤ s.cap
    · rw [if_pos h] at ih ⊢
      rw [if_pos h]
      refine .bind (m := s.inputReadP b pos n) ?_ fun _ => ih
      unfold Place.inputReadP
      rw [if_pos h]
      exact .bind (.call fun _ => .pure _) fun _ => .bind (.call fun _ => .retag) fun _ => .read
    · rw [if_neg h] at ih ⊢
      rw [if_neg h]
      refine .bind (m := s.inputReadP b pos n) ?_ fun _ => ih
      unfold Place.inputReadP
      rw [if_neg h]
      exact .bind (.call fun _ => .pure _) fun _ => .pure _

theorem slotWrite_shows (d : Nat) (ns : List Nat) (ok : Bool) (u : Nat) :
    Shows (s.slotWriteP d ns ok u) (slotCallBeats s d (.write ns ok)) := by
  refine (Shows.call fun q => .bind .read fun _ => .bind (.call fun _ => .pure _) fun _ =>
    .bind (outputWrites_shows s d _ 0 ns) fun _ => ?_).cast rfl
  cases ok with
  | true => exact setLen_shows (d := d) s q 0
  | false => exact .pure _

theorem slotRead_shows (d : Nat) (ns : List Nat) (u : Nat) : Shows (s.slotReadP ns u) (slotCallBeats s d (.read ns)) :=
  (Shows.call fun _ => .bind .read fun _ => .bind (.call fun _ => .pure _) fun _ => inputReads_shows s _ 0 ns).cast rfl

/-- Slots. -/
theorem slotCall_shown (d : Nat) (o : Owner) (c : SlotCall) (h : ∀ k i, c = .get k i ∨ c = .set k i → k < o.held.length) :
    Shown (c.marks s d o) (slotCallBeats s d c) := by
  cases c with
  | len => exact slotLen_shows s _ _
  | capacity => exact capacity_shows s _ _
  | asSlice => exact slotSlice_shows s _ _ _
  | asMutSlice => exact slotMutSlice_shows s _ _
  | asPtr => exact slotPtr_shows s _ _
  | asMutPtr => exact slotMutPtr_shows s _ _
  | setLen n => exact setLen_shows s _ _ _
  | copyFromSlice n => exact slotCopy_shows s _ _ _ _
  | write ns ok => exact slotWrite_shows s _ _ _ _ _
  | read ns => exact slotRead_shows s _ _ _ _
  | get k i =>
    have e := List.getElem?_eq_getElem (h k i (.inl rfl))
    simp only [SlotCall.marks, e]
    exact does_shown _
  | set k i =>
    have e := List.getElem?_eq_getElem (h k i (.inr rfl))
    simp only [SlotCall.marks, e]
    exact does_shown _

end Oct.Alias
