import Verif.Proofs.PtrTree
/-
No call uses what earlier calls made and did not return.
-/
namespace Oct.Alias
open Spec

/-- All is done by late pointers. -/
def Keen (t : Nat) (es : List Event) : Prop := ∀ e ∈ es, Late t e.user

theorem Keen.append {t : Nat} {es fs : List Event} (h : Keen t es) (h' : Keen t fs) : Keen t (es ++ fs) :=
  fun e he => (List.mem_append.mp he).elim (h e) (h' e)

theorem Keen.one {t : Nat} {e : Event} (h : Late t e.user) : Keen t [e] := fun _ he => by
  cases he with
  | head => exact h
  | tail _ he => cases he

theorem Keen.untouched {t b : Nat} {es : List Event} (h : Keen t es) (hb : 2 ≤ b) (ht : b < t) : Untouched b es :=
  fun e he eq => (h e he).elim (fun h => by omega) (fun h => by omega)

/-- It uses late pointers. -/
def Strides (t : Nat) {α : Type} (m : Make α) : Prop := ∀ t', t ≤ t' → t' ≤ (m t').2.1 ∧ Keen t (m t').2.2

/-- Its result is late, too, and older than what is made next. -/
def StridesTo (t : Nat) (m : Make Nat) : Prop := ∀ t', t ≤ t' →
  t' ≤ (m t').2.1 ∧ Keen t (m t').2.2 ∧ t ≤ (m t').1 ∧ (m t').1 < (m t').2.1

variable {t : Nat}

theorem StridesTo.strides {m : Make Nat} (h : StridesTo t m) : Strides t m := fun t' ht => ⟨(h t' ht).1, (h t' ht).2.1⟩

theorem StridesTo.bindTo {m : Make Nat} {f : Nat → Make Nat} (h : StridesTo t m) (h' : ∀ a, Late t a → StridesTo t (f a)) :
    StridesTo t (m >>= f) := fun t' ht => by
  obtain ⟨h1, h2, h3, _⟩ := h t' ht
  obtain ⟨h4, h5, h6⟩ := h' _ (.inr h3) _ (Nat.le_trans ht h1)
  exact ⟨Nat.le_trans h1 h4, h2.append h5, h6⟩

theorem StridesTo.bind {β : Type} {m : Make Nat} {f : Nat → Make β} (h : StridesTo t m) (h' : ∀ a, Late t a → Strides t (f a)) :
    Strides t (m >>= f) := fun t' ht => by
  obtain ⟨h1, h2, h3, _⟩ := h t' ht
  obtain ⟨h4, h5⟩ := h' _ (.inr h3) _ (Nat.le_trans ht h1)
  exact ⟨Nat.le_trans h1 h4, h2.append h5⟩

theorem Strides.bindTo {α : Type} {m : Make α} {f : α → Make Nat} (h : Strides t m) (h' : ∀ a, StridesTo t (f a)) :
    StridesTo t (m >>= f) := fun t' ht => by
  obtain ⟨h1, h2⟩ := h t' ht
  obtain ⟨h4, h5, h6⟩ := h' (m t').1 _ (Nat.le_trans ht h1)
  exact ⟨Nat.le_trans h1 h4, h2.append h5, h6⟩

theorem Strides.bind {α β : Type} {m : Make α} {f : α → Make β} (h : Strides t m) (h' : ∀ a, Strides t (f a)) :
    Strides t (m >>= f) := fun t' ht => by
  obtain ⟨h1, h2⟩ := h t' ht
  obtain ⟨h4, h5⟩ := h' (m t').1 _ (Nat.le_trans ht h1)
  exact ⟨Nat.le_trans h1 h4, h2.append h5⟩

theorem Strides.made {α : Type} (a : α) : Strides t (Make.pure a) := fun t' _ => ⟨Nat.le_refl t', fun _ h => nomatch h⟩
theorem Strides.pure {α : Type} (a : α) : Strides t (Pure.pure a : Make α) := Strides.made a

theorem StridesTo.retag (k : Kind) {p : Nat} (r : Region) (h : Late t p) : StridesTo t (retag k p r) := fun t' ht =>
  ⟨Nat.le_succ t', Keen.one h, ht, Nat.lt_succ_self t'⟩
theorem Strides.read {p : Nat} (r : Region) (h : Late t p) : Strides t (read p r) := fun t' _ => ⟨Nat.le_refl t', Keen.one h⟩
theorem Strides.write {p : Nat} (r : Region) (h : Late t p) : Strides t (write p r) := fun t' _ => ⟨Nat.le_refl t', Keen.one h⟩

theorem Strides.ite {α : Type} {c : Prop} [Decidable c] {m m' : Make α} (h : Strides t m) (h' : Strides t m') :
    Strides t (if c then m else m') := by
  split
  · exact h
  · exact h'

/-- Goes through a method. -/
macro "stride" : tactic => `(tactic| repeat' (first
  | assumption | exact late_owner | exact late_data | apply Strides.read | apply Strides.write | exact Strides.made _
  | exact Strides.pure _ | apply StridesTo.retag | apply StridesTo.bindTo | apply Strides.bindTo | apply StridesTo.bind
  | apply Strides.bind | apply Strides.ite | exact (StridesTo.retag _ _ (by assumption)).strides
  | exact (StridesTo.retag _ _ late_owner).strides | intro _))

variable (s : Place) {self : Nat}

theorem slotPtr_strides (h : Late t self) : StridesTo t (s.slotPtr self) := by unfold Place.slotPtr; stride
theorem slotMutPtr_strides (h : Late t self) : StridesTo t (s.slotMutPtr self) := by unfold Place.slotMutPtr; stride
theorem slotCapacity_strides (h : Late t self) : Strides t (s.slotCapacity self) := by unfold Place.slotCapacity; stride
theorem slotLen_strides (h : Late t self) : Strides t (s.slotLen self) := by unfold Place.slotLen; stride
theorem slotSlice_strides (n : Nat) (h : Late t self) : StridesTo t (s.slotSlice n self) :=
  (StridesTo.retag _ _ h).bindTo fun _ h => (slotPtr_strides s h).bindTo fun _ h' =>
    (slotLen_strides s h).bindTo fun _ => .retag _ _ h'
theorem slotMutSlice_strides (h : Late t self) : StridesTo t (s.slotMutSlice self) :=
  (StridesTo.retag _ _ h).bindTo fun _ h => (slotMutPtr_strides s h).bindTo fun _ h' =>
    (slotCapacity_strides s h).bindTo fun _ => .retag _ _ h'
theorem setLenUnchecked_strides (h : Late t self) : Strides t (s.setLenUnchecked self) :=
  (StridesTo.retag _ _ h).bind fun _ h => (slotCapacity_strides s h).bind fun _ => .write _ h
theorem setLen_strides (h : Late t self) : Strides t (s.setLen self) :=
  (StridesTo.retag _ _ h).bind fun _ h => (slotCapacity_strides s h).bind fun _ => setLenUnchecked_strides s h
theorem slotCopy_strides (d n : Nat) (h : Late t self) : Strides t (s.slotCopy d n self) :=
  (StridesTo.retag _ _ h).bind fun _ h => (StridesTo.retag _ _ late_data).bind fun _ h1 =>
    (slotCapacity_strides s h).bind fun _ => (slotMutPtr_strides s h).bind fun _ h2 => (Strides.read _ h1).bind fun _ =>
    (Strides.write _ h2).bind fun _ => setLenUnchecked_strides s h
theorem outputWrite_strides (d : Nat) {buf : Nat} (pos n : Nat) (h : Late t buf) : Strides t (s.outputWrite d buf pos n) := by
  unfold Place.outputWrite; stride
theorem inputRead_strides {buf : Nat} (pos n : Nat) (h : Late t buf) : Strides t (s.inputRead buf pos n) := by
  unfold Place.inputRead; stride

theorem outputWrites_strides (d : Nat) {buf : Nat} (h : Late t buf) :
    ∀ (pos : Nat) (ns : List Nat), Strides t (s.outputWrites d buf pos ns)
  | _, [] => .made _
  | _, _ :: ns => (outputWrite_strides s d _ _ h).bind fun _ => outputWrites_strides d h _ ns

theorem inputReads_strides {buf : Nat} (h : Late t buf) : ∀ (pos : Nat) (ns : List Nat), Strides t (s.inputReads buf pos ns)
  | _, [] => .made _
  | _, _ :: ns => (inputRead_strides s _ _ h).bind fun _ => inputReads_strides h _ ns

theorem slotWrite_strides (d : Nat) (ns : List Nat) (ok : Bool) (h : Late t self) : Strides t (s.slotWrite d ns ok self) :=
  (StridesTo.retag _ _ h).bind fun _ h => (Strides.read _ h).bind fun _ => (StridesTo.retag _ _ late_owner).bind fun _ h' =>
    (outputWrites_strides s d h' _ ns).bind fun _ => .ite (setLen_strides s h) (.made _)

theorem slotRead_strides (ns : List Nat) (h : Late t self) : Strides t (s.slotRead ns self) :=
  (StridesTo.retag _ _ h).bind fun _ h => (Strides.read _ h).bind fun _ => (StridesTo.retag _ _ late_owner).bind fun _ h' =>
    inputReads_strides s h' _ ns

/-- `b` was made, and not returned. -/
def Lost (b : Nat) (o : Owner) : Prop := b < o.next ∧ ∀ x ∈ o.held, x.tag ≠ b

variable {s}

theorem Lost.call {b d : Nat} {o : Owner} (hb : 2 ≤ b) (h : Lost b o) (c : SlotCall) :
    Untouched b (c.go s d o).2 ∧ Lost b (c.go s d o).1 := by
  have A : ∀ {α : Type} {m : Make α}, Strides o.next m → Untouched b (m o.next).2.2 ∧ b < (m o.next).2.1 := fun hm =>
    ⟨(hm _ (Nat.le_refl _)).2.untouched hb h.1, Nat.lt_of_lt_of_le h.1 (hm _ (Nat.le_refl _)).1⟩
  have B : ∀ {m : Make Nat} (r : Region), StridesTo o.next m →
      Untouched b (m o.next).2.2 ∧ b < (m o.next).2.1 ∧ ∀ x ∈ o.held ++ [⟨(m o.next).1, r⟩], x.tag ≠ b := fun r hm => by
    refine ⟨(A hm.strides).1, (A hm.strides).2, fun x hx => ?_⟩
    rcases List.mem_append.mp hx with hx | hx
    · exact h.2 x hx
    · rcases List.mem_singleton.mp hx with rfl
      exact Nat.ne_of_gt (Nat.lt_of_lt_of_le h.1 (hm _ (Nat.le_refl _)).2.2.1)
  cases c with
  | len => exact ⟨(A (slotLen_strides s late_owner)).1, (A (slotLen_strides s late_owner)).2, h.2⟩
  | capacity => exact ⟨(A (slotCapacity_strides s late_owner)).1, (A (slotCapacity_strides s late_owner)).2, h.2⟩
  | asSlice => exact B _ (slotSlice_strides s _ late_owner)
  | asMutSlice => exact B _ (slotMutSlice_strides s late_owner)
  | asPtr => exact B _ (slotPtr_strides s late_owner)
  | asMutPtr => exact B _ (slotMutPtr_strides s late_owner)
  | setLen n => exact ⟨(A (setLen_strides s late_owner)).1, (A (setLen_strides s late_owner)).2, h.2⟩
  | copyFromSlice n => exact ⟨(A (slotCopy_strides s _ _ late_owner)).1, (A (slotCopy_strides s d n late_owner)).2, h.2⟩
  | write ns ok => exact ⟨(A (slotWrite_strides s _ _ _ late_owner)).1, (A (slotWrite_strides s d ns ok late_owner)).2, h.2⟩
  | read ns => exact ⟨(A (slotRead_strides s _ late_owner)).1, (A (slotRead_strides s ns late_owner)).2, h.2⟩
  | get k i =>
    simp only [SlotCall.go]
    split
    · rename_i x hx
      refine ⟨fun e he => ?_, h⟩
      rcases List.mem_singleton.mp he with rfl
      exact h.2 x (List.mem_of_getElem? hx)
    · exact ⟨fun _ he => (by cases he), h⟩
  | set k i =>
    simp only [SlotCall.go]
    split
    · rename_i x hx
      refine ⟨fun e he => ?_, h⟩
      rcases List.mem_singleton.mp he with rfl
      exact h.2 x (List.mem_of_getElem? hx)
    · exact ⟨fun _ he => (by cases he), h⟩

theorem Lost.calls {b d : Nat} (hb : 2 ≤ b) : ∀ (cs : List SlotCall) {o : Owner}, Lost b o → Untouched b (slotEvents s d o cs)
  | [], _, _ => fun _ he => (by cases he)
  | c :: cs, _, h => fun e he => (List.mem_append.mp he).elim ((h.call hb c).1 e) (Lost.calls hb cs (h.call hb c).2 e)

/-- What was returned is older than what is made next. -/
def Dated (o : Owner) : Prop := ∀ x ∈ o.held, x.tag < o.next

theorem Dated.call {d : Nat} {o : Owner} (h : Dated o) (c : SlotCall) : Dated (c.go s d o).1 := by
  have A : ∀ {α : Type} {m : Make α}, Strides o.next m → ∀ x ∈ o.held, x.tag < (m o.next).2.1 := fun hm x hx =>
    Nat.lt_of_lt_of_le (h x hx) (hm _ (Nat.le_refl _)).1
  have B : ∀ {m : Make Nat} (r : Region), StridesTo o.next m →
      ∀ x ∈ o.held ++ [⟨(m o.next).1, r⟩], x.tag < (m o.next).2.1 := fun r hm x hx => by
    rcases List.mem_append.mp hx with hx | hx
    · exact A hm.strides x hx
    · rcases List.mem_singleton.mp hx with rfl
      exact (hm _ (Nat.le_refl _)).2.2.2
  cases c with
  | len => exact A (slotLen_strides s late_owner)
  | capacity => exact A (slotCapacity_strides s late_owner)
  | asSlice => exact B _ (slotSlice_strides s _ late_owner)
  | asMutSlice => exact B _ (slotMutSlice_strides s late_owner)
  | asPtr => exact B _ (slotPtr_strides s late_owner)
  | asMutPtr => exact B _ (slotMutPtr_strides s late_owner)
  | setLen n => exact A (setLen_strides s late_owner)
  | copyFromSlice n => exact A (slotCopy_strides s d n late_owner)
  | write ns ok => exact A (slotWrite_strides s d ns ok late_owner)
  | read ns => exact A (slotRead_strides s ns late_owner)
  | get k i =>
    simp only [SlotCall.go]
    split <;> exact h
  | set k i =>
    simp only [SlotCall.go]
    split <;> exact h

theorem Dated.calls {d : Nat} : ∀ (cs : List SlotCall) {o : Owner}, Dated o → Dated (slotAfter s d o cs)
  | [], _, h => h
  | c :: cs, _, h => Dated.calls cs (h.call c)

theorem Dated.lost {o : Owner} (h : Dated o) (d : Nat) : Lost (o.next + 1) (SlotCall.go s d o .asMutPtr).1 := by
  refine ⟨Nat.lt_succ_of_lt (Nat.lt_succ_self _), fun x hx => ?_⟩
  have e : (SlotCall.go s d o .asMutPtr).1.held = o.held ++ [⟨o.next + 2, s.buf⟩] := rfl
  rw [e] at hx
  rcases List.mem_append.mp hx with hx | hx
  · have := h x hx
    omega
  · rcases List.mem_singleton.mp hx with rfl
    exact Nat.ne_of_gt (Nat.lt_succ_self _)

/-- What `as_mut_ptr` of slots returned. -/
theorem slot_ptr_tree {p : Place} {d n : Nat} {cs ds : List SlotCall} {i : Nat} {x : Held}
    (hx : ((slotDevice p d).go ((slotDevice p d).after (Owner.new n) cs) .asMutPtr).1.held[
      ((slotDevice p d).after (Owner.new n) cs).held.length]? = some x) (hi : i < x.r.size)
    (h : Defined Tree p ((slotDevice p d).events (Owner.new n) (cs ++ .asMutPtr :: ds))) :
    (Defined Tree p ((slotDevice p d).events (Owner.new n)
      (cs ++ .asMutPtr :: (ds ++ [.get ((slotDevice p d).after (Owner.new n) cs).held.length i]))) ↔
      ¬ OthersWrite x.tag ((slotDevice p d).events ((slotDevice p d).go ((slotDevice p d).after (Owner.new n) cs) .asMutPtr).1 ds)
        (x.r.lo + i)) ∧
    (Defined Tree p ((slotDevice p d).events (Owner.new n)
      (cs ++ .asMutPtr :: (ds ++ [.set ((slotDevice p d).after (Owner.new n) cs).held.length i]))) ↔
      ¬ Spoilt x.tag ((slotDevice p d).events ((slotDevice p d).go ((slotDevice p d).after (Owner.new n) cs) .asMutPtr).1 ds)
        (x.r.lo + i)) := by
  have hdated : Dated ((slotDevice p d).after (Owner.new n) cs) := by
    rw [slot_after]
    exact Dated.calls cs fun _ hx => nomatch hx
  generalize ho : (slotDevice p d).after (Owner.new n) cs = o at *
  let D := slotMut p d
  have hx' : x = ⟨o.next + 2, p.buf⟩ := by
    have : ((slotDevice p d).go o .asMutPtr).1.held = o.held ++ [⟨o.next + 2, p.buf⟩] := rfl
    rw [this] at hx
    simpa using hx.symm
  subst hx'
  have e0 : ∀ fs, (slotDevice p d).events (Owner.new n) (cs ++ .asMutPtr :: fs) =
      ((slotDevice p d).events (Owner.new n) cs ++ [.retag .excl ownerTag o.next p.head, .read o.next p.head] ++
        [.retag .excl ownerTag (o.next + 1) p.buf, .retag .raw (o.next + 1) (o.next + 1 + 1) p.buf]) ++
      (slotDevice p d).events ((slotDevice p d).go o .asMutPtr).1 fs := fun fs => by
    rw [(slotDevice p d).events_append, ho]
    show _ ++ (((slotDevice p d).go o .asMutPtr).2 ++ _) = _
    simp only [List.append_assoc]
    rfl
  have hc : Counts 2 ((slotDevice p d).events (Owner.new n) cs) o.next := by
    have := (slotDevice p d).events_counts (Owner.new n) cs
    rw [ho] at this
    exact this
  have hf : Counts (o.next + 1 + 2) ((slotDevice p d).events ((slotDevice p d).go o .asMutPtr).1 ds) _ :=
    (slotDevice p d).events_counts ((slotDevice p d).go o .asMutPtr).1 ds
  have hle := hc.le
  have hl : Childless (o.next + 2) ((slotDevice p d).events ((slotDevice p d).go o .asMutPtr).1 ds) :=
    D.childless (by omega) _ ds (Nat.lt_succ_self (o.next + 2))
  have hu : Untouched (o.next + 1) ((slotDevice p d).events ((slotDevice p d).go o .asMutPtr).1 ds) := by
    rw [slot_events]
    exact Lost.calls (by omega) ds (hdated.lost d)
  have ha : p.buf.has (p.buf.lo + i) = true := by
    rw [has_iff]
    simp only at hi
    omega
  have hy : ((slotDevice p d).held ((slotDevice p d).go o .asMutPtr).1)[o.held.length]? = some ⟨o.next + 2, p.buf⟩ := hx
  have hg := (slotDevice p d).look (i := i) ((slotDevice p d).still hy ds)
  have hs := D.put (i := i) ((slotDevice p d).still hy ds)
  have hg' : (slotDevice p d).events ((slotDevice p d).after ((slotDevice p d).go o .asMutPtr).1 ds) [.get o.held.length i] = _ := hg
  have hs' : (slotDevice p d).events ((slotDevice p d).after ((slotDevice p d).go o .asMutPtr).1 ds) [.set o.held.length i] = _ := hs
  rw [e0] at h
  rw [e0, e0, (slotDevice p d).events_append, (slotDevice p d).events_append, hg', hs', ← List.append_assoc, ← List.append_assoc]
  exact tree_ptr hc (.retag (.read .nil)) hf hl hu ha (whole_of_buf ha) (.skip (.read .nil)) h

end Oct.Alias
