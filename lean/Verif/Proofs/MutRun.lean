import Verif.Proofs.MutKept
/-
No call makes pointers of what earlier calls returned.
-/
namespace Oct.Alias
open Spec

/-- The pointer was there from the start, or is not older than the call. -/
def Late (t p : Nat) : Prop := p < 2 ∨ t ≤ p

/-- Pointers are made of late ones. -/
def Recent (t : Nat) (es : List Event) : Prop := ∀ k u q r, Event.retag k u q r ∈ es → Late t u

theorem Recent.append {t : Nat} {es fs : List Event} (h : Recent t es) (h' : Recent t fs) : Recent t (es ++ fs) :=
  fun k u q r hm => (List.mem_append.mp hm).elim (h k u q r) (h' k u q r)

theorem Recent.childless {t g : Nat} {es : List Event} (h : Recent t es) (hg : 2 ≤ g) (ht : g < t) : Childless g es :=
  fun k u q r hm e => (h k u q r hm).elim (fun h => by omega) (fun h => by omega)

/-- It makes pointers of late ones. -/
def Grows (t : Nat) {α : Type} (m : Make α) : Prop := ∀ t', t ≤ t' → t' ≤ (m t').2.1 ∧ Recent t (m t').2.2

/-- Its result is late, too. -/
def GrowsTo (t : Nat) (m : Make Nat) : Prop := ∀ t', t ≤ t' → t' ≤ (m t').2.1 ∧ Recent t (m t').2.2 ∧ Late t (m t').1

variable {t : Nat}

theorem GrowsTo.grows {m : Make Nat} (h : GrowsTo t m) : Grows t m := fun t' ht => ⟨(h t' ht).1, (h t' ht).2.1⟩

theorem GrowsTo.bindTo {m : Make Nat} {f : Nat → Make Nat} (h : GrowsTo t m) (h' : ∀ a, Late t a → GrowsTo t (f a)) :
    GrowsTo t (m >>= f) := fun t' ht => by
  obtain ⟨h1, h2, h3⟩ := h t' ht
  obtain ⟨h4, h5, h6⟩ := h' _ h3 _ (Nat.le_trans ht h1)
  exact ⟨Nat.le_trans h1 h4, h2.append h5, h6⟩

theorem GrowsTo.bind {β : Type} {m : Make Nat} {f : Nat → Make β} (h : GrowsTo t m) (h' : ∀ a, Late t a → Grows t (f a)) :
    Grows t (m >>= f) := fun t' ht => by
  obtain ⟨h1, h2, h3⟩ := h t' ht
  obtain ⟨h4, h5⟩ := h' _ h3 _ (Nat.le_trans ht h1)
  exact ⟨Nat.le_trans h1 h4, h2.append h5⟩

theorem Grows.bindTo {α : Type} {m : Make α} {f : α → Make Nat} (h : Grows t m) (h' : ∀ a, GrowsTo t (f a)) :
    GrowsTo t (m >>= f) := fun t' ht => by
  obtain ⟨h1, h2⟩ := h t' ht
  obtain ⟨h4, h5, h6⟩ := h' (m t').1 _ (Nat.le_trans ht h1)
  exact ⟨Nat.le_trans h1 h4, h2.append h5, h6⟩

theorem Grows.bind {α β : Type} {m : Make α} {f : α → Make β} (h : Grows t m) (h' : ∀ a, Grows t (f a)) :
    Grows t (m >>= f) := fun t' ht => by
  obtain ⟨h1, h2⟩ := h t' ht
  obtain ⟨h4, h5⟩ := h' (m t').1 _ (Nat.le_trans ht h1)
  exact ⟨Nat.le_trans h1 h4, h2.append h5⟩

theorem Grows.made {α : Type} (a : α) : Grows t (Make.pure a) := fun t' _ => ⟨Nat.le_refl t', fun _ _ _ _ h => nomatch h⟩
theorem Grows.pure {α : Type} (a : α) : Grows t (Pure.pure a : Make α) := Grows.made a

theorem GrowsTo.retag (k : Kind) {p : Nat} (r : Region) (h : Late t p) : GrowsTo t (retag k p r) := fun t' ht => by
  refine ⟨Nat.le_succ t', ?_, .inr ht⟩
  intro _ _ _ _ hm
  cases hm with
  | head => exact h
  | tail _ hm => cases hm

theorem Grows.read (p : Nat) (r : Region) : Grows t (read p r) := fun t' _ => ⟨Nat.le_refl t', fun _ _ _ _ hm => by
  cases hm with
  | tail _ hm => cases hm⟩
theorem Grows.write (p : Nat) (r : Region) : Grows t (write p r) := fun t' _ => ⟨Nat.le_refl t', fun _ _ _ _ hm => by
  cases hm with
  | tail _ hm => cases hm⟩

theorem Grows.ite {α : Type} {c : Prop} [Decidable c] {m m' : Make α} (h : Grows t m) (h' : Grows t m') :
    Grows t (if c then m else m') := by
  split
  · exact h
  · exact h'

theorem late_owner : Late t ownerTag := .inl (by decide)
theorem late_data : Late t dataTag := .inl (by decide)

/-- Goes through a method. -/
macro "grow" : tactic => `(tactic| repeat' (first
  | assumption | exact late_owner | exact late_data | exact Grows.read _ _ | exact Grows.write _ _ | exact Grows.made _
  | exact Grows.pure _ | apply GrowsTo.retag | apply GrowsTo.bindTo | apply Grows.bindTo | apply GrowsTo.bind
  | apply Grows.bind | apply Grows.ite | exact (GrowsTo.retag _ _ (by assumption)).grows
  | exact (GrowsTo.retag _ _ late_owner).grows | intro _))

variable (s : Place) {self : Nat}

theorem asPtr_grows (h : Late t self) : GrowsTo t (s.asPtr self) := by unfold Place.asPtr; grow
theorem asMutPtr_grows (h : Late t self) : GrowsTo t (s.asMutPtr self) := by unfold Place.asMutPtr; grow
theorem len_grows (h : Late t self) : Grows t (s.len self) := by unfold Place.len; grow
theorem asSlice_grows (n : Nat) (h : Late t self) : GrowsTo t (s.asSlice n self) :=
  (GrowsTo.retag _ _ h).bindTo fun _ h => (asPtr_grows s h).bindTo fun _ h' => (len_grows s h).bindTo fun _ => .retag _ _ h'
theorem asMutSlice_grows (n : Nat) (h : Late t self) : GrowsTo t (s.asMutSlice n self) :=
  (GrowsTo.retag _ _ h).bindTo fun _ h => (asMutPtr_grows s h).bindTo fun _ h' =>
    (len_grows s h).bindTo fun _ => .retag _ _ h'
theorem copyFromSlice_grows (d n : Nat) (h : Late t self) : Grows t (s.copyFromSlice dataTag d n self) := by
  unfold Place.copyFromSlice; grow

theorem refs_grows (h : Late t self) : ∀ k, Grows t (s.refs self k)
  | 0 => .made _
  | k + 1 => (asPtr_grows s h).bind fun _ _ => (refs_grows h k).bind fun _ => .made _

theorem muts_grows (h : Late t self) : ∀ k, Grows t (s.muts self k)
  | 0 => .made _
  | k + 1 => (asMutPtr_grows s h).bind fun _ _ => (muts_grows h k).bind fun _ => .made _

theorem eachRef_grows (n : Nat) (h : Late t self) : Grows t (s.eachRef n self) :=
  (GrowsTo.retag _ _ h).bind fun _ h => (Grows.read _ _).bind fun _ => refs_grows s h n

theorem eachMut_grows (n : Nat) (h : Late t self) : Grows t (s.eachMut n self) :=
  (GrowsTo.retag _ _ h).bind fun _ h => (Grows.read _ _).bind fun _ => muts_grows s h n

theorem slotPtr_grows (h : Late t self) : GrowsTo t (s.slotPtr self) := by unfold Place.slotPtr; grow
theorem slotMutPtr_grows (h : Late t self) : GrowsTo t (s.slotMutPtr self) := by unfold Place.slotMutPtr; grow
theorem slotCapacity_grows (h : Late t self) : Grows t (s.slotCapacity self) := by unfold Place.slotCapacity; grow
theorem slotLen_grows (h : Late t self) : Grows t (s.slotLen self) := by unfold Place.slotLen; grow
theorem slotSlice_grows (n : Nat) (h : Late t self) : GrowsTo t (s.slotSlice n self) :=
  (GrowsTo.retag _ _ h).bindTo fun _ h => (slotPtr_grows s h).bindTo fun _ h' =>
    (slotLen_grows s h).bindTo fun _ => .retag _ _ h'
theorem slotMutSlice_grows (h : Late t self) : GrowsTo t (s.slotMutSlice self) :=
  (GrowsTo.retag _ _ h).bindTo fun _ h => (slotMutPtr_grows s h).bindTo fun _ h' =>
    (slotCapacity_grows s h).bindTo fun _ => .retag _ _ h'
theorem setLenUnchecked_grows (h : Late t self) : Grows t (s.setLenUnchecked self) :=
  (GrowsTo.retag _ _ h).bind fun _ h => (slotCapacity_grows s h).bind fun _ => .write _ _
theorem setLen_grows (h : Late t self) : Grows t (s.setLen self) :=
  (GrowsTo.retag _ _ h).bind fun _ h => (slotCapacity_grows s h).bind fun _ => setLenUnchecked_grows s h
theorem slotCopy_grows (d n : Nat) (h : Late t self) : Grows t (s.slotCopy d n self) :=
  (GrowsTo.retag _ _ h).bind fun _ h => (GrowsTo.retag _ _ late_data).bind fun _ _ => (slotCapacity_grows s h).bind fun _ =>
    (slotMutPtr_grows s h).bind fun _ _ => (Grows.read _ _).bind fun _ => (Grows.write _ _).bind fun _ =>
    setLenUnchecked_grows s h
theorem outputWrite_grows (d : Nat) {buf : Nat} (pos n : Nat) (h : Late t buf) : Grows t (s.outputWrite d buf pos n) := by
  unfold Place.outputWrite; grow
theorem inputRead_grows {buf : Nat} (pos n : Nat) (h : Late t buf) : Grows t (s.inputRead buf pos n) := by
  unfold Place.inputRead; grow

theorem outputWrites_grows (d : Nat) {buf : Nat} (h : Late t buf) :
    ∀ (pos : Nat) (ns : List Nat), Grows t (s.outputWrites d buf pos ns)
  | _, [] => .made _
  | _, _ :: ns => (outputWrite_grows s d _ _ h).bind fun _ => outputWrites_grows d h _ ns

theorem inputReads_grows {buf : Nat} (h : Late t buf) : ∀ (pos : Nat) (ns : List Nat), Grows t (s.inputReads buf pos ns)
  | _, [] => .made _
  | _, _ :: ns => (inputRead_grows s _ _ h).bind fun _ => inputReads_grows h _ ns

theorem slotWrite_grows (d : Nat) (ns : List Nat) (ok : Bool) (h : Late t self) : Grows t (s.slotWrite d ns ok self) :=
  (GrowsTo.retag _ _ h).bind fun _ h => (Grows.read _ _).bind fun _ => (GrowsTo.retag _ _ late_owner).bind fun _ h' =>
    (outputWrites_grows s d h' _ ns).bind fun _ => .ite (setLen_grows s h) (.made _)

theorem slotRead_grows (ns : List Nat) (h : Late t self) : Grows t (s.slotRead ns self) :=
  (GrowsTo.retag _ _ h).bind fun _ _ => (Grows.read _ _).bind fun _ => (GrowsTo.retag _ _ late_owner).bind fun _ h' =>
    inputReads_grows s h' _ ns

theorem iterSlice_grows (pos len : Nat) (h : Late t self) : GrowsTo t (s.iterSlice pos len self) := by
  unfold Place.iterSlice; grow
theorem iterMutSlice_grows (pos len : Nat) (h : Late t self) : GrowsTo t (s.iterMutSlice pos len self) := by
  unfold Place.iterMutSlice; grow
theorem iterTake_grows (i : Nat) (h : Late t self) : Grows t (s.iterTake i self) := by unfold Place.iterTake; grow
theorem iterNext_grows (len i : Nat) (h : Late t self) : Grows t (s.iterNext len i self) :=
  (GrowsTo.retag _ _ h).bind fun _ h => (Grows.read _ _).bind fun _ => .ite (.made _) <|
    (iterTake_grows s i h).bind fun _ => .write _ _
theorem iterHint_grows (h : Late t self) : Grows t (s.iterHint self) := by unfold Place.iterHint; grow

theorem iterDrops_grows {iter : Nat} (h : Late t iter) : ∀ pos k, Grows t (s.iterDrops iter pos k)
  | _, 0 => .made _
  | _, k + 1 => (GrowsTo.retag _ _ h).bind fun _ _ => (Grows.write _ _).bind fun _ => iterDrops_grows h _ k

theorem iterClones_grows (h : Late t self) : ∀ pos k, Grows t (s.iterClones self pos k)
  | _, 0 => .made _
  | _, k + 1 => (GrowsTo.retag _ _ h).bind fun _ h1 => (GrowsTo.retag _ _ h1).bind fun _ h2 =>
    (GrowsTo.retag _ _ h2).bind fun _ _ => (Grows.read _ _).bind fun _ => iterClones_grows h _ k

theorem iterNth_grows (pos len index : Nat) (h : Late t self) : Grows t (s.iterNth pos len index self) :=
  (GrowsTo.retag _ _ h).bind fun _ h => (Grows.read _ _).bind fun _ => .ite (.made _) <|
    (GrowsTo.retag _ _ h).bind fun _ h1 => (GrowsTo.retag _ _ h1).bind fun _ h2 => (GrowsTo.retag _ _ h2).bind fun _ h3 =>
    (iterDrops_grows s h3 _ _).bind fun _ => (iterTake_grows s _ h).bind fun _ => .write _ _

theorem iterClone_grows (pos len : Nat) (h : Late t self) : Grows t (s.iterClone pos len self) :=
  (GrowsTo.retag _ _ h).bind fun _ h => (Grows.read _ _).bind fun _ => iterClones_grows s h _ _

theorem Grows.fresh {α : Type} {m : Make α} {n : Nat} (h : Grows n m) : Recent n (m n).2.2 := (h n (Nat.le_refl n)).2
theorem GrowsTo.fresh {m : Make Nat} {n : Nat} (h : GrowsTo n m) : Recent n (m n).2.2 := h.grows.fresh

theorem fresh_read (n t : Nat) (r : Region) : Recent n [.read t r] := fun _ _ _ _ hm => by
  cases hm with
  | tail _ hm => cases hm
theorem fresh_write (n t : Nat) (r : Region) : Recent n [.write t r] := fun _ _ _ _ hm => by
  cases hm with
  | tail _ hm => cases hm
theorem fresh_nil (n : Nat) : Recent n [] := fun _ _ _ _ hm => nomatch hm

/-! Programs in general. -/

/-- A kind of programs that put, too. -/
structure MutDevice (σ κ : Type) extends Device σ κ where
  set : Nat → Nat → κ
  puts : ∀ o k i x, (held o)[k]? = some x → (go o (set k i)).2 = [.write x.tag ⟨x.r.lo + i, 1⟩]
  fresh : ∀ o c, Recent (next o) (go o c).2

theorem Counts.le {t t' : Nat} {es : List Event} (h : Counts t es t') : t ≤ t' := by
  induction h with
  | nil => exact Nat.le_refl _
  | read _ ih => exact ih
  | write _ ih => exact ih
  | retag _ ih => omega

variable {σ κ : Type} (D : MutDevice σ κ)

theorem MutDevice.childless {g : Nat} (hg : 2 ≤ g) : ∀ (o : σ) (cs : List κ), g < D.next o → Childless g (D.events o cs)
  | _, [], _ => fun _ _ _ _ h => nomatch h
  | o, c :: cs, h => fun k u q r hm => (List.mem_append.mp hm).elim ((D.fresh o c).childless hg h k u q r)
    (MutDevice.childless hg (D.go o c).1 cs (Nat.lt_of_lt_of_le h (D.counts o c).le) k u q r)

theorem MutDevice.put {o : σ} {k i : Nat} {x : Held} (h : (D.held o)[k]? = some x) :
    D.events o [D.set k i] = [.write x.tag ⟨x.r.lo + i, 1⟩] := by
  show (D.go o (D.set k i)).2 ++ [] = _
  rw [List.append_nil, D.puts o k i x h]

/-- What a call returned last as a `&mut`. -/
theorem MutDevice.exactly {o : σ} {cs ds : List κ} {c : κ} {i u : Nat} {pre : List Event} {r : Region}
    (h0 : D.next o = 2) (hi : i < r.size)
    (n : Nat) (hp : Counts (D.next (D.after o cs)) pre n) (he : (D.go (D.after o cs) c).2 = pre ++ [.retag .excl u n r])
    (hn : D.next (D.go (D.after o cs) c).1 = n + 1)
    (hh : D.held (D.go (D.after o cs) c).1 = D.held (D.after o cs) ++ [⟨n, r⟩]) {p : Place} :
    (Defined Stacked p (D.events o (cs ++ c :: ds)) →
      (Defined Stacked p (D.events o (cs ++ c :: (ds ++ [D.get (D.held (D.after o cs)).length i]))) ↔
        ¬ OthersAt n (D.events (D.go (D.after o cs) c).1 ds) (r.lo + i)) ∧
      (Defined Stacked p (D.events o (cs ++ c :: (ds ++ [D.set (D.held (D.after o cs)).length i]))) ↔
        ¬ OthersAt n (D.events (D.go (D.after o cs) c).1 ds) (r.lo + i))) ∧
    (Defined Tree p (D.events o (cs ++ c :: ds)) →
      (Defined Tree p (D.events o (cs ++ c :: (ds ++ [D.get (D.held (D.after o cs)).length i]))) ↔
        ¬ OthersWrite n (D.events (D.go (D.after o cs) c).1 ds) (r.lo + i))) := by
  have hx : (D.held (D.go (D.after o cs) c).1)[(D.held (D.after o cs)).length]? = some ⟨n, r⟩ := by
    rw [hh]
    simp
  have e0 : ∀ fs, D.events o (cs ++ c :: fs) = (D.events o cs ++ pre ++ [.retag .excl u n r]) ++
      D.events (D.go (D.after o cs) c).1 fs := fun fs => by
    rw [D.events_append]
    show _ ++ ((D.go (D.after o cs) c).2 ++ _) = _
    rw [he]
    simp only [List.append_assoc]
  have hc : Counts 2 (D.events o cs ++ pre) n := (h0 ▸ D.events_counts o cs : Counts 2 _ _).append hp
  have hf : Counts (n + 1) (D.events (D.go (D.after o cs) c).1 ds) (D.next (D.after (D.go (D.after o cs) c).1 ds)) :=
    hn ▸ D.events_counts _ ds
  have hl : Childless n (D.events (D.go (D.after o cs) c).1 ds) := D.childless hc.le _ ds (by rw [hn]; exact Nat.lt_succ_self n)
  have ha : r.has (r.lo + i) = true := by
    rw [has_iff]
    omega
  rw [e0, e0, e0, D.events_append, D.events_append, D.look (D.still hx ds), D.put (D.still hx ds), ← List.append_assoc,
    ← List.append_assoc]
  exact ⟨stacked_mut hc hf hl ha, tree_mut hc hf hl ha⟩

/-- The same, with what it returned given by its place. -/
theorem MutDevice.returned {o : σ} {cs ds : List κ} {c : κ} {i u : Nat} {pre : List Event} {x : Held} {r : Region}
    (h0 : D.next o = 2)
    (n : Nat) (hp : Counts (D.next (D.after o cs)) pre n) (he : (D.go (D.after o cs) c).2 = pre ++ [.retag .excl u n r])
    (hn : D.next (D.go (D.after o cs) c).1 = n + 1)
    (hh : D.held (D.go (D.after o cs) c).1 = D.held (D.after o cs) ++ [⟨n, r⟩]) {p : Place}
    (hx : (D.held (D.go (D.after o cs) c).1)[(D.held (D.after o cs)).length]? = some x) (hi : i < x.r.size) :
    (Defined Stacked p (D.events o (cs ++ c :: ds)) →
      (Defined Stacked p (D.events o (cs ++ c :: (ds ++ [D.get (D.held (D.after o cs)).length i]))) ↔
        ¬ OthersAt x.tag (D.events (D.go (D.after o cs) c).1 ds) (x.r.lo + i)) ∧
      (Defined Stacked p (D.events o (cs ++ c :: (ds ++ [D.set (D.held (D.after o cs)).length i]))) ↔
        ¬ OthersAt x.tag (D.events (D.go (D.after o cs) c).1 ds) (x.r.lo + i))) ∧
    (Defined Tree p (D.events o (cs ++ c :: ds)) →
      (Defined Tree p (D.events o (cs ++ c :: (ds ++ [D.get (D.held (D.after o cs)).length i]))) ↔
        ¬ OthersWrite x.tag (D.events (D.go (D.after o cs) c).1 ds) (x.r.lo + i))) := by
  have : x = ⟨n, r⟩ := by
    rw [hh] at hx
    simpa using hx.symm
  subst this
  exact D.exactly h0 hi n hp he hn hh

theorem put_held {o : List Held} {k i : Nat} {x : Held} {σ : Type} (a : σ) (h : o[k]? = some x) :
    (match o[k]? with
      | some x => (a, [Event.write x.tag ⟨x.r.lo + i, 1⟩])
      | none => (a, [])).2 = [.write x.tag ⟨x.r.lo + i, 1⟩] := by rw [h]

def sliceMut (s : Place) (d : Nat) : MutDevice Owner Call where
  toDevice := sliceDevice s d
  set := .set
  puts o _ _ _ h := put_held o h
  fresh o c := by
    cases c with
    | len => exact (len_grows s late_owner).fresh
    | asSlice => exact (asSlice_grows s _ late_owner).fresh
    | asMutSlice => exact (asMutSlice_grows s _ late_owner).fresh
    | copyFromSlice n => exact (copyFromSlice_grows s _ _ late_owner).fresh
    | eachRef => exact (eachRef_grows s _ late_owner).fresh
    | eachMut => exact (eachMut_grows s _ late_owner).fresh
    | get h i =>
      simp only [sliceDevice, Call.go]
      split
      · exact fresh_read _ _ _
      · exact fresh_nil _
    | set h i =>
      simp only [sliceDevice, Call.go]
      split
      · exact fresh_write _ _ _
      · exact fresh_nil _

def slotMut (s : Place) (d : Nat) : MutDevice Owner SlotCall where
  toDevice := slotDevice s d
  set := .set
  puts o _ _ _ h := put_held o h
  fresh o c := by
    cases c with
    | len => exact (slotLen_grows s late_owner).fresh
    | capacity => exact (slotCapacity_grows s late_owner).fresh
    | asSlice => exact (slotSlice_grows s _ late_owner).fresh
    | asMutSlice => exact (slotMutSlice_grows s late_owner).fresh
    | asPtr => exact (slotPtr_grows s late_owner).fresh
    | asMutPtr => exact (slotMutPtr_grows s late_owner).fresh
    | setLen n => exact (setLen_grows s late_owner).fresh
    | copyFromSlice n => exact (slotCopy_grows s _ _ late_owner).fresh
    | write ns ok => exact (slotWrite_grows s _ _ _ late_owner).fresh
    | read ns => exact (slotRead_grows s _ late_owner).fresh
    | get h i =>
      simp only [slotDevice, SlotCall.go]
      split
      · exact fresh_read _ _ _
      · exact fresh_nil _
    | set h i =>
      simp only [slotDevice, SlotCall.go]
      split
      · exact fresh_write _ _ _
      · exact fresh_nil _

def iterMut (s : Place) : MutDevice Cursor IterCall where
  toDevice := iterDevice s
  set := .set
  puts o _ _ _ h := put_held o h
  fresh o c := by
    cases c with
    | asSlice => exact (iterSlice_grows s _ _ late_owner).fresh
    | asMutSlice => exact (iterMutSlice_grows s _ _ late_owner).fresh
    | next => exact (iterNext_grows s _ _ late_owner).fresh
    | nextBack => exact (iterNext_grows s _ _ late_owner).fresh
    | nth i =>
      simp only [iterDevice, IterCall.go]
      split <;> exact (iterNth_grows s _ _ _ late_owner).fresh
    | clone => exact (iterClone_grows s _ _ late_owner).fresh
    | sizeHint => exact (iterHint_grows s late_owner).fresh
    | get h i =>
      simp only [iterDevice, IterCall.go]
      split
      · exact fresh_read _ _ _
      · exact fresh_nil _
    | set h i =>
      simp only [iterDevice, IterCall.go]
      split
      · exact fresh_write _ _ _
      · exact fresh_nil _

end Oct.Alias
