import Verif.Proofs.ProtectorsRun
import Verif.Proofs.ProtectorsShape
import Verif.Spec.IterProtectors
/-
That while a method of an iterator runs, all that is used of its arguments' memory was made of the arguments; and what it
consists of.
-/
namespace Oct.Alias
open Spec Sound

section
variable (s : Place)

theorem iterTake_same (i u : Nat) : Same (s.iterTakeP i u) (s.iterTake i u) := fun _ => ⟨rfl, rfl, rfl⟩

theorem iterNext_same (len i u : Nat) : Same (s.iterNextP len i u) (s.iterNext len i u) :=
  .call fun self => (Same.lift (read self s.head)).bind fun _ => by
    by_cases h : len = 0
    · rw [if_pos h, if_pos h]
      exact .pure ()
    · rw [if_neg h, if_neg h]
      exact fun _ => ⟨rfl, rfl, rfl⟩

theorem iterDrops_same (u : Nat) : (pos k : Nat) → Same (s.iterDropsP u pos k) (s.iterDrops u pos k)
  | _, 0 => .pure ()
  | pos, k + 1 => fun t =>
    have h := iterDrops_same u (pos + 1) k (t + 1)
    ⟨h.1, h.2.1, congrArg (fun es => Event.retag .excl u t ⟨s.at_ + pos, 1⟩ :: .write t ⟨s.at_ + pos, 1⟩ :: es) h.2.2⟩

theorem iterClones_same (u : Nat) : (pos k : Nat) → Same (s.iterClonesP u pos k) (s.iterClones u pos k)
  | _, 0 => .pure ()
  | pos, k + 1 => fun t =>
    have h := iterClones_same u (pos + 1) k (t + 3)
    ⟨h.1, h.2.1, congrArg (fun es => Event.retag .shared u t s.buf :: .retag .shared t (t + 1) ⟨s.at_ + pos, 1⟩ ::
      .retag .shared (t + 1) (t + 2) ⟨s.at_ + pos, 1⟩ :: .read (t + 2) ⟨s.at_ + pos, 1⟩ :: es) h.2.2⟩

theorem iterNth_same (pos len i u : Nat) : Same (s.iterNthP pos len i u) (s.iterNth pos len i u) :=
  .call fun self => (Same.lift (read self s.head)).bind fun _ => by
    by_cases h : i > len
    · rw [if_pos h, if_pos h]
      exact .pure ()
    · rw [if_neg h, if_neg h]
      refine Same.bind (n := retag .excl self s.buf) (fun _ => ⟨rfl, rfl, rfl⟩) fun buf => ?_
      refine fun t => ?_
      have hd := (iterDrops_same s (t + 1) pos (i - 1)).bind (fun _ => (iterTake_same s i self).bind fun _ =>
        Same.lift (write self s.head)) (t + 2)
      exact ⟨hd.1, hd.2.1, congrArg (fun es => Event.retag .excl buf t ⟨s.at_ + pos, i - 1⟩ ::
        .retag .raw t (t + 1) ⟨s.at_ + pos, i - 1⟩ :: es) hd.2.2⟩

theorem iterClone_same (pos len u : Nat) : Same (s.iterCloneP pos len u) (s.iterClone pos len u) :=
  .call fun self => (Same.lift (read self s.head)).bind fun _ => iterClones_same s self pos len

/-- With protectors, a call does the same. -/
theorem iterCall_same (o : Cursor) : (c : IterCall) → plain (c.marks s o) = (c.go s o).2
  | .asSlice => rfl
  | .asMutSlice => rfl
  | .next => (iterNext_same s _ _ ownerTag o.next).2.2
  | .nextBack => (iterNext_same s _ _ ownerTag o.next).2.2
  | .nth i => by
    refine (iterNth_same s o.pos o.len i ownerTag o.next).2.2.trans ?_
    simp only [IterCall.go]
    split <;> rfl
  | .clone => (iterClone_same s _ _ ownerTag o.next).2.2
  | .sizeHint => rfl
  | .get h i => by
    simp only [IterCall.marks, IterCall.go]
    cases o.held[h]? <;> rfl
  | .set h i => by
    simp only [IterCall.marks, IterCall.go]
    cases o.held[h]? <;> rfl

theorem iterMarks_same : (o : Cursor) → (cs : List IterCall) → plain (iterMarks s o cs) = iterEvents s o cs
  | _, [] => rfl
  | o, c :: cs => by
    show plain (c.marks s o ++ iterMarks s (c.go s o).1 cs) = (c.go s o).2 ++ _
    rw [plain_append, iterCall_same, iterMarks_same]

end

section
variable (s : Place) {l t u : Nat} {P : List Nat}

theorem iterTake_fit (i : Nat) (hP : ∀ p ∈ P, p ≤ u) (hu : u < t) : Fit l P t (s.iterTakeP i u) :=
  .bind (.call shared_raw (fun _ => hP) (.pure _)) (.call shared_raw (fun _ => older hP (show u ≤ t by omega))
    (.read fun _ => arg_on (Nat.le_refl _) (older hP (show u ≤ t + 1 by omega))))

/-- The argument of a method. -/
theorem self_on (hP : ∀ p ∈ P, p ≤ u) (hu : u < t) : ∀ p ∈ (if s.whole.has l then t :: P else P), p ≤ t :=
  arg_on (Nat.le_refl t) (older hP (Nat.le_of_lt hu))

theorem iterSlice_fit (pos len : Nat) (hP : ∀ p ∈ P, p ≤ u) (hu : u < t) : Fit l P t (s.iterSliceP pos len u) :=
  have h1 := self_on s (l := l) hP hu
  .call shared_raw (fun _ => hP) (.bind (.call shared_raw (fun _ => h1) (.retag fun _ => arg_on (Nat.le_refl _)
    (older h1 (Nat.le_succ t)))) (.bind (.read fun _ => h1) (.retag fun _ => older h1 (show t ≤ t + 2 by omega))))

theorem iterMutSlice_fit (pos len : Nat) (hP : ∀ p ∈ P, p ≤ u) (hu : u < t) : Fit l P t (s.iterMutSliceP pos len u) :=
  have h1 := self_on s (l := l) hP hu
  .call excl_raw (fun _ => hP) (.bind (.call excl_raw (fun _ => h1) (.retag fun _ => arg_on (Nat.le_refl _)
    (older h1 (Nat.le_succ t)))) (.bind (.read fun _ => h1) (.retag fun _ => older h1 (show t ≤ t + 2 by omega))))

theorem iterNext_fit (len i : Nat) (hP : ∀ p ∈ P, p ≤ u) (hu : u < t) : Fit l P t (s.iterNextP len i u) := by
  have h1 := self_on s (l := l) hP hu
  refine .call excl_raw (fun _ => hP) (.bind (.read fun _ => h1) ?_)
  by_cases h : len = 0
  · rw [if_pos h]
    exact .pure ()
  · rw [if_neg h]
    exact .bind (iterTake_fit s i h1 (Nat.lt_succ_self t)) (.write fun _ => h1)

theorem iterDrops_fit (hP : ∀ p ∈ P, p ≤ u) : (pos k t : Nat) → u < t → Fit l P t (s.iterDropsP u pos k)
  | _, 0, _, _ => .pure ()
  | pos, k + 1, t, hu => .bind (.call excl_raw (fun _ => hP) (.write fun _ => arg_on (Nat.le_refl _)
      (older hP (Nat.le_of_lt hu)))) (iterDrops_fit hP (pos + 1) k (t + 1) (by omega))

theorem iterClones_fit (hP : ∀ p ∈ P, p ≤ u) : (pos k t : Nat) → u < t → Fit l P t (s.iterClonesP u pos k)
  | _, 0, _, _ => .pure ()
  | pos, k + 1, t, hu => .bind (.call shared_raw (fun _ => hP) (.retag fun _ => arg_on (Nat.le_refl _)
      (older hP (Nat.le_of_lt hu)))) (.bind (.call shared_raw (fun _ => older hP (show u ≤ t + 1 by omega))
        (.read fun _ => arg_on (Nat.le_refl _) (older hP (show u ≤ t + 2 by omega))))
          (iterClones_fit hP (pos + 1) k (t + 3) (by omega)))

theorem iterNth_fit (pos len i : Nat) (hP : ∀ p ∈ P, p ≤ u) (hu : u < t) : Fit l P t (s.iterNthP pos len i u) := by
  have h1 := self_on s (l := l) hP hu
  refine .call excl_raw (fun _ => hP) (.bind (.read fun _ => h1) ?_)
  by_cases h : i > len
  · rw [if_pos h]
    exact .pure ()
  · rw [if_neg h]
    have hd := iterDrops_fit s (l := l) (older h1 (show t ≤ t + 3 by omega)) pos (i - 1) (t + 4) (by omega)
    have grow : t + 4 ≤ _ := Fits.grows hd
    exact .bind (.call excl_raw (fun _ => h1) (.pure _)) (.bind (.call excl_raw (fun _ => older h1 (Nat.le_succ t))
      (.retag fun _ => arg_on (Nat.le_refl _) (older h1 (show t ≤ t + 2 by omega)))) (.bind hd (.bind (iterTake_fit s i h1
        (Nat.lt_of_lt_of_le (show t < t + 4 by omega) grow)) (.write fun _ => h1))))

theorem iterClone_fit (pos len : Nat) (hP : ∀ p ∈ P, p ≤ u) (hu : u < t) : Fit l P t (s.iterCloneP pos len u) :=
  have h1 := self_on s (l := l) hP hu
  .call shared_raw (fun _ => hP) (.bind (.read fun _ => h1) (iterClones_fit s h1 pos len (t + 1) (Nat.lt_succ_self t)))

theorem iterHint_fit (hP : ∀ p ∈ P, p ≤ u) (hu : u < t) : Fit l P t (s.iterHintP u) :=
  .call shared_raw (fun _ => hP) (.read fun _ => self_on s hP hu)

end

theorem iterCall_fits (s : Place) (l : Nat) (o : Cursor) (ho : 2 ≤ o.next) (c : IterCall) :
    Fits l [] o.next (c.marks s o) (c.go s o).1.next := by
  have h0 : ownerTag < o.next := by show 0 < o.next; omega
  cases c with
  | asSlice => exact iterSlice_fit s _ _ no_args h0
  | asMutSlice => exact iterMutSlice_fit s _ _ no_args h0
  | next =>
    show Fits l [] o.next (s.iterNextP o.len o.pos ownerTag o.next).2.2 (s.iterNext o.len o.pos ownerTag o.next).2.1
    rw [← (iterNext_same s _ _ ownerTag o.next).2.1]
    exact iterNext_fit s _ _ no_args h0
  | nextBack =>
    show Fits l [] o.next (s.iterNextP o.len (o.pos + o.len - 1) ownerTag o.next).2.2
      (s.iterNext o.len (o.pos + o.len - 1) ownerTag o.next).2.1
    rw [← (iterNext_same s _ _ ownerTag o.next).2.1]
    exact iterNext_fit s _ _ no_args h0
  | nth i =>
    have e : (IterCall.go s o (.nth i)).1.next = (s.iterNth o.pos o.len i ownerTag o.next).2.1 := by
      simp only [IterCall.go]
      split <;> rfl
    rw [e, ← (iterNth_same s _ _ _ ownerTag o.next).2.1]
    exact iterNth_fit s _ _ _ no_args h0
  | clone =>
    show Fits l [] o.next (s.iterCloneP o.pos o.len ownerTag o.next).2.2 (s.iterClone o.pos o.len ownerTag o.next).2.1
    rw [← (iterClone_same s _ _ ownerTag o.next).2.1]
    exact iterClone_fit s _ _ no_args h0
  | sizeHint => exact iterHint_fit s no_args h0
  | get h i =>
    simp only [IterCall.marks, IterCall.go]
    cases o.held[h]? with
    | none => exact .nil
    | some x => exact .read (fun _ => no_args) .nil
  | set h i =>
    simp only [IterCall.marks, IterCall.go]
    cases o.held[h]? with
    | none => exact .nil
    | some x => exact .write (fun _ => no_args) .nil

theorem iterMarks_fit (s : Place) (l : Nat) : (o : Cursor) → 2 ≤ o.next → (cs : List IterCall) →
    ∃ t, Fits l [] o.next (iterMarks s o cs) t
  | o, _, [] => ⟨_, .nil⟩
  | o, ho, c :: cs => by
    have h1 := iterCall_fits s l o ho c
    obtain ⟨t, ht⟩ := iterMarks_fit s l (c.go s o).1 (Nat.le_trans ho h1.grows) cs
    exact ⟨t, h1.append ht⟩

/-! What calls consist of. -/

theorem deeds_append : (as bs : List Mark) → deeds (as ++ bs) = deeds as ++ deeds bs
  | [], _ => rfl
  | .event (.retag _ _ _ _) :: as, bs => congrArg (_ :: ·) (deeds_append as bs)
  | .event (.read _ _) :: as, bs => congrArg (_ :: ·) (deeds_append as bs)
  | .event (.write _ _) :: as, bs => congrArg (_ :: ·) (deeds_append as bs)
  | .enter _ _ _ _ :: as, bs => congrArg (_ :: ·) (deeds_append as bs)
  | .leave _ _ :: as, bs => congrArg (_ :: ·) (deeds_append as bs)

/-- What is seen of it by `beats`. -/
def _root_.Oct.Spec.Deed.beat : Deed → Beat
  | .into k r => .into k r
  | .out => .out
  | .makes _ _ => .does
  | .reads _ => .does
  | .writes _ => .does

/-- It consists of these, whatever the tags are; and functions are left as they should be. -/
def Walks {α : Type} (m : Acts α) (ss : List Deed) : Prop := (∀ t, deeds (m t).2.2 = ss) ∧ Shows m (ss.map Deed.beat)

section
variable {α β : Type}

theorem Walks.bind {m : Acts α} {f : α → Acts β} {as bs : List Deed} (h : Walks m as) (h' : ∀ a, Walks (f a) bs) :
    Walks (m >>= f) (as ++ bs) := by
  refine ⟨fun t => ?_, ((h.2.bind fun a => (h' a).2)).cast List.map_append.symm⟩
  show deeds ((m t).2.2 ++ (f (m t).1 (m t).2.1).2.2) = _
  rw [deeds_append, h.1, (h' _).1]

theorem Walks.pure (a : α) : Walks (Acts.pure a) [] := ⟨fun _ => rfl, .pure a⟩

theorem Walks.retag {k : Kind} {u : Nat} {r : Region} : Walks (Alias.lift (Alias.retag k u r)) [.makes k r] :=
  ⟨fun _ => rfl, .retag⟩

theorem Walks.read {u : Nat} {r : Region} : Walks (Alias.lift (Alias.read u r)) [.reads r] := ⟨fun _ => rfl, .read⟩

theorem Walks.write {u : Nat} {r : Region} : Walks (Alias.lift (Alias.write u r)) [.writes r] := ⟨fun _ => rfl, .write⟩

theorem Walks.call {k : Kind} {u : Nat} {r : Region} {f : Nat → Acts α} {ss : List Deed} (h : ∀ q, Walks (f q) ss) :
    Walks (calling k u r f) (.into k r :: (ss ++ [.out])) := by
  refine ⟨fun t => ?_, (Shows.call fun q => (h q).2).cast (by simp [Deed.beat])⟩
  show .into k r :: deeds ((f t (t + 1)).2.2 ++ [.leave t r]) = _
  rw [deeds_append, (h t).1]
  rfl

theorem Walks.cast {m : Acts α} {as bs : List Deed} (h : Walks m as) (e : as = bs) : Walks m bs := e ▸ h

theorem Walks.nested {m : Acts α} {ss : List Deed} (h : Walks m ss) (t : Nat) :
    deeds (m t).2.2 = ss ∧ Nested (m t).2.2 := ⟨h.1 t, _, (h.2 t).all⟩

end

variable (s : Place)

theorem iterTake_walks (i u : Nat) : Walks (s.iterTakeP i u) (takeDeeds s i) :=
  .bind (.call fun _ => .pure _) fun _ => .call fun _ => .read

theorem iterDrops_walks (u : Nat) : (pos k : Nat) → Walks (s.iterDropsP u pos k)
    ((List.range' pos k).flatMap (dropDeeds s))
  | _, 0 => .pure ()
  | pos, k + 1 => .bind (.call fun _ => .write) fun _ => iterDrops_walks u (pos + 1) k

theorem iterClones_walks (u : Nat) : (pos k : Nat) → Walks (s.iterClonesP u pos k)
    ((List.range' pos k).flatMap (cloneDeeds s))
  | _, 0 => .pure ()
  | pos, k + 1 => (Walks.bind (.call fun _ => .retag) fun _ => .bind (.call fun _ => .read) fun _ =>
      iterClones_walks u (pos + 1) k).cast rfl

theorem iterNext_walks (len i u : Nat) : Walks (s.iterNextP len i u) (.into .excl s.whole ::
    (([.reads s.head] ++ (if 0 < len then takeDeeds s i ++ [.writes s.head] else [])) ++ [.out])) := by
  refine .call fun q => .bind .read fun _ => ?_
  by_cases h : len = 0
  · rw [if_pos h, if_neg (by omega)]
    exact .pure ()
  · rw [if_neg h, if_pos (by omega)]
    exact .bind (iterTake_walks s i q) fun _ => .write

/-- What `nth` consists of if it returns something. -/
def nthDeeds (pos i : Nat) : List Deed :=
  [.into .excl s.buf, .out, .into .excl ⟨s.at_ + pos, i - 1⟩, .makes .raw ⟨s.at_ + pos, i - 1⟩, .out]
    ++ (List.range' pos (i - 1)).flatMap (dropDeeds s) ++ takeDeeds s i ++ [.writes s.head]

theorem iterNth_walks (pos len i u : Nat) : Walks (s.iterNthP pos len i u) (.into .excl s.whole ::
    (([.reads s.head] ++ (if i ≤ len then nthDeeds s pos i else [])) ++ [.out])) := by
  refine .call fun q => .bind .read fun _ => ?_
  by_cases h : i > len
  · rw [if_pos h, if_neg (Nat.not_le.mpr h)]
    exact .pure ()
  · rw [if_neg h, if_pos (Nat.not_lt.mp h)]
    refine (Walks.bind (.call fun _ => .pure _) fun _ => .bind (.call fun _ => .retag) fun _ =>
      .bind (iterDrops_walks s _ pos (i - 1)) fun _ => .bind (iterTake_walks s i q) fun _ => .write).cast ?_
    simp [nthDeeds]

/-- Iterators. -/
theorem iterCall_walks (o : Cursor) (c : IterCall) (hget : ∀ k i, c ≠ .get k i) (hset : ∀ k i, c ≠ .set k i) :
    deeds (c.marks s o) = iterDeeds s o.pos o.len c ∧ Nested (c.marks s o) := by
  cases c with
  | asSlice => exact Walks.nested (m := s.iterSliceP o.pos o.len ownerTag) (.call fun _ => .bind (.call fun _ => .retag)
      fun _ => .bind .read fun _ => .retag) _
  | asMutSlice => exact Walks.nested (m := s.iterMutSliceP o.pos o.len ownerTag) (.call fun _ =>
      .bind (.call fun _ => .retag) fun _ => .bind .read fun _ => .retag) _
  | next => exact (iterNext_walks s o.len o.pos ownerTag).nested _
  | nextBack =>
    have h := (iterNext_walks s o.len (o.pos + o.len - 1) ownerTag).nested o.next
    refine ⟨h.1.trans ?_, h.2⟩
    simp only [iterDeeds]
    by_cases h' : 0 < o.len
    · rw [if_pos h', if_pos h', show o.pos + (o.len - 1) = o.pos + o.len - 1 by omega]
      rfl
    · rw [if_neg h', if_neg h']
      rfl
  | nth i => exact (iterNth_walks s _ _ i ownerTag).nested _
  | clone => exact Walks.nested (m := s.iterCloneP o.pos o.len ownerTag) (.call fun _ => .bind (as := [.reads s.head])
      .read fun _ => iterClones_walks s _ _ _) _
  | sizeHint => exact Walks.nested (m := s.iterHintP ownerTag) (.call fun _ => .read) _
  | get k i => exact absurd rfl (hget k i)
  | set k i => exact absurd rfl (hset k i)

end Oct.Alias
