import Verif.Proofs.Protectors
/-
That while a method runs, all that is used of its arguments' memory was made of the arguments.
-/
namespace Oct.Alias
open Spec Sound

/-- It does the same, other than that functions are left. -/
def Same {α : Type} (m : Acts α) (n : Make α) : Prop :=
  ∀ t, (m t).1 = (n t).1 ∧ (m t).2.1 = (n t).2.1 ∧ plain (m t).2.2 = (n t).2.2

theorem Same.bind {α β : Type} {m : Acts α} {n : Make α} {f : α → Acts β} {g : α → Make β} (h : Same m n)
    (h' : ∀ a, Same (f a) (g a)) : Same (m >>= f) (n >>= g) := by
  intro t
  obtain ⟨h1, h2, h3⟩ := h t
  obtain ⟨e1, e2, e3⟩ := h' (n t).1 (n t).2.1
  show (f (m t).1 (m t).2.1).1 = _ ∧ (f (m t).1 (m t).2.1).2.1 = _ ∧
    plain ((m t).2.2 ++ (f (m t).1 (m t).2.1).2.2) = (n t).2.2 ++ _
  rw [h1, h2, plain_append, h3, e3]
  exact ⟨e1, e2, rfl⟩

theorem Same.call {α : Type} {k : Kind} {u : Nat} {r : Region} {f : Nat → Acts α} {g : Nat → Make α}
    (h : ∀ q, Same (f q) (g q)) : Same (calling k u r f) (retag k u r >>= g) := by
  intro t
  obtain ⟨h1, h2, h3⟩ := h t (t + 1)
  refine ⟨h1, h2, ?_⟩
  show Event.retag k u t r :: plain ((f t (t + 1)).2.2 ++ [.leave t r]) = .retag k u t r :: (g t (t + 1)).2.2
  rw [plain_append, h3]
  exact congrArg _ (List.append_nil _)

theorem plain_events : (es : List Event) → plain (es.map .event) = es
  | [] => rfl
  | e :: es => congrArg (e :: ·) (plain_events es)

theorem Same.lift {α : Type} (n : Make α) : Same (lift n) n := fun _ => ⟨rfl, rfl, plain_events _⟩

theorem Same.pure {α : Type} (a : α) : Same (Acts.pure a) (Make.pure a) := fun _ => ⟨rfl, rfl, rfl⟩

/-- Nothing older than the arguments is used at `l`. -/
def Fit {α : Type} (l : Nat) (P : List Nat) (t : Nat) (m : Acts α) : Prop := Fits l P t (m t).2.2 (m t).2.1

section
variable {α β : Type} {l t : Nat} {P : List Nat}

theorem Fit.bind {m : Acts α} {f : α → Acts β} (h : Fit l P t m) (h' : Fit l P (m t).2.1 (f (m t).1)) :
    Fit l P t (m >>= f) := Fits.append h h'

theorem Fit.call {k : Kind} {u : Nat} {r : Region} {f : Nat → Acts α} (hk : k ≠ .raw)
    (hu : r.has l = true → ∀ p ∈ P, p ≤ u) (h : Fit l (if r.has l then t :: P else P) (t + 1) (f t)) :
    Fit l P t (calling k u r f) := Fits.call hk hu h .nil

theorem Fit.pure (a : α) : Fit l P t (Acts.pure a) := .nil

theorem Fit.retag {k : Kind} {u : Nat} {r : Region} (hu : r.has l = true → ∀ p ∈ P, p ≤ u) :
    Fit l P t (lift (retag k u r)) := Fits.retag hu .nil

theorem Fit.read {u : Nat} {r : Region} (hu : r.has l = true → ∀ p ∈ P, p ≤ u) :
    Fit l P t (lift (Alias.read u r)) := Fits.read hu .nil

theorem Fit.write {u : Nat} {r : Region} (hu : r.has l = true → ∀ p ∈ P, p ≤ u) :
    Fit l P t (lift (Alias.write u r)) := Fits.write hu .nil

/-- The new argument is not newer than what is used. -/
theorem arg_on {c : Bool} {q u : Nat} (h : q ≤ u) (hP : ∀ p ∈ P, p ≤ u) : ∀ p ∈ (if c then q :: P else P), p ≤ u := by
  intro p hp
  split at hp
  · rcases List.mem_cons.mp hp with rfl | hp
    · exact h
    · exact hP p hp
  · exact hP p hp

/-- The new argument is elsewhere. -/
theorem arg_off {c : Bool} {q u : Nat} (h : ¬ c = true) (hP : ∀ p ∈ P, p ≤ u) :
    ∀ p ∈ (if c then q :: P else P), p ≤ u := by
  rw [if_neg h]
  exact hP

theorem older {u v : Nat} (hP : ∀ p ∈ P, p ≤ u) (h : u ≤ v) : ∀ p ∈ P, p ≤ v := fun p hp => Nat.le_trans (hP p hp) h

theorem no_args {u : Nat} : ∀ p ∈ ([] : List Nat), p ≤ u := fun _ h => nomatch h

theorem excl_raw : Kind.excl ≠ .raw := fun h => nomatch h
theorem shared_raw : Kind.shared ≠ .raw := fun h => nomatch h

end

/-! Sized slices. -/

section
variable (s : Place) {l t : Nat} {P : List Nat}

theorem asPtr_fit {u : Nat} (hP : ∀ p ∈ P, p ≤ u) (hu : u < t) : Fit l P t (s.asPtrP u) := by
  have h1 : ∀ p ∈ (if s.whole.has l then t :: P else P), p ≤ t := arg_on (Nat.le_refl t) (older hP (by omega))
  have h2 : ∀ p ∈ (if s.buf.has l then (t + 1) :: (if s.whole.has l then t :: P else P)
    else (if s.whole.has l then t :: P else P)), p ≤ t + 1 := arg_on (Nat.le_refl _) (older h1 (Nat.le_succ t))
  exact .call shared_raw (fun _ => hP) (.call shared_raw (fun _ => h1) (.retag fun _ => h2))

theorem asMutPtr_fit {u : Nat} (hP : ∀ p ∈ P, p ≤ u) (hu : u < t) : Fit l P t (s.asMutPtrP u) := by
  have h1 : ∀ p ∈ (if s.whole.has l then t :: P else P), p ≤ t := arg_on (Nat.le_refl t) (older hP (by omega))
  have h2 : ∀ p ∈ (if s.buf.has l then (t + 1) :: (if s.whole.has l then t :: P else P)
    else (if s.whole.has l then t :: P else P)), p ≤ t + 1 := arg_on (Nat.le_refl _) (older h1 (Nat.le_succ t))
  exact .call excl_raw (fun _ => hP) (.call excl_raw (fun _ => h1) (.retag fun _ => h2))

theorem len_fit {u : Nat} (hP : ∀ p ∈ P, p ≤ u) (hu : u < t) : Fit l P t (s.lenP u) :=
  .call shared_raw (fun _ => hP) (.read fun _ => arg_on (Nat.le_refl t) (older hP (by omega)))

theorem asSlice_fit (n : Nat) {u : Nat} (hP : ∀ p ∈ P, p ≤ u) (hu : u < t) : Fit l P t (s.asSliceP n u) := by
  have h1 : ∀ p ∈ (if s.whole.has l then t :: P else P), p ≤ t := arg_on (Nat.le_refl t) (older hP (by omega))
  refine .call shared_raw (fun _ => hP) (.bind (asPtr_fit s h1 (Nat.lt_succ_self t)) (.bind (len_fit s h1 ?_)
    (.retag fun _ => older h1 ?_)))
  · show t < t + 4; omega
  · show t ≤ t + 3; omega

theorem asMutSlice_fit (n : Nat) {u : Nat} (hP : ∀ p ∈ P, p ≤ u) (hu : u < t) : Fit l P t (s.asMutSliceP n u) := by
  have h1 : ∀ p ∈ (if s.whole.has l then t :: P else P), p ≤ t := arg_on (Nat.le_refl t) (older hP (by omega))
  refine .call excl_raw (fun _ => hP) (.bind (asMutPtr_fit s h1 (Nat.lt_succ_self t)) (.bind (len_fit s h1 ?_)
    (.retag fun _ => older h1 ?_)))
  · show t < t + 4; omega
  · show t ≤ t + 3; omega

theorem copyFromSlice_fit (d n : Nat) (hn : n ≤ s.cap) (hd : Apart s d) :
    Fit l [] t (s.copyFromSliceP dataTag d n ownerTag) := by
  have h1 : ∀ p ∈ (if s.whole.has l then [t] else []), p ≤ t := arg_on (Nat.le_refl t) no_args
  have far : s.whole.has l = true → ¬ (⟨d, n⟩ : Region).has l = true := fun h => apart_miss h hn hd
  have h2 : s.whole.has l = true → ∀ p ∈ (if (⟨d, n⟩ : Region).has l then (t + 1) ::
      (if s.whole.has l then [t] else []) else (if s.whole.has l then [t] else [])), p ≤ t :=
    fun h => arg_off (far h) h1
  refine .call excl_raw (fun _ => no_args) (.call shared_raw (fun h => ?_) (.bind (.call excl_raw
    (fun h => h2 (buf_whole h)) (.retag fun h => arg_on (Nat.le_refl _) (older (h2 (buf_whole h)) (by omega))))
    (.bind (.read fun _ => arg_on (Nat.le_refl _) (older h1 (by omega))) (.bind (.write fun h => ?_) (.call excl_raw
      (fun h => h2 h) (.write fun h => ?_))))))
  · rw [if_neg fun h' => far h' h]
    exact no_args
  · exact older (h2 (buf_whole (items_buf hn h))) (show t ≤ t + 3 by omega)
  · exact arg_on (Nat.le_refl _) (older (h2 (head_whole h)) (show t ≤ t + 1 + 1 + 1 + 1 by omega))

theorem refs_same (u : Nat) : (k : Nat) → Same (s.refsP u k) (s.refs u k)
  | 0 => .pure []
  | k + 1 => Same.bind (fun _ => ⟨rfl, rfl, rfl⟩) fun _ => (refs_same u k).bind fun _ => .pure _

theorem muts_same (u : Nat) : (k : Nat) → Same (s.mutsP u k) (s.muts u k)
  | 0 => .pure []
  | k + 1 => Same.bind (fun _ => ⟨rfl, rfl, rfl⟩) fun _ => (muts_same u k).bind fun _ => .pure _

theorem refs_fit {u : Nat} (hP : ∀ p ∈ P, p ≤ u) : (k t : Nat) → u < t → Fit l P t (s.refsP u k)
  | 0, _, _ => .pure []
  | k + 1, t, hu => .bind (asPtr_fit s hP hu) (.bind (refs_fit hP k (t + 3) (by omega)) (.pure _))

theorem muts_fit {u : Nat} (hP : ∀ p ∈ P, p ≤ u) : (k t : Nat) → u < t → Fit l P t (s.mutsP u k)
  | 0, _, _ => .pure []
  | k + 1, t, hu => .bind (asMutPtr_fit s hP hu) (.bind (muts_fit hP k (t + 3) (by omega)) (.pure _))

theorem eachRef_fit (n : Nat) {u : Nat} (hP : ∀ p ∈ P, p ≤ u) (hu : u < t) : Fit l P t (s.eachRefP n u) := by
  have h1 : ∀ p ∈ (if s.whole.has l then t :: P else P), p ≤ t := arg_on (Nat.le_refl t) (older hP (by omega))
  exact .call shared_raw (fun _ => hP) (.bind (.read fun _ => h1) (refs_fit s h1 n (t + 1) (Nat.lt_succ_self t)))

theorem eachMut_fit (n : Nat) {u : Nat} (hP : ∀ p ∈ P, p ≤ u) (hu : u < t) : Fit l P t (s.eachMutP n u) := by
  have h1 : ∀ p ∈ (if s.whole.has l then t :: P else P), p ≤ t := arg_on (Nat.le_refl t) (older hP (by omega))
  exact .call excl_raw (fun _ => hP) (.bind (.read fun _ => h1) (muts_fit s h1 n (t + 1) (Nat.lt_succ_self t)))

end

theorem eachRef_same (s : Place) (n u : Nat) : Same (s.eachRefP n u) (s.eachRef n u) :=
  .call fun self => (Same.lift (read self s.head)).bind fun _ => refs_same s self n

theorem eachMut_same (s : Place) (n u : Nat) : Same (s.eachMutP n u) (s.eachMut n u) :=
  .call fun self => (Same.lift (read self s.head)).bind fun _ => muts_same s self n

/-- With protectors, a call does the same. -/
theorem call_same (s : Place) (d : Nat) (o : Owner) : (c : Call) → plain (c.marks s d o) = (c.go s d o).2
  | .len => rfl
  | .asSlice => rfl
  | .asMutSlice => rfl
  | .copyFromSlice _ => rfl
  | .eachRef => (eachRef_same s o.len ownerTag o.next).2.2
  | .eachMut => (eachMut_same s o.len ownerTag o.next).2.2
  | .get h i => by
    show plain (match o.held[h]? with | some x => _ | none => []) = (match o.held[h]? with | some x => (o, _) | none => (o, [])).2
    cases o.held[h]? <;> rfl
  | .set h i => by
    show plain (match o.held[h]? with | some x => _ | none => []) = (match o.held[h]? with | some x => (o, _) | none => (o, [])).2
    cases o.held[h]? <;> rfl

theorem marks_same (s : Place) (d : Nat) : (o : Owner) → (cs : List Call) → plain (marks s d o cs) = events s d o cs
  | _, [] => rfl
  | o, c :: cs => by
    show plain (c.marks s d o ++ marks s d (c.go s d o).1 cs) = (c.go s d o).2 ++ _
    rw [plain_append, call_same, marks_same]

theorem call_fits (s : Place) (d : Nat) (hd : Apart s d) (l : Nat) (o : Owner) (ho : 2 ≤ o.next) (c : Call)
    (hc : ∀ n, c = .copyFromSlice n → n ≤ s.cap) : Fits l [] o.next (c.marks s d o) (c.go s d o).1.next := by
  have h0 : ownerTag < o.next := by show 0 < o.next; omega
  cases c with
  | len => exact len_fit s no_args h0
  | asSlice => exact asSlice_fit s o.len no_args h0
  | asMutSlice => exact asMutSlice_fit s o.len no_args h0
  | copyFromSlice n => exact copyFromSlice_fit s d n (hc n rfl) hd
  | eachRef =>
    show Fits l [] o.next (s.eachRefP o.len ownerTag o.next).2.2 (s.eachRef o.len ownerTag o.next).2.1
    rw [← (eachRef_same s o.len ownerTag o.next).2.1]
    exact eachRef_fit s o.len no_args h0
  | eachMut =>
    show Fits l [] o.next (s.eachMutP o.len ownerTag o.next).2.2 (s.eachMut o.len ownerTag o.next).2.1
    rw [← (eachMut_same s o.len ownerTag o.next).2.1]
    exact eachMut_fit s o.len no_args h0
  | get h i =>
    show Fits l [] o.next (match o.held[h]? with | some x => _ | none => [])
      (match o.held[h]? with | some x => (o, _) | none => (o, [])).1.next
    cases o.held[h]? with
    | none => exact .nil
    | some x => exact .read (fun _ => no_args) .nil
  | set h i =>
    show Fits l [] o.next (match o.held[h]? with | some x => _ | none => [])
      (match o.held[h]? with | some x => (o, _) | none => (o, [])).1.next
    cases o.held[h]? with
    | none => exact .nil
    | some x => exact .write (fun _ => no_args) .nil

theorem Fits.grows {l : Nat} {P : List Nat} {t t' : Nat} {ms : List Mark} (h : Fits l P t ms t') : t ≤ t' := by
  induction h with
  | nil => exact Nat.le_refl _
  | read _ _ ih => exact ih
  | write _ _ ih => exact ih
  | retag _ _ ih => omega
  | call _ _ _ _ ih ih' => omega

theorem marks_fit (s : Place) (d : Nat) (hd : Apart s d) (l : Nat) : (o : Owner) → 2 ≤ o.next → (cs : List Call) →
    Room s.cap cs → ∃ t, Fits l [] o.next (marks s d o cs) t
  | o, _, [], _ => ⟨_, .nil⟩
  | o, ho, c :: cs, hc => by
    have h1 := call_fits s d hd l o ho c fun n e => hc n (e ▸ .head _)
    obtain ⟨t, ht⟩ := marks_fit s d hd l (c.go s d o).1 (Nat.le_trans ho h1.grows) cs fun n hn => hc n (.tail _ hn)
    exact ⟨t, h1.append ht⟩

end Oct.Alias
