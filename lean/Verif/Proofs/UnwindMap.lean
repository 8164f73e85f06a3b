import Verif.Model.UnwindMap
import Verif.Proofs.Unwind
/- Lemmas for `Props/UnwindMap.lean`. -/
namespace Oct
open Spec

/-- Code ended with this if it returned, with that if it unwinds, with `A` if it aborts, and is not
undefined. -/
def EndsIn {α : Type} (A : Tally → Prop) (r : Ended α × Tally) (P : α → Tally → Prop)
    (Q : Tally → Prop) : Prop :=
  match r with
  | (.ok a, s) => P a s
  | (.unwind, s) => Q s
  | (.abort, s) => A s
  | (.ub _, _) => False

theorem EndsIn.mono {α : Type} {A : Tally → Prop} {r : Ended α × Tally} {P P' : α → Tally → Prop}
    {Q Q' : Tally → Prop} (h : EndsIn A r P Q) (hp : ∀ a s, P a s → P' a s)
    (hq : ∀ s, Q s → Q' s) : EndsIn A r P' Q' := by
  obtain ⟨r, s⟩ := r
  cases r with
  | ok a => exact hp _ _ h
  | unwind => exact hq _ h
  | abort => exact h
  | ub u => exact h

theorem EndsIn.bind {α β : Type} {A : Tally → Prop} {m : Act α} {f : α → Act β} {s : Tally}
    {P' : α → Tally → Prop} {P : β → Tally → Prop} {Q : Tally → Prop} (h : EndsIn A (m s) P' Q)
    (hf : ∀ a s', P' a s' → EndsIn A (f a s') P Q) : EndsIn A ((m >>= f) s) P Q := by
  show EndsIn A (Act.bind m f s) P Q
  unfold Act.bind
  generalize m s = r at h
  obtain ⟨r, s'⟩ := r
  cases r with
  | ok a => exact hf _ _ h
  | unwind => exact h
  | abort => exact h
  | ub u => exact h

theorem EndsIn.guard {α : Type} {A : Tally → Prop} {m : Act α} {c : Act Unit} {s : Tally}
    {P : α → Tally → Prop} {Q Q' : Tally → Prop} (h : EndsIn A (m s) P Q')
    (hc : ∀ s', Q' s' → EndsIn A (c s') (fun _ => Q) A) : EndsIn A (m.guard c s) P Q := by
  unfold Act.guard
  generalize m s = r at h
  obtain ⟨r, s'⟩ := r
  cases r with
  | ok a => exact h
  | abort => exact h
  | ub u => exact h
  | unwind =>
    have := hc s' h
    simp only
    generalize c s' = r at this
    obtain ⟨r, s''⟩ := r
    cases r <;> exact this

/-- What is known of the owned items (`I`) stays known under the calls of the user's code, and under
the destructors `d`, which panic only if `loud`; items may be lost then only if `lossy`. -/
structure Keeping (I : List Nat → Tally → Prop) (A : Tally → Prop) (loud lossy : Prop)
    (d : Nat → Act Unit) : Prop where
  perm : ∀ {l l' s}, I l s → l.Perm l' → I l' s
  call : ∀ {l s}, I l s → EndsIn A (userCall s) (fun _ => I l) (I l)
  new : ∀ {l s}, I l s → EndsIn A (newItem s) (fun a => I (a :: l)) (fun _ => False)
  touch : ∀ {l s a}, a ∈ l → I l s → touch a s = (.ok (), s)
  drop : ∀ {l s a}, I (a :: l) s → EndsIn A (d a s) (fun _ => I l) (fun s => loud ∧ I l s)
  weak : ∀ {l l' s}, lossy → loud → I (l' ++ l) s → I l s
  abort : ∀ {l s}, loud → I l s → A s

/-- The items of the slots of a table. -/
def itemsOf (m : List TableSlot) : List Nat := m.flatMap TableSlot.items

section
variable {I : List Nat → Tally → Prop} {A : Tally → Prop} {loud lossy : Prop} {d : Nat → Act Unit}

theorem Keeping.glue (K : Keeping I A loud lossy d) : ∀ (xs : List Nat) {l : List Nat} {s : Tally},
    I (xs ++ l) s → EndsIn A (glueWith d xs s) (fun _ => I l) (fun s => loud ∧ I l s)
  | [], _, _, h => h
  | _ :: xs, l, _, h =>
    EndsIn.bind
      (EndsIn.guard (P := fun _ => I (xs ++ l)) (K.drop h) fun _ h' =>
        (K.glue xs h'.2).mono (fun _ _ h => ⟨h'.1, h⟩) fun _ h => K.abort h.1 h.2)
      fun _ _ h' => K.glue xs h'

theorem Keeping.slots (K : Keeping I A loud lossy d) (hl : lossy) : ∀ (m : List TableSlot) {l : List Nat} {s : Tally},
    I (itemsOf m ++ l) s → EndsIn A (dropSlots d m s) (fun _ => I l) (fun s => loud ∧ I l s)
  | [], _, _, h => h
  | e :: m, l, _, h => by
    refine EndsIn.bind (P' := fun _ => I (itemsOf m ++ l)) ((K.glue e.items (l := itemsOf m ++ l) ?_).mono
      (fun _ _ h => h) fun _ h => ⟨h.1, K.weak hl h.1 h.2⟩) fun _ _ h' => K.slots hl m h'
    simpa [itemsOf] using h

theorem Keeping.table (K : Keeping I A loud lossy d) (T : TableOf) (ht : ∀ m, (T.layout m).Perm m)
    (hl : T.stops = true ∨ T.loses = true → lossy)
    (m : List TableSlot) {l : List Nat} {s : Tally} (h : I (itemsOf m ++ l) s) :
    EndsIn A (dropTable T d m s) (fun _ => I l) (fun s => loud ∧ I l s) := by
  have h' : I (itemsOf (T.layout m) ++ l) s :=
    K.perm h (((ht m).symm.flatMap_right _).append_right l)
  unfold dropTable
  split
  · exact K.slots (hl (.inl ‹_›)) _ h'
  · exact K.glue _ h'

theorem Keeping.tableUnwinding (K : Keeping I A loud lossy d) (T : TableOf)
    (ht : ∀ m, (T.layout m).Perm m)
    (hl : T.stops = true ∨ T.loses = true → lossy) (m : List TableSlot) {l : List Nat} {s : Tally}
    (h : I (itemsOf m ++ l) s) : EndsIn A (dropTable T d m s) (fun _ => I l) A :=
  (K.table T ht hl m h).mono (fun _ _ h => h) fun _ h => K.abort h.1 h.2

theorem Keeping.decode (K : Keeping I A loud lossy d) {l : List Nat} {s : Tally} (h : I l s) :
    EndsIn A (userDecode s) (fun r => I (r.toList ++ l)) (I l) := by
  unfold userDecode
  refine EndsIn.bind (K.call h) fun b s' h' => ?_
  cases b
  · exact h'
  · exact EndsIn.bind ((K.new h').mono (fun _ _ h => h) fun _ h => h.elim) fun a _ h'' => h''

theorem Keeping.decodeOne (K : Keeping I A loud lossy d) (pairs : Bool) {l : List Nat} {s : Tally}
    (h : I l s) : EndsIn A (decodeOne pairs s) (fun r => I (r.getD [] ++ l)) (I l) := by
  unfold Oct.decodeOne
  cases pairs
  · exact h
  · refine EndsIn.bind (K.decode h) fun r s' h' => ?_
    cases r <;> exact h'

theorem Keeping.touches (K : Keeping I A loud lossy d) {l : List Nat} {s : Tally} {a : Nat} (ha : a ∈ l)
    (h : I l s) {Q : Tally → Prop} : EndsIn A (Oct.touch a s) (fun _ => I l) Q := by
  rw [K.touch ha h]
  exact h

theorem Keeping.find (K : Keeping I A loud lossy d) (k : Nat) (m : List TableSlot) {l : List Nat}
    (hk : k ∈ l) (hm : ∀ e ∈ m, e.key ∈ l) : ∀ (is : List Nat) {s : Tally}, I l s →
    EndsIn A (findEqual k m is s) (fun r s' => I l s' ∧ ∀ i, r = some i → ∃ e, m[i]? = some e) (I l)
  | [], _, h => ⟨h, by simp⟩
  | i :: is, s, h => by
    unfold findEqual
    cases hi : m[i]? with
    | none => exact K.find k m hk hm is h
    | some e =>
      refine EndsIn.bind (K.touches hk h) fun _ _ h => EndsIn.bind
        (K.touches (hm e (List.mem_of_getElem? hi)) h) fun _ _ h => EndsIn.bind (K.call h)
        fun b _ h => ?_
      cases b
      · exact K.find k m hk hm is h
      · exact ⟨h, fun j ej => ⟨e, by cases ej; exact hi⟩⟩

theorem replaceAt_perm (v : List Nat) : ∀ (m : List TableSlot) (i : Nat) (e : TableSlot),
    m[i]? = some e → (v ++ itemsOf m).Perm (valueAt m i ++ itemsOf (replaceAt m i v))
  | [], i, e, h => by simp at h
  | e' :: m, 0, e, h => by
    simp only [valueAt, List.getElem?_cons_zero, replaceAt, List.modify_zero_cons, itemsOf,
      List.flatMap_cons, TableSlot.items]
    simp only [List.cons_append]
    refine List.perm_middle.trans (List.Perm.trans (List.Perm.cons _ ?_) List.perm_middle.symm)
    rw [← List.append_assoc, ← List.append_assoc]
    exact List.perm_append_comm.append_right _
  | e' :: m, i + 1, e, h => by
    have ih := replaceAt_perm v m i e (by simpa using h)
    have h1 : valueAt (e' :: m) (i + 1) = valueAt m i := by simp [valueAt]
    have h2 : replaceAt (e' :: m) (i + 1) v = e' :: replaceAt m i v := by simp [replaceAt]
    rw [h1, h2]
    show (v ++ (e'.items ++ itemsOf m)).Perm (valueAt m i ++ (e'.items ++ itemsOf (replaceAt m i v)))
    exact (List.perm_append_comm_assoc _ _ _).trans
      ((ih.append_left e'.items).trans (List.perm_append_comm_assoc _ _ _))

theorem Keeping.insert (K : Keeping I A loud lossy d) (T : TableOf) (ht : ∀ m, (T.layout m).Perm m)
    (hl : T.stops = true ∨ T.loses = true → lossy)
    (round : Nat) (m : List TableSlot) (k : Nat) (v : List Nat) {l : List Nat} {s : Tally}
    (h : I (v ++ (k :: (itemsOf m ++ l))) s) :
    EndsIn A (insertSlot T d round m k v s) (fun m' => I (itemsOf m' ++ l)) (I l) := by
  unfold insertSlot
  have hk : k ∈ v ++ (k :: (itemsOf m ++ l)) := by simp
  have hm : ∀ e ∈ m, e.key ∈ v ++ (k :: (itemsOf m ++ l)) := by
    intro e he
    have : e.key ∈ itemsOf m := List.mem_flatMap.mpr ⟨e, he, by simp [TableSlot.items]⟩
    simp [this]
  refine EndsIn.bind (P' := fun r s' => I (v ++ (k :: (itemsOf m ++ l))) s' ∧
    ∀ i, r = some i → ∃ e, m[i]? = some e)
    (EndsIn.guard (Q' := I (v ++ (k :: (itemsOf m ++ l)))) ?_ fun _ h' => ?_) fun r s' h' => ?_
  · exact EndsIn.bind (K.touches hk h) fun _ _ h => EndsIn.bind (K.call h) fun _ _ h =>
      K.find k m hk hm _ h
  · refine EndsIn.bind (P' := fun _ => I (itemsOf m ++ l)) ?_ fun _ _ h => K.tableUnwinding T ht hl m h
    refine (K.glue (v ++ [k]) (l := itemsOf m ++ l) (by simpa using h')).mono (fun _ _ h => h)
      fun _ h => K.abort h.1 h.2
  · obtain ⟨h', hr⟩ := h'
    cases r with
    | none =>
      refine K.perm h' ?_
      show _
      have : itemsOf (m ++ [⟨k, v⟩]) = itemsOf m ++ (k :: v) := by simp [itemsOf, TableSlot.items]
      rw [this]
      refine List.perm_middle.trans ?_
      rw [List.append_assoc, List.cons_append]
      refine List.Perm.trans (List.Perm.cons _ ?_) List.perm_middle.symm
      exact List.perm_append_comm_assoc _ _ _
    | some i =>
      obtain ⟨e, he⟩ := hr i rfl
      have hp := replaceAt_perm v m i e he
      have h1 : I (k :: (valueAt m i ++ (itemsOf (replaceAt m i v) ++ l))) s' := by
        refine K.perm h' (List.perm_middle.trans (List.Perm.cons _ ?_))
        rw [← List.append_assoc, ← List.append_assoc]
        exact hp.append_right l
      refine EndsIn.bind (P' := fun _ => I (valueAt m i ++ (itemsOf (replaceAt m i v) ++ l)))
        (EndsIn.guard (K.drop h1) fun s'' h2 => ?_) fun _ _ h3 => ?_
      · refine EndsIn.bind (P' := fun _ => I (itemsOf (replaceAt m i v) ++ l)) ?_ fun _ _ h =>
          K.tableUnwinding T ht hl _ h
        refine (K.glue _ (l := itemsOf (replaceAt m i v) ++ l) ?_).mono (fun _ _ h => h)
          fun _ h => K.abort h.1 h.2
        split
        · exact K.weak (hl (.inr ‹_›)) h2.1 h2.2
        · exact h2.2
      · exact EndsIn.bind (EndsIn.guard (K.glue _ h3) fun _ h => K.tableUnwinding T ht hl _ h.2)
          fun _ _ h => h

theorem Keeping.loop (K : Keeping I A loud lossy d) (T : TableOf) (ht : ∀ m, (T.layout m).Perm m)
    (hl : T.stops = true ∨ T.loses = true → lossy)
    (pairs : Bool) : ∀ (n : Nat) (m : List TableSlot) {l : List Nat} {s : Tally},
    I (itemsOf m ++ l) s →
    EndsIn A (decodeSlots T d pairs n m s) (fun r => I (itemsOf (r.getD []) ++ l)) (I l)
  | 0, _, _, _, h => h
  | n + 1, m, l, s, h => by
    unfold decodeSlots
    refine EndsIn.bind (EndsIn.guard (K.decode h) fun _ h => K.tableUnwinding T ht hl m h)
      fun r s' h' => ?_
    cases r with
    | none =>
      exact EndsIn.bind ((K.table T ht hl m h').mono (fun _ _ h => h) fun _ h => h.2) fun _ _ h => h
    | some k =>
      refine EndsIn.bind (EndsIn.guard (K.decodeOne pairs h') fun _ h => EndsIn.bind
        (P' := fun _ => I (itemsOf m ++ l))
        ((K.drop h).mono (fun _ _ h => h) fun _ h => K.abort h.1 h.2) fun _ _ h =>
          K.tableUnwinding T ht hl m h) fun r s'' h'' => ?_
      cases r with
      | none =>
        refine EndsIn.bind (EndsIn.guard (K.drop h'') fun _ h => K.tableUnwinding T ht hl m h.2)
          fun _ _ h => ?_
        exact EndsIn.bind ((K.table T ht hl m h).mono (fun _ _ h => h) fun _ h => h.2) fun _ _ h => h
      | some v =>
        exact EndsIn.bind (K.insert T ht hl n m k v h'') fun m' _ h => K.loop T ht hl pairs n m' h

theorem Keeping.decodeTable (K : Keeping I A loud lossy d) (T : TableOf) (ht : ∀ m, (T.layout m).Perm m)
    (hl : T.stops = true ∨ T.loses = true → lossy)
    (pairs : Bool) (n : Nat) {s : Tally} (h : I [] s) :
    EndsIn A (decodeTable T d pairs n s) (fun r => I (itemsOf (r.getD []))) (I []) := by
  unfold Oct.decodeTable
  refine EndsIn.bind (K.call h) fun _ _ h => ?_
  exact (K.loop T ht hl pairs n [] (l := []) h).mono (fun _ _ h => by simpa using h) fun _ h => h

end

/-- With destructors that panic: nothing is destroyed twice or used afterwards. -/
theorem keeping_loud : Keeping Safe (fun s => s.dropped.Nodup) True True userDrop where
  perm h p := h.perm p
  call h := by
    unfold userCall
    split <;> exact h
  new h := newItem_ends (Q := fun _ => False) h
  touch ha h := by
    unfold touch
    rw [if_neg (h.notDropped ha)]
  drop {l s a} h := by
    have ht : touch a s = (.ok (), s) := by
      unfold touch
      rw [if_neg (h.notDropped List.mem_cons_self)]
    have hd := userDrop_ends h
    unfold userDrop at hd ⊢
    refine EndsIn.bind (P' := fun _ s' => s' = s) (by rw [ht]; exact rfl) fun _ s' e => ?_
    subst e
    refine EndsIn.bind (P' := fun _ => Safe l) ?_ fun _ s'' h'' => EndsIn.bind
      (P' := fun _ => Safe l) ?_ fun _ _ h => h
    · have p : ((a :: l) ++ s'.dropped).Perm (l ++ (s'.dropped ++ [a])) := by
        rw [← List.append_assoc]
        exact (List.perm_append_singleton _ _).symm
      exact ⟨p.nodup_iff.mp h.1, fun b hb => h.2 b (p.mem_iff.mpr hb)⟩
    · unfold userCall
      split <;> first | exact h'' | exact ⟨trivial, h''⟩
  weak _ _ h := h.right
  abort _ h := h.nodup

/-- With destructors that do not panic: nothing is lost either. -/
theorem keeping_quiet (base : List Nat) (f : Nat) :
    Keeping (Since base f) (fun _ => False) False True quietDrop where
  perm h p := h.perm p
  call h := by
    unfold userCall
    split <;> exact h
  new h := newItem_since (Q := fun _ => False) h
  touch ha h := by
    unfold touch
    rw [if_neg (h.1.notDropped ha)]
  drop {l s a} h := by
    have ht : touch a s = (.ok (), s) := by
      unfold touch
      rw [if_neg (h.1.notDropped List.mem_cons_self)]
    unfold quietDrop
    refine EndsIn.bind (P' := fun _ s' => s' = s) (by rw [ht]; exact rfl) fun _ s' e => ?_
    subst e
    have p : ((a :: l) ++ s'.dropped).Perm (l ++ (s'.dropped ++ [a])) := by
      rw [← List.append_assoc]
      exact (List.perm_append_singleton _ _).symm
    exact ⟨⟨p.nodup_iff.mp h.1.1, fun b hb => h.1.2 b (p.mem_iff.mpr hb)⟩, h.2.1,
      p.symm.trans h.2.2⟩
  weak _ h := h.elim
  abort h := h.elim

/-- With destructors that panic, and a table that loses nothing. -/
theorem keeping_careful (base : List Nat) (f : Nat) :
    Keeping (Since base f) (fun s => s.dropped.Nodup) True False userDrop where
  perm h p := h.perm p
  call h := by
    unfold userCall
    split <;> exact h
  new h := newItem_since (Q := fun _ => False) h
  touch ha h := by
    unfold touch
    rw [if_neg (h.1.notDropped ha)]
  drop {l s a} h := by
    have ht : touch a s = (.ok (), s) := by
      unfold touch
      rw [if_neg (h.1.notDropped List.mem_cons_self)]
    unfold userDrop
    refine EndsIn.bind (P' := fun _ s' => s' = s) (by rw [ht]; exact rfl) fun _ s' e => ?_
    subst e
    refine EndsIn.bind (P' := fun _ => Since base f l) ?_ fun _ s'' h'' => EndsIn.bind
      (P' := fun _ => Since base f l) ?_ fun _ _ h => h
    · have p : ((a :: l) ++ s'.dropped).Perm (l ++ (s'.dropped ++ [a])) := by
        rw [← List.append_assoc]
        exact (List.perm_append_singleton _ _).symm
      exact ⟨⟨p.nodup_iff.mp h.1.1, fun b hb => h.1.2 b (p.mem_iff.mpr hb)⟩, h.2.1,
        p.symm.trans h.2.2⟩
    · unfold userCall
      split <;> first | exact h'' | exact ⟨trivial, h''⟩
  weak h := h.elim
  abort _ h := h.1.nodup

/-- Rounds of which every call returns, with keys that are compared with none. -/
theorem decodeSlots_replicate (T : TableOf) (hc : T.candidates = fun _ _ => []) (fs : List Fate)
    (d : Nat → Act Unit) : ∀ (j n : Nat) (m : List TableSlot) (a : Nat),
    decodeSlots T d false (j + n) m ⟨[], a, List.replicate (2 * j) .returns ++ fs⟩
      = decodeSlots T d false n (m ++ (List.range' a j).map fun x => ⟨x, []⟩) ⟨[], a + j, fs⟩
  | 0, n, m, a => by simp
  | j + 1, n, m, a => by
    have e : 2 * (j + 1) = 2 * j + 1 + 1 := by omega
    rw [e, show j + 1 + n = (j + n) + 1 by omega, List.replicate_succ, List.replicate_succ]
    have h : decodeSlots T d false (j + n + 1) m
        ⟨[], a, .returns :: .returns :: List.replicate (2 * j) .returns ++ fs⟩
        = decodeSlots T d false (j + n) (m ++ [⟨a, []⟩])
          ⟨[], a + 1, List.replicate (2 * j) .returns ++ fs⟩ := by
      conv => lhs; unfold decodeSlots
      obtain ⟨c, lay, st, lo⟩ := T
      cases hc
      rfl
    rw [h, decodeSlots_replicate T hc fs d j n]
    have e' : a + 1 + j = a + (j + 1) := by omega
    rw [e', List.range'_succ]
    simp

end Oct
