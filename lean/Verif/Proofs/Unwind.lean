import Verif.Spec.Unwind
import Verif.Proofs.Ownership
/- Lemmas for `Props/Unwind.lean`. -/
namespace Oct
open Spec

/-- The owned items `l` are distinct, not destroyed, and were made. -/
def Safe (l : List Nat) (s : Tally) : Prop :=
  (l ++ s.dropped).Nodup ∧ ∀ a ∈ l ++ s.dropped, a < s.fresh

/-- Code ended with this if it returned, with that if it unwinds. -/
def Leaves {α : Type} (r : Ended α × Tally) (P : α → Tally → Prop) (Q : Tally → Prop) : Prop :=
  match r with
  | (.ok a, s) => P a s
  | (.unwind, s) => Q s
  | (.abort, s) => s.dropped.Nodup
  | (.ub u, _) => u = .zeroAlloc

theorem Safe.perm {l l' : List Nat} {s : Tally} (h : Safe l s) (p : l.Perm l') : Safe l' s :=
  ⟨((p.append_right _).nodup_iff).mp h.1, fun a ha => h.2 a ((p.append_right _).mem_iff.mpr ha)⟩

theorem Safe.right {l l' : List Nat} {s : Tally} (h : Safe (l ++ l') s) : Safe l' s := by
  refine ⟨?_, fun a ha => h.2 a ?_⟩
  · have := h.1
    rw [List.append_assoc] at this
    exact (List.nodup_append.mp this).2.1
  · rw [List.append_assoc]
    exact List.mem_append_right _ ha

theorem Safe.nodup {l : List Nat} {s : Tally} (h : Safe l s) : s.dropped.Nodup :=
  (List.nodup_append.mp h.1).2.1

theorem Safe.fates {l : List Nat} {s : Tally} (h : Safe l s) (fs : List Fate) :
    Safe l { s with fates := fs } := h

theorem Leaves.mono {α : Type} {r : Ended α × Tally} {P P' : α → Tally → Prop} {Q Q' : Tally → Prop}
    (h : Leaves r P Q) (hp : ∀ a s, P a s → P' a s) (hq : ∀ s, Q s → Q' s) : Leaves r P' Q' := by
  obtain ⟨r, s⟩ := r
  cases r with
  | ok a => exact hp _ _ h
  | unwind => exact hq _ h
  | abort => exact h
  | ub u => exact h

theorem Leaves.bind {α β : Type} {m : Act α} {f : α → Act β} {s : Tally} {P' : α → Tally → Prop}
    {P : β → Tally → Prop} {Q : Tally → Prop} (h : Leaves (m s) P' Q)
    (hf : ∀ a s', P' a s' → Leaves (f a s') P Q) : Leaves ((m >>= f) s) P Q := by
  show Leaves (Act.bind m f s) P Q
  unfold Act.bind
  generalize m s = r at h
  obtain ⟨r, s'⟩ := r
  cases r with
  | ok a => exact hf _ _ h
  | unwind => exact h
  | abort => exact h
  | ub u => exact h

theorem Leaves.pure {α : Type} {a : α} {s : Tally} {P : α → Tally → Prop} {Q : Tally → Prop}
    (h : P a s) : Leaves ((Pure.pure a : Act α) s) P Q := h

theorem Leaves.guard {α : Type} {m : Act α} {c : Act Unit} {s : Tally} {P : α → Tally → Prop}
    {Q Q' : Tally → Prop} (h : Leaves (m s) P Q')
    (hc : ∀ s', Q' s' → Leaves (c s') (fun _ => Q) (fun s => s.dropped.Nodup)) :
    Leaves (m.guard c s) P Q := by
  unfold Act.guard
  generalize m s = r at h
  obtain ⟨r, s'⟩ := r
  cases r with
  | ok a => exact h
  | abort => exact h
  | ub u => exact h
  | unwind =>
    have := hc s' h
    simp only
    generalize c s' = r at this
    obtain ⟨r, s''⟩ := r
    cases r <;> exact this

theorem Leaves.catching {m : Act (List Holder)} {after : List Holder} {s : Tally}
    {P : List Holder → Tally → Prop} {Q' Q : Tally → Prop} {P' : Bool × List Holder → Tally → Prop}
    (h : Leaves (m s) P Q') (hp : ∀ hs s', P hs s' → P' (true, hs) s')
    (hq : ∀ s', Q' s' → P' (false, after) s') : Leaves (m.catching after s) P' Q := by
  unfold Act.catching
  generalize m s = r at h
  obtain ⟨r, s'⟩ := r
  cases r with
  | ok a => exact hp _ _ h
  | unwind => exact hq _ h
  | abort => exact h
  | ub u => exact h

theorem userCall_ends {l : List Nat} {s : Tally} (h : Safe l s) :
    Leaves (userCall s) (fun _ => Safe l) (Safe l) := by
  unfold userCall
  split <;> exact h

theorem newItem_ends {l : List Nat} {s : Tally} {Q : Tally → Prop} (h : Safe l s) :
    Leaves (newItem s) (fun a => Safe (a :: l)) Q := by
  refine ⟨?_, ?_⟩
  · rw [List.cons_append, List.nodup_cons]
    exact ⟨fun hm => Nat.lt_irrefl _ (h.2 _ hm), h.1⟩
  · intro a ha
    rw [List.cons_append, List.mem_cons] at ha
    rcases ha with rfl | ha
    · exact Nat.lt_succ_self _
    · exact Nat.lt_succ_of_lt (h.2 a ha)

theorem Safe.notDropped {l : List Nat} {s : Tally} (h : Safe l s) {a : Nat} (ha : a ∈ l) :
    a ∉ s.dropped :=
  fun hd => (List.nodup_append.mp h.1).2.2 a ha a hd rfl

theorem touch_ends {l : List Nat} {s : Tally} {Q : Tally → Prop} {a : Nat} (ha : a ∈ l)
    (h : Safe l s) : Leaves (touch a s) (fun _ => Safe l) Q := by
  unfold touch
  rw [if_neg (h.notDropped ha)]
  exact h

theorem touchAll_ends {l : List Nat} {Q : Tally → Prop} : ∀ (xs : List Nat) {s : Tally},
    (∀ a ∈ xs, a ∈ l) → Safe l s → Leaves (touchAll xs s) (fun _ => Safe l) Q
  | [], _, _, h => h
  | x :: xs, _, hm, h =>
    Leaves.bind (touch_ends (hm x (by simp)) h) fun _ _ h' =>
      touchAll_ends xs (fun a ha => hm a (by simp [ha])) h'

theorem userDrop_ends {l : List Nat} {s : Tally} {a : Nat} (h : Safe (a :: l) s) :
    Leaves (userDrop a s) (fun _ => Safe l) (Safe l) := by
  unfold userDrop
  refine Leaves.bind (touch_ends (List.mem_cons_self) h) fun _ s' h' => ?_
  refine Leaves.bind (P' := fun _ => Safe l) ?_ fun _ s'' h'' => Leaves.bind (userCall_ends h'')
    fun _ _ h => h
  show Safe l { s' with dropped := s'.dropped ++ [a] }
  have p : ((a :: l) ++ s'.dropped).Perm (l ++ (s'.dropped ++ [a])) := by
    rw [← List.append_assoc]
    exact (List.perm_append_singleton _ _).symm
  exact ⟨p.nodup_iff.mp h'.1, fun b hb => h'.2 b (p.mem_iff.mpr hb)⟩

theorem dropGlue_ends : ∀ (xs : List Nat) {l : List Nat} {s : Tally}, Safe (xs ++ l) s →
    Leaves (dropGlue xs s) (fun _ => Safe l) (Safe l)
  | [], _, _, h => h
  | x :: xs, l, s, h =>
    Leaves.bind
      (Leaves.guard (P := fun _ => Safe (xs ++ l)) (userDrop_ends h) fun _ h' =>
        (dropGlue_ends xs h').mono (fun _ _ h => h) fun _ h => h.nodup)
      fun _ _ h' => dropGlue_ends xs h'

theorem userDecode_ends {l : List Nat} {s : Tally} (h : Safe l s) :
    Leaves (userDecode s) (fun r => Safe (r.toList ++ l)) (Safe l) := by
  unfold userDecode
  refine Leaves.bind (userCall_ends h) fun b s' h' => ?_
  cases b
  · exact h'
  · exact Leaves.bind (newItem_ends h') fun a _ h'' => h''

theorem userClone_ends {l : List Nat} {s : Tally} {a : Nat} (ha : a ∈ l) (h : Safe l s) :
    Leaves (userClone a s) (fun b => Safe (b :: l)) (Safe l) := by
  unfold userClone
  exact Leaves.bind (touch_ends ha h) fun _ _ h => Leaves.bind (userCall_ends h) fun _ _ h =>
    newItem_ends h

theorem cloneEach_ends : ∀ (xs : List Nat) {l : List Nat} {s : Tally}, (∀ a ∈ xs, a ∈ l) →
    Safe l s →
    Leaves (cloneEach xs s) (fun ys s' => ys.length = xs.length ∧ Safe (ys ++ l) s') (Safe l)
  | [], _, _, _, h => ⟨rfl, h⟩
  | x :: xs, l, s, hm, h =>
    Leaves.bind (userClone_ends (hm x (by simp)) h) fun y s' h' =>
      Leaves.bind
        ((cloneEach_ends xs (l := y :: l) (fun a ha => by simp [hm a (by simp [ha])]) h').mono
          (fun _ _ h => h) fun _ h => Safe.right (l := [y]) h)
        fun ys _ h => ⟨by simp [h.1], h.2.perm (by
          rw [List.cons_append]; exact List.perm_middle)⟩

theorem takeEach_ends : ∀ (n : Nat) (xs : List Nat) {l : List Nat} {s : Tally},
    Safe (xs ++ l) s →
    Leaves (takeEach n xs s)
      (fun r s' => r.1 ++ r.2 = xs ∧ r.1.length ≤ n ∧ Safe (xs ++ l) s') (Safe l)
  | 0, xs, _, _, h => ⟨rfl, Nat.le_refl _, h⟩
  | n + 1, xs, l, s, h => by
    unfold takeEach
    refine Leaves.bind (P' := fun _ => Safe (xs ++ l))
      (Leaves.guard (userCall_ends h) fun _ h' =>
        (dropGlue_ends xs h').mono (fun _ _ h => h) fun _ h => h.nodup) fun _ s' h' => ?_
    cases xs with
    | nil => exact ⟨rfl, Nat.zero_le _, h'⟩
    | cons x xs =>
      refine Leaves.bind
        ((takeEach_ends n xs (l := x :: l) (h'.perm (by
          rw [List.cons_append]; exact List.perm_middle.symm))).mono (fun _ _ h => h) fun _ h =>
          Safe.right (l := [x]) h) fun r s'' h'' => ?_
      exact ⟨by rw [List.cons_append, h''.1], Nat.succ_le_succ h''.2.1, h''.2.2.perm (by
        rw [List.cons_append]; exact List.perm_middle)⟩

theorem decodeCellwise_ends : ∀ (n : Nat) {l : List Nat} {s : Tally}, Safe l s →
    Leaves (decodeCellwise n s)
      (fun r s' => Safe ((r.getD []) ++ l) s' ∧ ∀ xs, r = some xs → xs.length = n) (Safe l)
  | 0, _, _, h => ⟨h, fun _ e => by cases e; rfl⟩
  | n + 1, l, s, h => by
    unfold decodeCellwise
    refine Leaves.bind (userDecode_ends h) fun r s' h' => ?_
    cases r with
    | none => exact ⟨h', fun _ e => nomatch e⟩
    | some x =>
      refine Leaves.bind ((decodeCellwise_ends n (l := x :: l) h').mono (fun _ _ h => h) fun _ h =>
        Safe.right (l := [x]) h) fun r s'' h'' => ?_
      cases r with
      | none => exact ⟨Safe.right (l := [x]) h''.1, fun _ e => nomatch e⟩
      | some xs =>
        refine ⟨h''.1.perm ?_, fun _ e => ?_⟩
        · show (xs ++ x :: l).Perm (x :: xs ++ l)
          rw [List.cons_append]; exact List.perm_middle
        · cases e
          simp [h''.2 xs rfl]

theorem decodeHeld_ends (order : List Nat → List Nat) (ho : ∀ l, (order l).Perm l) :
    ∀ (n : Nat) (sofar : List Nat) {l : List Nat} {s : Tally}, Safe (sofar ++ l) s →
    Leaves (decodeHeld order n sofar s) (fun r s' => Safe ((r.getD []) ++ l) s') (Safe l)
  | 0, _, _, _, h => h
  | n + 1, sofar, l, s, h => by
    unfold decodeHeld
    refine Leaves.bind (P' := fun r => Safe (r.toList ++ (sofar ++ l)))
      (Leaves.guard (userDecode_ends h) fun _ h' =>
        (dropGlue_ends _ (h'.perm ((ho sofar).symm.append_right l))).mono (fun _ _ h => h) fun _ h =>
          h.nodup) fun r s' h' => ?_
    cases r with
    | none =>
      exact Leaves.bind (dropGlue_ends _ (Safe.perm h' ((ho sofar).symm.append_right l)))
        fun _ _ h => h
    | some x =>
      refine decodeHeld_ends order ho n _ (Safe.perm h' ?_)
      show (x :: (sofar ++ l)).Perm (sofar ++ [x] ++ l)
      rw [List.append_assoc]
      exact List.perm_middle.symm

theorem makeItems_ends {Q : Tally → Prop} : ∀ (k : Nat) {l : List Nat} {s : Tally}, Safe l s →
    Leaves (makeItems k s) (fun xs => Safe (xs ++ l)) Q
  | 0, _, _, h => h
  | k + 1, l, s, h =>
    Leaves.bind (newItem_ends h) fun x s' h' =>
      Leaves.bind (makeItems_ends k (l := x :: l) h') fun xs _ h'' => h''.perm (by
        rw [List.cons_append]; exact List.perm_middle)

theorem DecKind.decode_ends (k : DecKind) {l : List Nat} {s : Tally} (h : Safe l s) :
    Leaves (k.decode s)
      (fun r s' => Safe (r.toList.flatMap owned ++ l) s' ∧ ∀ x ∈ r, x.Ok) (Safe l) := by
  cases k with
  | array n =>
    refine Leaves.bind (decodeCellwise_ends n h) fun r s' h' => ?_
    cases r with
    | none => exact ⟨h'.1, by simp⟩
    | some xs => exact ⟨by simpa [owned] using h'.1, fun x hx => by cases hx; trivial⟩
  | sizedSlice n len =>
    show Leaves ((if len > n then _ else _ : Act _) s) _ _
    split
    · exact ⟨h, by simp⟩
    · rename_i hn
      refine Leaves.bind (decodeCellwise_ends n h) fun r s' h' => ?_
      cases r with
      | none => exact ⟨h'.1, by simp⟩
      | some xs =>
        refine ⟨?_, fun x hx => ?_⟩
        · have := h'.1
          simpa [owned, filterMap_id_map_some] using this
        · cases hx
          refine ⟨xs.take len, SizedSlice.asSlice_ok.mpr ⟨?_, ?_⟩⟩
          · simp only [List.length_map, h'.2 xs rfl]; omega
          · simp only [List.map_take]
  | vec n =>
    refine Leaves.bind (decodeCellwise_ends n h) fun r s' h' => ?_
    cases r with
    | none => exact ⟨h'.1, by simp⟩
    | some xs => exact ⟨by simpa [owned] using h'.1, fun x hx => by cases hx; trivial⟩
  | linkedList n =>
    refine Leaves.bind (decodeHeld_ends id (fun _ => .refl _) n [] h) fun r s' h' => ?_
    cases r with
    | none => exact ⟨h', by simp⟩
    | some xs => exact ⟨by simpa [owned] using h', fun x hx => by cases hx; trivial⟩
  | fields n =>
    refine Leaves.bind (decodeHeld_ends _ List.reverse_perm n [] h) fun r s' h' => ?_
    cases r with
    | none => exact ⟨h', by simp⟩
    | some xs => exact ⟨by simpa [owned] using h', fun x hx => by cases hx; trivial⟩

/-- What an operation leaves, beside items that it has nothing to do with. -/
def Held (l : List Nat) (r : Bool × List Holder) (s : Tally) : Prop :=
  (∀ y ∈ r.2, y.Ok) ∧ Safe (r.2.flatMap owned ++ l) s

theorem held_same {b : Bool} {x : Holder} {l : List Nat} {s : Tally} (hx : x.Ok)
    (h : Safe (owned x ++ l) s) : Held l (b, [x]) s :=
  ⟨fun y hy => by rw [List.mem_singleton.mp hy]; exact hx, by simpa using h⟩

theorem cellsOf_owned {n : Nat} {xs : List Nat} (len : Nat) (h : xs.length ≤ n) :
    owned (.slice { buf := cellsOf n xs, len := len }) = xs := filterMap_zipWrite_uninit n xs h

theorem OwnOp.perform_leaves (o : OwnOp) (x : Holder) {l : List Nat} {s : Tally} (hc : o.Careful)
    (hx : x.Ok) (h : Safe (owned x ++ l) s) :
    Leaves (o.perform x s) (Held l) (fun _ => False) := by
  have same : o.perform x s = (.ok (true, [x]), s) →
      Leaves (o.perform x s) (Held l) (fun _ => False) := fun e => by
    rw [e]; exact held_same hx h
  cases o with
  | fromArray => exact hc.elim
  | nth k => exact hc.elim
  | collect n =>
    cases x with
    | item a => exact same rfl
    | slice t => exact same rfl
    | iter it => exact same rfl
    | vec xs =>
      refine Leaves.catching (P := fun hs => Held l (true, hs)) (Q' := Safe l) ?_
        (fun _ _ h => h) (fun _ h => ⟨by simp, h⟩)
      refine Leaves.bind (takeEach_ends n xs h) fun r s' h' => ?_
      obtain ⟨taken, rest⟩ := r
      obtain ⟨h1, h2, h3⟩ := h'
      simp only at h1 h2
      subst h1
      refine Leaves.bind ((dropGlue_ends rest (l := taken ++ l) (h3.perm (by
        rw [← List.append_assoc]
        exact List.perm_append_comm.append_right l))).mono (fun _ _ h => h) fun _ h => h.right)
        fun _ s'' h'' => ?_
      refine ⟨?_, ?_⟩
      · intro y hy
        rw [List.mem_singleton.mp hy]
        exact ⟨taken, cellsOf_asSlice n taken h2⟩
      · rw [List.flatMap_cons, List.flatMap_nil, List.append_nil, cellsOf_owned _ h2]
        exact h''
  | new n =>
    cases x with
    | item a => exact same rfl
    | slice t => exact same rfl
    | iter it => exact same rfl
    | vec xs =>
      show Leaves ((if xs.length > n then _ else _ : Act _) s) _ _
      split
      · exact held_same hx h
      · rename_i hn
        refine Leaves.catching (P := fun hs => Held l (true, hs)) (Q' := Safe (xs ++ l)) ?_
          (fun _ _ h => h) (fun _ h => held_same (x := .vec xs) trivial h)
        refine Leaves.bind (cloneEach_ends xs (l := xs ++ l)
          (fun a ha => List.mem_append_left _ ha) h) fun ys s' h' => ?_
        refine ⟨?_, ?_⟩
        · intro y hy
          simp only [List.mem_cons, List.not_mem_nil, or_false] at hy
          rcases hy with rfl | rfl
          · have := cellsOf_asSlice n ys (by omega) (ε := Empty)
            rw [h'.1] at this
            exact ⟨_, this⟩
          · trivial
        · simp only [List.flatMap_cons, List.flatMap_nil, List.append_nil]
          rw [cellsOf_owned _ (by omega), List.append_assoc]
          exact h'.2
  | clone =>
    cases x with
    | item a => exact same rfl
    | vec xs => exact same rfl
    | slice t =>
      have hx' := hx
      obtain ⟨xs, hl⟩ := hx
      have hlen := SizedSlice.asSlice_len hl
      have hb := (SizedSlice.asSlice_ok.mp hl).1
      refine Leaves.catching (P := fun hs => Held l (true, hs)) (Q' := Safe (owned (.slice t) ++ l)) ?_
        (fun _ _ h => h) (fun _ h => held_same hx' h)
      refine Leaves.bind (P' := fun ys s' => ys = xs ∧ Safe (owned (.slice t) ++ l) s')
        (by rw [hl]; exact ⟨rfl, h⟩) fun _ s' h' => ?_
      obtain ⟨rfl, h'⟩ := h'
      refine Leaves.bind (cloneEach_ends _ (fun a ha => by
        rw [owned_slice hl]; simp [ha]) h') fun ys s'' h'' => ?_
      refine ⟨?_, ?_⟩
      · intro y hy
        simp only [List.mem_cons, List.not_mem_nil, or_false] at hy
        rcases hy with rfl | rfl
        · have := cellsOf_asSlice t.buf.length ys (by omega) (ε := Empty)
          rw [h''.1, ← hlen] at this
          exact ⟨_, this⟩
        · exact hx'
      · simp only [List.flatMap_cons, List.flatMap_nil, List.append_nil]
        rw [cellsOf_owned _ (by omega), List.append_assoc]
        exact h''.2
    | iter it =>
      have hx' := hx
      obtain ⟨xs, hl⟩ := hx
      have hlen := hl.len
      have hb := hl.1
      refine Leaves.catching (P := fun hs => Held l (true, hs)) (Q' := Safe (owned (.iter it) ++ l)) ?_
        (fun _ _ h => h) (fun _ h => held_same hx' h)
      refine Leaves.bind (P' := fun ys s' => ys = xs ∧ Safe (owned (.iter it) ++ l) s')
        (by rw [hl.asSlice]; exact ⟨rfl, h⟩) fun _ s' h' => ?_
      obtain ⟨rfl, h'⟩ := h'
      refine Leaves.bind (cloneEach_ends _ (fun a ha => List.mem_append_left _ (owned_iter hl a ha)) h')
        fun ys s'' h'' => ?_
      refine ⟨?_, ?_⟩
      · intro y hy
        simp only [List.mem_cons, List.not_mem_nil, or_false] at hy
        rcases hy with rfl | rfl
        · refine ⟨ys, ?_⟩
          have hu : (SizedSlice.uninit it.pos : List (MaybeUninit Nat)).length = it.pos :=
            List.length_replicate
          have hc := SizedSlice.asSlice_ok.mp (cellsOf_asSlice (it.buf.length - it.pos) ys
            (by omega) (ε := Empty))
          simp only at hc
          refine ⟨?_, ?_⟩
          · simp only [List.length_append, hu]
            have := hc.1
            omega
          · simp only
            rw [List.drop_left' hu, hlen, ← h''.1]; exact hc.2
        · exact hx'
      · have : owned (.iter (SizedIter.mk (SizedSlice.uninit it.pos ++
            cellsOf (it.buf.length - it.pos) ys) it.pos it.len)) = ys := by
          rw [owned, List.filterMap_append, filterMap_id_uninit, List.nil_append]
          exact filterMap_zipWrite_uninit _ _ (by omega)
        simp only [List.flatMap_cons, List.flatMap_nil, List.append_nil, this]
        rw [List.append_assoc]
        exact h''.2
  | intoIter =>
    cases x with
    | item a => exact same rfl
    | vec xs => exact same rfl
    | iter it => exact same rfl
    | slice t =>
      obtain ⟨xs, hl⟩ := hx
      exact held_same (x := .iter t.intoIter) ⟨xs, SizedIter.represents_intoIter hl⟩ h
  | next =>
    cases x with
    | item a => exact same rfl
    | vec xs => exact same rfl
    | slice t => exact same rfl
    | iter it =>
      have hx' := hx
      obtain ⟨xs, hl⟩ := hx
      cases xs with
      | nil =>
        refine Leaves.bind (P' := fun r s' => r = (none, it) ∧ s' = s)
          (by rw [hl.next_nil]; exact ⟨rfl, rfl⟩) fun r s' h' => ?_
        obtain ⟨rfl, rfl⟩ := h'
        exact held_same hx' h
      | cons a xs =>
        obtain ⟨h1, h2⟩ := hl.next_cons
        have hg := hl.get 0 (by simp)
        rw [Nat.add_zero] at hg
        refine Leaves.bind (P' := fun r s' => r = _ ∧ s' = s)
          (by rw [h1]; exact ⟨rfl, rfl⟩) fun r s' h' => ?_
        obtain ⟨rfl, rfl⟩ := h'
        refine Leaves.bind (touch_ends (List.mem_append_left _ (owned_iter hl a (by simp))) h)
          fun _ s' h' => ?_
        refine ⟨?_, h'.perm ?_⟩
        · intro y hy
          simp only [List.mem_cons, List.not_mem_nil, or_false] at hy
          rcases hy with rfl | rfl
          · trivial
          · exact ⟨xs, h2⟩
        · refine List.Perm.append_right l ?_
          simpa [owned] using (perm_filterMap_set it.buf it.pos a hg).symm
  | nextBack =>
    cases x with
    | item a => exact same rfl
    | vec xs => exact same rfl
    | slice t => exact same rfl
    | iter it =>
      have hx' := hx
      obtain ⟨xs, hl⟩ := hx
      rcases List.eq_nil_or_concat xs with rfl | ⟨xs, a, rfl⟩
      · refine Leaves.bind (P' := fun r s' => r = (none, it) ∧ s' = s)
          (by rw [hl.nextBack_nil]; exact ⟨rfl, rfl⟩) fun r s' h' => ?_
        obtain ⟨rfl, rfl⟩ := h'
        exact held_same hx' h
      · rw [List.concat_eq_append] at hl
        obtain ⟨h1, h2⟩ := hl.nextBack_concat
        have hlen := hl.len
        have hg := hl.get xs.length (by simp)
        rw [List.length_append, List.length_singleton] at hlen
        have he : it.pos + it.len - 1 = it.pos + xs.length := by omega
        refine Leaves.bind (P' := fun r s' => r = _ ∧ s' = s)
          (by rw [h1]; exact ⟨rfl, rfl⟩) fun r s' h' => ?_
        obtain ⟨rfl, rfl⟩ := h'
        refine Leaves.bind (touch_ends (List.mem_append_left _ (owned_iter hl a (by simp))) h)
          fun _ s' h' => ?_
        refine ⟨?_, h'.perm ?_⟩
        · intro y hy
          simp only [List.mem_cons, List.not_mem_nil, or_false] at hy
          rcases hy with rfl | rfl
          · trivial
          · exact ⟨xs, h2⟩
        · refine List.Perm.append_right l ?_
          rw [he]
          have := perm_filterMap_set it.buf (it.pos + xs.length) a (by rw [hg]; simp)
          simpa [owned] using this.symm
  | intoVec =>
    cases x with
    | item a => exact same rfl
    | vec xs => exact same rfl
    | iter it => exact same rfl
    | slice t =>
      obtain ⟨xs, hl⟩ := hx
      by_cases h0 : t.len = 0
      · have hv : (t.intoVec 1 : Res Empty (List Nat)) = .ub .zeroAlloc := by
          unfold SizedSlice.intoVec SizedSlice.intoBoxedSlice
          rw [if_pos (by rw [h0])]
        refine Leaves.bind (P' := fun _ _ => False) ?_ fun _ _ h => h.elim
        rw [hv]; rfl
      · have hv : (t.intoVec 1 : Res Empty (List Nat)) = .ok xs := by
          unfold SizedSlice.intoVec SizedSlice.intoBoxedSlice
          rw [if_neg (by omega)]; exact hl
        refine Leaves.bind (P' := fun r s' => r = xs ∧ s' = s)
          (by rw [hv]; exact ⟨rfl, rfl⟩) fun r s' h' => ?_
        obtain ⟨rfl, rfl⟩ := h'
        rw [owned_slice hl] at h
        refine Leaves.bind (touchAll_ends _ (fun a ha => by simp [ha]) h) fun _ s' h' => ?_
        refine held_same (x := .vec _) trivial ?_
        refine Safe.right (l := (t.buf.drop t.len).filterMap id) (h'.perm ?_)
        rw [List.append_assoc, ← List.append_assoc (List.filterMap id _)]
        show (_ ++ (_ ++ l)).Perm (_ ++ _ ++ l)
        rw [← List.append_assoc]
        exact List.perm_append_comm.append_right l
  | look =>
    cases x with
    | item a => exact Leaves.bind (touch_ends (by simp [owned]) h) fun _ _ h => held_same hx h
    | vec xs =>
      exact Leaves.bind (touchAll_ends xs (fun a ha => by simp [owned, ha]) h) fun _ _ h =>
        held_same hx h
    | slice t =>
      have hx' := hx
      obtain ⟨xs, hl⟩ := hx
      refine Leaves.bind (P' := fun r s' => r = xs ∧ s' = s)
        (by rw [hl]; exact ⟨rfl, rfl⟩) fun r s' h' => ?_
      obtain ⟨rfl, rfl⟩ := h'
      exact Leaves.bind (touchAll_ends _ (fun a ha => by rw [owned_slice hl]; simp [ha]) h)
        fun _ _ h => held_same hx' h
    | iter it =>
      have hx' := hx
      obtain ⟨xs, hl⟩ := hx
      refine Leaves.bind (P' := fun r s' => r = xs ∧ s' = s)
        (by rw [hl.asSlice]; exact ⟨rfl, rfl⟩) fun r s' h' => ?_
      obtain ⟨rfl, rfl⟩ := h'
      exact Leaves.bind (touchAll_ends _ (fun a ha => List.mem_append_left _ (owned_iter hl a ha)) h)
        fun _ _ h => held_same hx' h
  | drop =>
    cases x with
    | item a =>
      exact Leaves.catching (P := fun hs => Held l (true, hs)) (Q' := Safe l)
        (Leaves.bind (userDrop_ends h) fun _ _ h => ⟨by simp, h⟩) (fun _ _ h => h)
        (fun _ h => ⟨by simp, h⟩)
    | vec xs =>
      exact Leaves.catching (P := fun hs => Held l (true, hs)) (Q' := Safe l)
        (Leaves.bind (dropGlue_ends xs h) fun _ _ h => ⟨by simp, h⟩) (fun _ _ h => h)
        (fun _ h => ⟨by simp, h⟩)
    | slice t => exact ⟨by simp, h.right⟩
    | iter it => exact ⟨by simp, h.right⟩

theorem UnwindStep.perform_leaves (t : UnwindStep) (held : List Holder) {s : Tally}
    (hc : CarefulStep t) (h : Held [] (true, held) s) :
    Leaves (t.perform held s) (Held []) (fun _ => False) := by
  have hs : Safe (held.flatMap owned) s := by simpa using h.2
  cases t with
  | make k =>
    refine Leaves.bind (makeItems_ends k hs) fun xs s' h' => ⟨?_, by simpa [owned] using h'⟩
    intro y hy
    rcases List.mem_cons.mp hy with rfl | hy
    · trivial
    · exact h.1 y hy
  | decode k =>
    have := k.decode_ends hs
    unfold UnwindStep.perform
    simp only
    generalize k.decode s = r at this
    obtain ⟨r, s'⟩ := r
    cases r with
    | ok r =>
      cases r with
      | none => exact ⟨h.1, by simpa using this.1⟩
      | some x =>
        refine ⟨?_, by simpa using this.1⟩
        intro y hy
        rcases List.mem_cons.mp hy with rfl | hy
        · exact this.2 _ rfl
        · exact h.1 y hy
    | unwind => exact ⟨h.1, by rw [List.append_nil]; exact this⟩
    | abort => exact this
    | ub u => exact this
  | op p o =>
    unfold UnwindStep.perform
    simp only
    cases hg : held[p]? with
    | none => exact h
    | some x =>
      simp only
      have hp := eraseIdx_perm held p x hg
      have hcc : o.Careful := by cases o <;> first | exact hc | trivial
      have hx := h.1 x (List.mem_of_getElem? hg)
      refine Leaves.bind (o.perform_leaves x (l := (held.eraseIdx p).flatMap owned) hcc hx
        (hs.perm (hp.flatMap_right owned))) fun r s' h' => ?_
      refine ⟨?_, ?_⟩
      · intro y hy
        rcases List.mem_append.mp hy with hy | hy
        · exact h'.1 y hy
        · exact h.1 y (List.mem_of_mem_eraseIdx hy)
      · simp only [List.flatMap_append, List.append_nil]
        exact h'.2

theorem performAll_leaves : ∀ (ts : List UnwindStep) (held : List Holder) {s : Tally},
    (∀ t ∈ ts, CarefulStep t) → Held [] (true, held) s →
    Leaves (performAll ts held s) (fun r => Held [] (true, r.2)) (fun _ => False)
  | [], _, _, _, h => h
  | t :: ts, held, s, hc, h =>
    Leaves.bind (t.perform_leaves held (hc t (by simp)) h) fun r _ h' =>
      Leaves.bind (performAll_leaves ts r.2 (fun t ht => hc t (by simp [ht])) h') fun _ _ h => h

/-- No call will panic. -/
def Calm (s : Tally) : Prop := Fate.panics ∉ s.fates

/-- Without panics of the user's code it returns. -/
def CalmAct {α : Type} (P : α → Prop) (m : Act α) : Prop := ∀ s, Calm s →
  match m s with
  | (.ok a, s') => P a ∧ Calm s'
  | (.ub _, _) => True
  | _ => False

theorem CalmAct.bind {α β : Type} {P' : α → Prop} {P : β → Prop} {m : Act α} {f : α → Act β}
    (h : CalmAct P' m) (hf : ∀ a, P' a → CalmAct P (f a)) : CalmAct P (m >>= f) := by
  intro s hs
  have := h s hs
  show match Act.bind m f s with | (.ok a, s') => P a ∧ Calm s' | (.ub _, _) => True | _ => False
  unfold Act.bind
  generalize m s = r at this
  obtain ⟨r, s'⟩ := r
  cases r with
  | ok a => exact hf a this.1 s' this.2
  | unwind => exact this
  | abort => exact this
  | ub u => trivial

theorem CalmAct.pure {α : Type} {P : α → Prop} {a : α} (h : P a) :
    CalmAct P (Pure.pure a : Act α) := fun _ hs => ⟨h, hs⟩

theorem CalmAct.guard {α : Type} {P : α → Prop} {m : Act α} {c : Act Unit} (h : CalmAct P m) :
    CalmAct P (m.guard c) := by
  intro s hs
  have := h s hs
  unfold Act.guard
  generalize m s = r at this
  obtain ⟨r, s'⟩ := r
  cases r with
  | ok a => exact this
  | unwind => exact this.elim
  | abort => exact this
  | ub u => trivial

theorem CalmAct.catching {P : List Holder → Prop} {m : Act (List Holder)} {after : List Holder}
    (h : CalmAct P m) : CalmAct (fun r => r.1 = true) (m.catching after) := by
  intro s hs
  have := h s hs
  unfold Act.catching
  generalize m s = r at this
  obtain ⟨r, s'⟩ := r
  cases r with
  | ok a => exact ⟨rfl, this.2⟩
  | unwind => exact this.elim
  | abort => exact this
  | ub u => trivial

theorem userCall_calm : CalmAct (fun _ => True) userCall := by
  rintro ⟨d, n, fs⟩ hs
  cases fs with
  | nil => exact ⟨trivial, hs⟩
  | cons f fs =>
    cases f with
    | returns => exact ⟨trivial, fun h => hs (List.mem_cons_of_mem _ h)⟩
    | fails => exact ⟨trivial, fun h => hs (List.mem_cons_of_mem _ h)⟩
    | panics => exact (hs List.mem_cons_self).elim

theorem newItem_calm : CalmAct (fun _ => True) newItem := fun _ hs => ⟨trivial, hs⟩

theorem markDropped_calm (x : Nat) : CalmAct (fun _ => True) (markDropped x) :=
  fun _ hs => ⟨trivial, hs⟩

theorem touch_calm (x : Nat) : CalmAct (fun _ => True) (touch x) := by
  intro s hs
  unfold touch
  by_cases h : x ∈ s.dropped
  · rw [if_pos h]; trivial
  · rw [if_neg h]; exact ⟨trivial, hs⟩

theorem touchAll_calm : ∀ xs : List Nat, CalmAct (fun _ => True) (touchAll xs)
  | [] => .pure trivial
  | x :: xs => (touch_calm x).bind fun _ _ => touchAll_calm xs

theorem userDecode_calm : CalmAct (fun _ => True) userDecode :=
  userCall_calm.bind fun b _ => by
    cases b
    · exact .pure trivial
    · exact newItem_calm.bind fun _ _ => .pure trivial

theorem userClone_calm (x : Nat) : CalmAct (fun _ => True) (userClone x) :=
  (touch_calm x).bind fun _ _ => userCall_calm.bind fun _ _ => newItem_calm

theorem userDrop_calm (x : Nat) : CalmAct (fun _ => True) (userDrop x) :=
  (touch_calm x).bind fun _ _ => (markDropped_calm x).bind fun _ _ =>
    userCall_calm.bind fun _ _ => .pure trivial

theorem dropGlue_calm : ∀ xs : List Nat, CalmAct (fun _ => True) (dropGlue xs)
  | [] => .pure trivial
  | x :: xs => (userDrop_calm x).guard.bind fun _ _ => dropGlue_calm xs

theorem cloneEach_calm : ∀ xs : List Nat, CalmAct (fun _ => True) (cloneEach xs)
  | [] => .pure trivial
  | x :: xs => (userClone_calm x).bind fun _ _ => (cloneEach_calm xs).bind fun _ _ => .pure trivial

theorem takeEach_calm : ∀ (n : Nat) (xs : List Nat), CalmAct (fun _ => True) (takeEach n xs)
  | 0, _ => .pure trivial
  | n + 1, xs => userCall_calm.guard.bind fun _ _ => by
    cases xs with
    | nil => exact .pure trivial
    | cons x xs => exact (takeEach_calm n xs).bind fun _ _ => .pure trivial

theorem decodeCellwise_calm : ∀ n : Nat, CalmAct (fun _ => True) (decodeCellwise n)
  | 0 => .pure trivial
  | n + 1 => userDecode_calm.bind fun r _ => by
    cases r with
    | none => exact .pure trivial
    | some x => exact (decodeCellwise_calm n).bind fun r _ => by cases r <;> exact .pure trivial

theorem decodeHeld_calm (order : List Nat → List Nat) : ∀ (n : Nat) (sofar : List Nat),
    CalmAct (fun _ => True) (decodeHeld order n sofar)
  | 0, _ => .pure trivial
  | n + 1, sofar => userDecode_calm.guard.bind fun r _ => by
    cases r with
    | none => exact (dropGlue_calm _).bind fun _ _ => .pure trivial
    | some x => exact decodeHeld_calm order n _

theorem makeItems_calm : ∀ k : Nat, CalmAct (fun _ => True) (makeItems k)
  | 0 => .pure trivial
  | k + 1 => newItem_calm.bind fun _ _ => (makeItems_calm k).bind fun _ _ => .pure trivial

theorem DecKind.decode_calm (k : DecKind) : CalmAct (fun _ => True) k.decode := by
  cases k with
  | array n => exact (decodeCellwise_calm n).bind fun _ _ => .pure trivial
  | sizedSlice n len =>
    show CalmAct _ (if len > n then _ else _ : Act _)
    split
    · exact .pure trivial
    · exact (decodeCellwise_calm n).bind fun _ _ => .pure trivial
  | vec n => exact (decodeCellwise_calm n).bind fun _ _ => .pure trivial
  | linkedList n => exact (decodeHeld_calm _ n _).bind fun _ _ => .pure trivial
  | fields n => exact (decodeHeld_calm _ n _).bind fun _ _ => .pure trivial

theorem liftRes_calm {α : Type} {r : Res Empty α} (h : ∀ p, r ≠ .panic p) :
    CalmAct (fun _ => True) (liftRes r) := by
  intro s hs
  unfold liftRes
  cases r with
  | ok a => exact ⟨trivial, hs⟩
  | err e => exact nomatch e
  | panic p => exact (h p rfl).elim
  | ub u => trivial

theorem sliceOf_quiet {α : Type} (cells : List (MaybeUninit α)) (len : Nat) (p : Panic) :
    (sliceOf cells len : Res Empty (List α)) ≠ .panic p := by
  unfold sliceOf
  split
  · exact nofun
  · split <;> exact nofun

theorem take_quiet {α : Type} (cells : List (MaybeUninit α)) (i : Nat) (p : Panic) :
    (SizedIter.take cells i : Res Empty _) ≠ .panic p := by
  unfold SizedIter.take
  split <;> exact nofun

theorem OwnOp.perform_calm (o : OwnOp) (x : Holder) (hc : o.Careful) :
    CalmAct (fun r => r.1 = true) (o.perform x) := by
  have h1 : ∀ {r : Bool × List Holder}, r.1 = true → CalmAct (fun r => r.1 = true)
      (Pure.pure r : Act (Bool × List Holder)) := fun h => .pure h
  cases o with
  | fromArray => exact hc.elim
  | nth k => exact hc.elim
  | collect n =>
    cases x with
    | vec xs =>
      exact CalmAct.catching ((takeEach_calm n xs).bind fun _ _ => (dropGlue_calm _).bind fun _ _ =>
        .pure (P := fun _ => True) trivial)
    | _ => exact h1 rfl
  | new n =>
    cases x with
    | vec xs =>
      show CalmAct _ (if xs.length > n then _ else _ : Act _)
      split
      · exact h1 rfl
      · exact CalmAct.catching ((cloneEach_calm xs).bind fun _ _ =>
          .pure (P := fun _ => True) trivial)
    | _ => exact h1 rfl
  | clone =>
    cases x with
    | slice t =>
      exact CalmAct.catching ((liftRes_calm (sliceOf_quiet _ _)).bind fun _ _ =>
        (cloneEach_calm _).bind fun _ _ => .pure (P := fun _ => True) trivial)
    | iter it =>
      exact CalmAct.catching ((liftRes_calm (sliceOf_quiet _ _)).bind fun _ _ =>
        (cloneEach_calm _).bind fun _ _ => .pure (P := fun _ => True) trivial)
    | _ => exact h1 rfl
  | intoIter => cases x <;> exact h1 rfl
  | next =>
    cases x with
    | iter it =>
      refine (liftRes_calm fun p => ?_).bind fun r _ => ?_
      · unfold SizedIter.next
        split
        · exact nofun
        · intro h
          cases ht : (SizedIter.take it.buf it.pos : Res Empty _) with
          | panic q => exact take_quiet _ _ q ht
          | ok a => rw [ht] at h; cases h
          | err e => exact nomatch e
          | ub u => rw [ht] at h; cases h
      · obtain ⟨r, it'⟩ := r
        cases r with
        | none => exact h1 rfl
        | some a => exact (touch_calm a).bind fun _ _ => h1 rfl
    | _ => exact h1 rfl
  | nextBack =>
    cases x with
    | iter it =>
      refine (liftRes_calm fun p => ?_).bind fun r _ => ?_
      · unfold SizedIter.nextBack
        split
        · exact nofun
        · intro h
          cases ht : (SizedIter.take it.buf (it.pos + it.len - 1) : Res Empty _) with
          | panic q => exact take_quiet _ _ q ht
          | ok a => rw [ht] at h; cases h
          | err e => exact nomatch e
          | ub u => rw [ht] at h; cases h
      · obtain ⟨r, it'⟩ := r
        cases r with
        | none => exact h1 rfl
        | some a => exact (touch_calm a).bind fun _ _ => h1 rfl
    | _ => exact h1 rfl
  | intoVec =>
    cases x with
    | slice t =>
      refine (liftRes_calm fun p => ?_).bind fun _ _ => (touchAll_calm _).bind fun _ _ => h1 rfl
      unfold SizedSlice.intoVec SizedSlice.intoBoxedSlice
      split
      · exact nofun
      · exact sliceOf_quiet _ _ p
    | _ => exact h1 rfl
  | look =>
    cases x with
    | item a => exact (touch_calm a).bind fun _ _ => h1 rfl
    | vec xs => exact (touchAll_calm _).bind fun _ _ => h1 rfl
    | slice t =>
      exact (liftRes_calm (sliceOf_quiet _ _)).bind fun _ _ => (touchAll_calm _).bind fun _ _ => h1 rfl
    | iter it =>
      exact (liftRes_calm (sliceOf_quiet _ _)).bind fun _ _ => (touchAll_calm _).bind fun _ _ => h1 rfl
  | drop =>
    cases x with
    | item a =>
      exact CalmAct.catching ((userDrop_calm a).bind fun _ _ => .pure (P := fun _ => True) trivial)
    | vec xs =>
      exact CalmAct.catching ((dropGlue_calm xs).bind fun _ _ => .pure (P := fun _ => True) trivial)
    | slice t => exact h1 rfl
    | iter it => exact h1 rfl

theorem UnwindStep.perform_calm (t : UnwindStep) (held : List Holder) (hc : CarefulStep t) :
    CalmAct (fun r => r.1 = true) (t.perform held) := by
  cases t with
  | make k => exact (makeItems_calm k).bind fun _ _ => .pure rfl
  | decode k =>
    intro s hs
    have := k.decode_calm s hs
    unfold UnwindStep.perform
    simp only
    generalize k.decode s = r at this
    obtain ⟨r, s'⟩ := r
    cases r with
    | ok r => cases r <;> exact ⟨rfl, this.2⟩
    | unwind => exact this.elim
    | abort => exact this
    | ub u => trivial
  | op p o =>
    have hcc : o.Careful := by cases o <;> first | exact hc | trivial
    unfold UnwindStep.perform
    simp only
    split
    · exact .pure rfl
    · exact (o.perform_calm _ hcc).bind fun _ h => .pure h

theorem performAll_calm : ∀ (ts : List UnwindStep) (held : List Holder),
    (∀ t ∈ ts, CarefulStep t) →
    CalmAct (fun r => r.1.length = ts.length ∧ ∀ b ∈ r.1, b = true) (performAll ts held)
  | [], _, _ => .pure ⟨rfl, by simp⟩
  | t :: ts, held, hc =>
    (t.perform_calm held (hc t (by simp))).bind fun r h =>
      (performAll_calm ts r.2 (fun t ht => hc t (by simp [ht]))).bind fun r' h' =>
        .pure ⟨by simp [h'.1], fun b hb => by
          rcases List.mem_cons.mp hb with rfl | hb
          · exact h
          · exact h'.2 b hb⟩

theorem bind_eq {α β : Type} (m : Act α) (f : α → Act β) (s : Tally) :
    (m >>= f) s = match m s with
      | (.ok a, s') => f a s'
      | (.unwind, s') => (.unwind, s')
      | (.abort, s') => (.abort, s')
      | (.ub u, s') => (.ub u, s') := rfl

/-- Code that destroys nothing. -/
def Spares {α : Type} (m : Act α) : Prop := ∀ s, (m s).2.dropped = s.dropped

theorem Spares.bind {α β : Type} {m : Act α} {f : α → Act β} (h : Spares m)
    (hf : ∀ a, Spares (f a)) : Spares (m >>= f) := by
  intro s
  have := h s
  rw [bind_eq]
  generalize m s = r at this
  obtain ⟨r, s'⟩ := r
  cases r with
  | ok a => exact (hf a s').trans this
  | unwind => exact this
  | abort => exact this
  | ub u => exact this

theorem Spares.pure {α : Type} (a : α) : Spares (Pure.pure a : Act α) := fun _ => rfl

theorem userCall_spares : Spares userCall := by
  intro s
  unfold userCall
  split <;> rfl

theorem newItem_spares : Spares newItem := fun _ => rfl

theorem touch_spares (x : Nat) : Spares (touch x) := by
  intro s
  unfold touch
  split <;> rfl

theorem userClone_spares (x : Nat) : Spares (userClone x) :=
  (touch_spares x).bind fun _ => userCall_spares.bind fun _ => newItem_spares

theorem cloneEach_spares : ∀ xs : List Nat, Spares (cloneEach xs)
  | [] => .pure _
  | x :: xs => (userClone_spares x).bind fun _ => (cloneEach_spares xs).bind fun _ => .pure _

theorem userDecode_spares : Spares userDecode :=
  userCall_spares.bind fun b => by
    cases b
    · exact .pure _
    · exact newItem_spares.bind fun _ => .pure _

theorem decodeCellwise_spares : ∀ n : Nat, Spares (decodeCellwise n)
  | 0 => .pure _
  | n + 1 => userDecode_spares.bind fun r => by
    cases r with
    | none => exact .pure _
    | some x => exact (decodeCellwise_spares n).bind fun r => by cases r <;> exact .pure _

theorem liftRes_spares {α : Type} (r : Res Empty α) : Spares (liftRes r) := by
  intro s
  unfold liftRes
  cases r with
  | ok a => rfl
  | err e => exact nomatch e
  | panic p => rfl
  | ub u => rfl

theorem catching_false {m : Act (List Holder)} {after hs : List Holder} {s s' : Tally}
    (h : m.catching after s = (.ok (false, hs), s')) : hs = after ∧ (m s).2 = s' := by
  unfold Act.catching at h
  generalize m s = r at h
  obtain ⟨r, t⟩ := r
  cases r with
  | ok a => cases h
  | unwind => cases h; exact ⟨rfl, rfl⟩
  | abort => cases h
  | ub u => cases h

/-- Beside `base`, what was made since `f` is owned (`l`) or destroyed. -/
def Since (base : List Nat) (f : Nat) (l : List Nat) (s : Tally) : Prop :=
  Safe l s ∧ f ≤ s.fresh ∧ (l ++ s.dropped).Perm (base ++ List.range' f (s.fresh - f))

theorem Since.perm {base l l' : List Nat} {f : Nat} {s : Tally} (h : Since base f l s)
    (p : l.Perm l') : Since base f l' s :=
  ⟨h.1.perm p, h.2.1, (p.append_right _).symm.trans h.2.2⟩

theorem userCall_since {base l : List Nat} {f : Nat} {s : Tally} (h : Since base f l s) :
    Leaves (userCall s) (fun _ => Since base f l) (Since base f l) := by
  unfold userCall
  split <;> exact h

theorem newItem_since {base l : List Nat} {f : Nat} {s : Tally} {Q : Tally → Prop}
    (h : Since base f l s) : Leaves (newItem s) (fun a => Since base f (a :: l)) Q := by
  refine ⟨newItem_ends (Q := fun _ => True) h.1, Nat.le_succ_of_le h.2.1, ?_⟩
  show (s.fresh :: (l ++ s.dropped)).Perm (base ++ List.range' f (s.fresh + 1 - f))
  have h1 : s.fresh + 1 - f = s.fresh - f + 1 := by have := h.2.1; omega
  have h2 : f + (s.fresh - f) = s.fresh := by have := h.2.1; omega
  rw [h1, List.range'_1_concat, h2, ← List.append_assoc]
  exact (h.2.2.cons _).trans (List.perm_append_singleton _ _).symm

theorem userDrop_since {base l : List Nat} {f : Nat} {s : Tally} {a : Nat}
    (h : Since base f (a :: l) s) :
    Leaves (userDrop a s) (fun _ => Since base f l) (Since base f l) := by
  unfold userDrop
  refine Leaves.bind (P' := fun _ s' => s' = s) ?_ fun _ s' e => ?_
  · unfold touch
    rw [if_neg (h.1.notDropped List.mem_cons_self)]
    rfl
  subst e
  refine Leaves.bind (P' := fun _ => Since base f l) ?_ fun _ s'' h'' =>
    Leaves.bind (userCall_since h'') fun _ _ h => h
  have p : ((a :: l) ++ s'.dropped).Perm (l ++ (s'.dropped ++ [a])) := by
    rw [← List.append_assoc]
    exact (List.perm_append_singleton _ _).symm
  exact ⟨⟨p.nodup_iff.mp h.1.1, fun b hb => h.1.2 b (p.mem_iff.mpr hb)⟩, h.2.1,
    p.symm.trans h.2.2⟩

theorem dropGlue_since {base : List Nat} {f : Nat} : ∀ (xs : List Nat) {l : List Nat} {s : Tally},
    Since base f (xs ++ l) s →
    Leaves (dropGlue xs s) (fun _ => Since base f l) (Since base f l)
  | [], _, _, h => h
  | x :: xs, l, s, h =>
    Leaves.bind
      (Leaves.guard (P := fun _ => Since base f (xs ++ l)) (userDrop_since h) fun _ h' =>
        (dropGlue_since xs h').mono (fun _ _ h => h) fun _ h => h.1.nodup)
      fun _ _ h' => dropGlue_since xs h'

theorem userDecode_since {base l : List Nat} {f : Nat} {s : Tally} (h : Since base f l s) :
    Leaves (userDecode s) (fun r => Since base f (r.toList ++ l)) (Since base f l) := by
  unfold userDecode
  refine Leaves.bind (userCall_since h) fun b s' h' => ?_
  cases b
  · exact h'
  · exact Leaves.bind (newItem_since h') fun a _ h'' => h''

theorem decodeHeld_since {base : List Nat} {f : Nat} (order : List Nat → List Nat)
    (ho : ∀ l, (order l).Perm l) : ∀ (n : Nat) (sofar : List Nat) {l : List Nat} {s : Tally},
    Since base f (sofar ++ l) s →
    Leaves (decodeHeld order n sofar s) (fun r s' => Since base f ((r.getD []) ++ l) s')
      (Since base f l)
  | 0, _, _, _, h => h
  | n + 1, sofar, l, s, h => by
    unfold decodeHeld
    refine Leaves.bind (P' := fun r => Since base f (r.toList ++ (sofar ++ l)))
      (Leaves.guard (userDecode_since h) fun _ h' =>
        (dropGlue_since _ (h'.perm ((ho sofar).symm.append_right l))).mono (fun _ _ h => h)
          fun _ h => h.1.nodup) fun r s' h' => ?_
    cases r with
    | none =>
      exact Leaves.bind (dropGlue_since _ (Since.perm h' ((ho sofar).symm.append_right l)))
        fun _ _ h => h
    | some x =>
      refine decodeHeld_since order ho n _ (Since.perm h' ?_)
      show (x :: (sofar ++ l)).Perm (sofar ++ [x] ++ l)
      rw [List.append_assoc]
      exact List.perm_middle.symm

/-- Decoding cells of which the `k`-th (from 0) fails or panics. -/
theorem decodeCellwise_fails (f : Fate) (fs : List Fate) : ∀ (k n : Nat) (d : List Nat) (m : Nat),
    k < n → f ≠ .returns →
    decodeCellwise n ⟨d, m, List.replicate k .returns ++ f :: fs⟩
      = (if f = .fails then .ok none else .unwind, ⟨d, m + k, fs⟩)
  | 0, n + 1, d, m, _, hf => by
    cases f with
    | returns => exact (hf rfl).elim
    | fails => rfl
    | panics => rfl
  | k + 1, n + 1, d, m, hk, hf => by
    have ih := decodeCellwise_fails f fs k n d (m + 1) (by omega) hf
    have hu : userDecode ⟨d, m, List.replicate (k + 1) .returns ++ f :: fs⟩
        = (.ok (some m), ⟨d, m + 1, List.replicate k .returns ++ f :: fs⟩) := rfl
    rw [decodeCellwise, bind_eq, hu]
    simp only
    rw [bind_eq, ih]
    have e : m + 1 + k = m + (k + 1) := by omega
    cases f with
    | returns => exact (hf rfl).elim
    | fails => rw [e]; rfl
    | panics => rw [e]; rfl

/-- Cloning items of which the `k`-th (from 0) panics. -/
theorem cloneEach_panics (fs : List Fate) : ∀ (k : Nat) (xs d : List Nat) (m : Nat),
    k < xs.length → (∀ a ∈ xs, a ∉ d) →
    cloneEach xs ⟨d, m, List.replicate k .returns ++ .panics :: fs⟩ = (.unwind, ⟨d, m + k, fs⟩)
  | 0, x :: xs, d, m, _, hx => by
    have ht : userClone x ⟨d, m, .panics :: fs⟩ = (.unwind, ⟨d, m, fs⟩) := by
      unfold userClone
      rw [bind_eq, touch, if_neg (hx x (by simp))]
      rfl
    rw [cloneEach, bind_eq]
    exact (by rw [show List.replicate 0 Fate.returns ++ .panics :: fs = .panics :: fs from rfl, ht]; rfl)
  | k + 1, x :: xs, d, m, hk, hx => by
    have ih := cloneEach_panics fs k xs d (m + 1) (by simpa using hk) fun a ha => hx a (by simp [ha])
    have ht : userClone x ⟨d, m, List.replicate (k + 1) .returns ++ .panics :: fs⟩
        = (.ok m, ⟨d, m + 1, List.replicate k .returns ++ .panics :: fs⟩) := by
      unfold userClone
      rw [bind_eq, touch, if_neg (hx x (by simp))]
      rfl
    rw [cloneEach, bind_eq, ht]
    simp only
    rw [bind_eq, ih]
    simp only
    rw [show m + 1 + k = m + (k + 1) by omega]

theorem userDrop_none {x : Nat} {d : List Nat} {f : Nat} (h : x ∉ d) :
    userDrop x ⟨d, f, []⟩ = (.ok (), ⟨d ++ [x], f, []⟩) := by
  unfold userDrop
  rw [bind_eq, touch, if_neg h]
  rfl

theorem dropGlue_none : ∀ (xs d : List Nat) (f : Nat), (xs ++ d).Nodup →
    dropGlue xs ⟨d, f, []⟩ = (.ok (), ⟨d ++ xs, f, []⟩)
  | [], d, f, _ => by rw [List.append_nil]; rfl
  | x :: xs, d, f, h => by
    rw [List.cons_append, List.nodup_cons] at h
    have hp : (xs ++ (d ++ [x])).Perm (x :: (xs ++ d)) := by
      rw [← List.append_assoc]; exact List.perm_append_singleton _ _
    rw [dropGlue, bind_eq]
    have : (userDrop x).guard (dropGlue xs) ⟨d, f, []⟩ = (.ok (), ⟨d ++ [x], f, []⟩) := by
      unfold Act.guard
      rw [userDrop_none fun hd => h.1 (List.mem_append_right _ hd)]
    rw [this]
    simp only
    rw [dropGlue_none xs _ f (hp.nodup_iff.mpr (List.nodup_cons.mpr h)), List.append_assoc]
    rfl

theorem cloneEach_none : ∀ (xs d : List Nat) (f : Nat), (∀ a ∈ xs, a ∉ d) →
    cloneEach xs ⟨d, f, []⟩ = (.ok (newItems f xs.length), ⟨d, f + xs.length, []⟩)
  | [], _, _, _ => rfl
  | x :: xs, d, f, h => by
    have ht : userClone x ⟨d, f, []⟩ = (.ok f, ⟨d, f + 1, []⟩) := by
      unfold userClone
      rw [bind_eq, touch, if_neg (h x (by simp))]
      rfl
    rw [cloneEach, bind_eq, ht]
    simp only
    rw [bind_eq, cloneEach_none xs d (f + 1) fun a ha => h a (by simp [ha])]
    simp only
    rw [show f + 1 + xs.length = f + (x :: xs).length by simp; omega]
    rfl

theorem takeEach_none : ∀ (n : Nat) (xs d : List Nat) (f : Nat),
    takeEach n xs ⟨d, f, []⟩ = (.ok (xs.take n, xs.drop n), ⟨d, f, []⟩)
  | 0, _, _, _ => rfl
  | n + 1, [], _, _ => rfl
  | n + 1, x :: xs, d, f => by
    rw [takeEach, bind_eq, show userCall.guard (dropGlue (x :: xs)) ⟨d, f, []⟩
      = (.ok true, ⟨d, f, []⟩) from rfl]
    simp only
    rw [bind_eq, takeEach_none n xs d f]
    rfl

theorem touchAll_none : ∀ (xs d : List Nat) (f : Nat), (∀ a ∈ xs, a ∉ d) →
    touchAll xs ⟨d, f, []⟩ = (.ok (), ⟨d, f, []⟩)
  | [], _, _, _ => rfl
  | x :: xs, d, f, h => by
    rw [touchAll, bind_eq, touch, if_neg (h x (by simp))]
    exact touchAll_none xs d f fun a ha => h a (by simp [ha])

theorem fillFrom_eq : ∀ (n : Nat) (l : List Nat),
    SizedSlice.fillFrom (SizedSlice.uninit n) l = (cellsOf n (l.take n), (l.take n).length)
  | 0, l => by simp [SizedSlice.uninit, SizedSlice.fillFrom, cellsOf, SizedSlice.zipWrite]
  | n + 1, [] => by
    rw [SizedSlice.uninit, List.replicate_succ, SizedSlice.fillFrom]
    · rfl
    · simp
  | n + 1, a :: l => by
    have ih := fillFrom_eq n l
    rw [SizedSlice.uninit, List.replicate_succ, SizedSlice.fillFrom, ← SizedSlice.uninit, ih]
    rfl

/-- Reads of an iterator in which the `k`-th `next` (from 0) panics. -/
theorem takeEach_panics (fs : List Fate) : ∀ (k n : Nat) (xs d : List Nat) (f : Nat),
    k < n → k ≤ xs.length →
    takeEach n xs ⟨d, f, List.replicate k .returns ++ .panics :: fs⟩
      = match dropGlue (xs.drop k) ⟨d, f, fs⟩ with
        | (.ok (), s) => (.unwind, s)
        | (.unwind, s) => (.abort, s)
        | (.abort, s) => (.abort, s)
        | (.ub u, s) => (.ub u, s)
  | 0, n + 1, xs, d, f, _, _ => by
    rw [takeEach.eq_def]
    simp only
    rw [bind_eq, show List.replicate 0 Fate.returns ++ .panics :: fs = .panics :: fs from rfl]
    have : userCall.guard (dropGlue xs) ⟨d, f, .panics :: fs⟩
        = match dropGlue xs ⟨d, f, fs⟩ with
          | (.ok (), s) => (.unwind, s)
          | (.unwind, s) => (.abort, s)
          | (.abort, s) => (.abort, s)
          | (.ub u, s) => (.ub u, s) := rfl
    rw [this, List.drop_zero]
    generalize dropGlue xs ⟨d, f, fs⟩ = r
    obtain ⟨r, s⟩ := r
    cases r <;> rfl
  | k + 1, n + 1, [], d, f, _, h => absurd h (by simp)
  | k + 1, n + 1, x :: xs, d, f, hk, h => by
    have ih := takeEach_panics fs k n xs d f (by omega) (by simpa using h)
    have hu : userCall.guard (dropGlue (x :: xs))
        ⟨d, f, List.replicate (k + 1) .returns ++ .panics :: fs⟩
        = (.ok true, ⟨d, f, List.replicate k .returns ++ .panics :: fs⟩) := rfl
    rw [takeEach, bind_eq, hu]
    simp only
    rw [bind_eq, ih, List.drop_succ_cons]
    generalize dropGlue (xs.drop k) ⟨d, f, fs⟩ = r
    obtain ⟨r, s⟩ := r
    cases r <;> rfl

theorem dropCells_none : ∀ (l : List Nat) (A C : List (MaybeUninit Nat)) (d : List Nat) (f : Nat),
    (l ++ d).Nodup →
    dropCells l.length A.length (A ++ (l.map some ++ C)) ⟨d, f, []⟩
      = (.ok (true, A ++ (List.replicate l.length none ++ C)), ⟨d ++ l, f, []⟩)
  | [], A, C, d, f, _ => by rw [List.append_nil]; rfl
  | x :: l, A, C, d, f, h => by
    rw [List.cons_append, List.nodup_cons] at h
    have hp : (l ++ (d ++ [x])).Perm (x :: (l ++ d)) := by
      rw [← List.append_assoc]; exact List.perm_append_singleton _ _
    have hg : (A ++ ((x :: l).map some ++ C))[A.length]? = some (some x) := by simp
    have hs : (A ++ ((x :: l).map some ++ C)).set A.length none
        = (A ++ [none]) ++ (l.map some ++ C) := by simp
    have ih := dropCells_none l (A ++ [none]) C (d ++ [x]) f
      (hp.nodup_iff.mpr (List.nodup_cons.mpr h))
    rw [List.length_append, List.length_singleton] at ih
    rw [List.length_cons, dropCells, hg]
    simp only
    rw [userDrop_none fun hd => h.1 (List.mem_append_right _ hd)]
    simp only
    rw [hs, ih]
    simp [List.replicate_succ]

theorem dropCells_bad : ∀ (count i : Nat) (cells : List (MaybeUninit Nat)) (d : List Nat) (f : Nat),
    initAll ((cells.drop i).take count) = none →
    ∃ u s', dropCells count i cells ⟨d, f, []⟩ = (.ub u, s')
  | 0, i, cells, d, f, h => by rw [List.take_zero] at h; cases h
  | count + 1, i, cells, d, f, h => by
    rw [dropCells]
    cases hg : cells[i]? with
    | none => exact ⟨_, _, rfl⟩
    | some c =>
      cases c with
      | none => exact ⟨_, _, rfl⟩
      | some a =>
        by_cases hd : a ∈ d
        · refine ⟨.uninitRead, ⟨d, f, []⟩, ?_⟩
          have : userDrop a ⟨d, f, []⟩ = (.ub .uninitRead, ⟨d, f, []⟩) := by
            unfold userDrop
            rw [bind_eq, touch, if_pos hd]
          simp only
          rw [this]
        · simp only
          rw [userDrop_none hd]
          have hlt : i < cells.length := (List.getElem?_eq_some_iff.mp hg).1
          have e : cells.drop i = some a :: cells.drop (i + 1) := by
            rw [List.drop_eq_getElem_cons hlt, (List.getElem?_eq_some_iff.mp hg).2]
          refine dropCells_bad count (i + 1) (cells.set i none) (d ++ [a]) f ?_
          rw [e, List.take_succ_cons, initAll] at h
          rw [List.drop_set_of_lt (by omega)]
          simpa using h

end Oct
