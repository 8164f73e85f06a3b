import Verif.Spec.Locks
/- Locks inside locks: the invariant, and that somebody can always go on. -/
namespace Oct
open Spec

/-- The locks held by a thread. -/
def Thread.held : Thread → List Frame
  | .encoding _ h => h
  | .failing _ h => h
  | .ended _ => []
  | .updating _ _ => []

/-- The frames are nested in the order of their ranks, and what is to be done inside each of them is of
a rank below. -/
def Nested (rank : Nat → Nat) : List Piece → List Frame → Prop
  | _, [] => True
  | c, f :: fs => Below rank (rank f.lock) c ∧
    (∀ g ∈ fs, rank f.lock < rank g.lock) ∧ Nested rank f.rest fs

/-- What is true of a thread. -/
def Thread.Ok (rank : Nat → Nat) : Thread → Prop
  | .encoding c h => Nested rank c h
  | .failing _ h => Nested rank [] h
  | .ended _ => True
  | .updating _ us => ∀ r c, (r, c) ∈ us → Below rank (rank r) c

/-- The invariant. -/
structure Locks.Inv (rank : Nat → Nat) (s : Locks) : Prop where
  content : ∀ r, Below rank (rank r) (s.content r)
  thread : ∀ k, (s.thread k).Ok rank
  readers : ∀ r k, (s.readers r).count k = ((s.thread k).held.map Frame.lock).count r
  writer : ∀ r k, s.writer r = some k → ∃ c us, s.thread k = .updating true ((r, c) :: us)

theorem Nested.failing {rank : Nat → Nat} {c : List Piece} {h : List Frame} (hn : Nested rank c h) :
    Nested rank [] h := by
  cases h with
  | nil => trivial
  | cons f fs => exact ⟨fun _ _ h => absurd h List.not_mem_nil, hn.2.1, hn.2.2⟩

theorem Below.mono {rank : Nat → Nat} {n m : Nat} {c : List Piece} (h : Below rank n c) (hm : n ≤ m) :
    Below rank m c := fun r g hr => Nat.lt_of_lt_of_le (h r g hr) hm

theorem Below.tail {rank : Nat → Nat} {n : Nat} {p : Piece} {c : List Piece}
    (h : Below rank n (p :: c)) : Below rank n c := fun r g hr => h r g (List.mem_cons_of_mem _ hr)

theorem Nested.tail {rank : Nat → Nat} {p : Piece} {c : List Piece} {h : List Frame}
    (hn : Nested rank (p :: c) h) : Nested rank c h := by
  cases h with
  | nil => trivial
  | cons f fs => exact ⟨Below.tail hn.1, hn.2.1, hn.2.2⟩

/-- What an encoder asks for is of a lower rank than all that it holds. -/
theorem Nested.asks {rank : Nat → Nat} {r : Nat} {g : EncErr → EncErr} {c : List Piece}
    {h : List Frame} (hn : Nested rank (.lock r g :: c) h) : ∀ f ∈ h, rank r < rank f.lock := by
  cases h with
  | nil => exact fun f hf => absurd hf List.not_mem_nil
  | cons f fs =>
    have h1 : rank r < rank f.lock := hn.1 r g (List.mem_cons_self ..)
    intro f' hf'
    rcases List.mem_cons.mp hf' with rfl | hf'
    · exact h1
    · exact Nat.lt_trans h1 (hn.2.1 f' hf')

variable {rank : Nat → Nat} {joins : Locks → Nat → Bool}

/-- The start is in order. -/
theorem Locks.start_inv {kind : Nat → LockKind} {content : Nat → List Piece}
    {thread : Nat → Thread} {output : Nat → Output} (hl : Layered rank content thread)
    (hf : ∀ k, Fresh (thread k)) : (Locks.start kind content thread output).Inv rank where
  content := hl.1
  thread := fun k => by
    have h := hf k
    show (thread k).Ok rank
    cases ht : thread k with
    | encoding c h' => rw [ht] at h; simp only [Fresh] at h; subst h; trivial
    | failing r h' => rw [ht] at h; exact h.elim
    | ended r => trivial
    | updating g us => exact hl.2 k g us ht
  readers := fun r k => by
    have h := hf k
    show ([] : List Nat).count k = ((thread k).held.map Frame.lock).count r
    cases ht : thread k with
    | encoding c h' => rw [ht] at h; simp only [Fresh] at h; subst h; rfl
    | failing r h' => rw [ht] at h; exact h.elim
    | ended r => rfl
    | updating g us => rfl
  writer := fun r k h => by cases h

/-- A thread goes on without guards changing hands. -/
theorem Locks.Inv.goto {s : Locks} (h : s.Inv rank) {k : Nat} {t : Thread} (ht : t.Ok rank)
    (hh : t.held.map Frame.lock = (s.thread k).held.map Frame.lock)
    (hu : ∀ c, s.thread k ≠ .updating true c) : (s.goto k t).Inv rank where
  content := h.content
  thread := fun k' => by
    show (if k' = k then t else s.thread k').Ok rank
    split
    · exact ht
    · exact h.thread k'
  readers := fun r k' => by
    show (s.readers r).count k' = ((if k' = k then t else s.thread k').held.map Frame.lock).count r
    split
    · next e => subst e; rw [hh]; exact h.readers r k'
    · exact h.readers r k'
  writer := fun r k' hw => by
    obtain ⟨c, us, e⟩ := h.writer r k' hw
    refine ⟨c, us, ?_⟩
    show (if k' = k then t else s.thread k') = _
    rw [if_neg (fun e' => hu _ (e' ▸ e))]
    exact e

/-- Each step keeps the order. -/
theorem Locks.Inv.step {s s' : Locks} {k : Nat} (h : s.Inv rank) (hs : s.step joins k = some s') :
    s'.Inv rank := by
  have hk := h.thread k
  unfold Locks.step at hs
  cases ht : s.thread k with
  | encoding c held =>
    rw [ht] at hk hs
    cases c with
    | nil =>
      cases held with
      | nil =>
        simp only [Option.some.injEq] at hs
        subst hs
        exact h.goto (t := .ended (.ok ())) trivial (by rw [ht]; rfl) (by rw [ht]; simp)
      | cons f fs =>
        simp only [Option.some.injEq] at hs
        subst hs
        exact {
          content := h.content
          thread := fun k' => by
            show (if k' = k then Thread.encoding f.rest fs else s.thread k').Ok rank
            split
            · exact hk.2.2
            · exact h.thread k'
          readers := fun r k' => by
            show (if r = f.lock then (s.readers f.lock).erase k else s.readers r).count k'
              = ((if k' = k then Thread.encoding f.rest fs else s.thread k').held.map Frame.lock).count r
            have h1 := h.readers r k'
            by_cases e : k' = k
            · subst e
              rw [ht] at h1
              simp only [Thread.held, List.map_cons, List.count_cons] at h1
              rw [if_pos rfl]
              show _ = (fs.map Frame.lock).count r
              by_cases e' : r = f.lock
              · subst e'
                rw [if_pos rfl, List.count_erase_self]
                simp at h1
                omega
              · rw [if_neg e']
                have : ¬(f.lock = r) := fun h => e' h.symm
                simp [this] at h1
                exact h1
            · rw [if_neg e, ← h1]
              by_cases e' : r = f.lock
              · subst e'
                rw [if_pos rfl, List.count_erase_of_ne (fun h => e h)]
              · rw [if_neg e']
          writer := fun r k' hw => by
            obtain ⟨c, us, e⟩ := h.writer r k' hw
            refine ⟨c, us, ?_⟩
            show (if k' = k then Thread.encoding f.rest fs else s.thread k') = _
            rw [if_neg (fun e' => by rw [e', ht] at e; cases e)]
            exact e }
    | cons p c =>
      cases p with
      | plain m =>
        simp only at hs
        have h' : Locks.Inv rank { s with output := fun k' => if k' = k then (m (s.output k)).2 else s.output k' } :=
          ⟨h.content, h.thread, h.readers, h.writer⟩
        split at hs
        · simp only [Option.some.injEq] at hs
          subst hs
          exact h'.goto (t := .encoding c held) hk.tail (by
            show held.map Frame.lock = (s.thread k).held.map Frame.lock
            rw [ht]; rfl) (fun c hc => by
            have := ht.symm.trans hc; cases this)
        · simp only [Option.some.injEq] at hs
          subst hs
          exact h'.goto (t := .failing _ held) hk.failing (by
            show held.map Frame.lock = (s.thread k).held.map Frame.lock
            rw [ht]; rfl) (fun c hc => by
            have := ht.symm.trans hc; cases this)
      | lock r g =>
        simp only at hs
        split at hs
        · simp only [Option.some.injEq] at hs
          subst hs
          exact {
            content := h.content
            thread := fun k' => by
              show (if k' = k then Thread.encoding (s.content r) (⟨r, g, c⟩ :: held) else s.thread k').Ok rank
              split
              · exact ⟨h.content r, hk.asks, hk.tail⟩
              · exact h.thread k'
            readers := fun r' k' => by
              show (if r' = r then k :: s.readers r else s.readers r').count k'
                = ((if k' = k then Thread.encoding (s.content r) (⟨r, g, c⟩ :: held) else s.thread k').held.map
                  Frame.lock).count r'
              have h1 := h.readers r' k'
              by_cases e : k' = k
              · subst e
                rw [ht] at h1
                rw [if_pos rfl]
                show _ = (r :: held.map Frame.lock).count r'
                by_cases e' : r' = r
                · subst e'
                  rw [if_pos rfl, List.count_cons_self, List.count_cons_self, h1]
                  rfl
                · rw [if_neg e', List.count_cons_of_ne (fun h => e' h.symm), h1]
                  rfl
              · rw [if_neg e, ← h1]
                by_cases e' : r' = r
                · subst e'
                  rw [if_pos rfl, List.count_cons_of_ne (fun h => e h.symm)]
                · rw [if_neg e']
            writer := fun r' k' hw => by
              obtain ⟨c', us, e⟩ := h.writer r' k' hw
              refine ⟨c', us, ?_⟩
              show (if k' = k then Thread.encoding (s.content r) (⟨r, g, c⟩ :: held) else s.thread k') = _
              rw [if_neg (fun e' => by rw [e', ht] at e; cases e)]
              exact e }
        · cases hs
  | failing q held =>
    rw [ht] at hk hs
    cases held with
    | nil =>
      simp only [Option.some.injEq] at hs
      subst hs
      exact h.goto (t := .ended q) trivial (by rw [ht]; rfl) (by rw [ht]; simp)
    | cons f fs =>
      simp only [Option.some.injEq] at hs
      subst hs
      exact {
        content := h.content
        thread := fun k' => by
          show (if k' = k then Thread.failing (q.mapErr f.onErr) fs else s.thread k').Ok rank
          split
          · exact hk.2.2.failing
          · exact h.thread k'
        readers := fun r k' => by
          show (if r = f.lock then (s.readers f.lock).erase k else s.readers r).count k'
            = ((if k' = k then Thread.failing (q.mapErr f.onErr) fs else s.thread k').held.map Frame.lock).count r
          have h1 := h.readers r k'
          by_cases e : k' = k
          · subst e
            rw [ht] at h1
            simp only [Thread.held, List.map_cons, List.count_cons] at h1
            rw [if_pos rfl]
            show _ = (fs.map Frame.lock).count r
            by_cases e' : r = f.lock
            · subst e'
              rw [if_pos rfl, List.count_erase_self]
              simp at h1
              omega
            · rw [if_neg e']
              have : ¬(f.lock = r) := fun h => e' h.symm
              simp [this] at h1
              exact h1
          · rw [if_neg e, ← h1]
            by_cases e' : r = f.lock
            · subst e'
              rw [if_pos rfl, List.count_erase_of_ne (fun h => e h)]
            · rw [if_neg e']
        writer := fun r k' hw => by
          obtain ⟨c, us, e⟩ := h.writer r k' hw
          refine ⟨c, us, ?_⟩
          show (if k' = k then Thread.failing (q.mapErr f.onErr) fs else s.thread k') = _
          rw [if_neg (fun e' => by rw [e', ht] at e; cases e)]
          exact e }
  | ended q => rw [ht] at hs; cases hs
  | updating g us =>
    rw [ht] at hk hs
    cases us with
    | nil => cases g <;> cases hs
    | cons u us =>
      obtain ⟨r, c⟩ := u
      cases g with
      | false =>
        simp only at hs
        split at hs
        · next hw =>
          simp only [Bool.and_eq_true, Option.isNone_iff_eq_none] at hw
          simp only [Option.some.injEq] at hs
          subst hs
          exact {
            content := h.content
            thread := fun k' => by
              show (if k' = k then Thread.updating true ((r, c) :: us) else s.thread k').Ok rank
              split
              · exact hk
              · exact h.thread k'
            readers := fun r' k' => by
              show (s.readers r').count k'
                = ((if k' = k then Thread.updating true ((r, c) :: us) else s.thread k').held.map Frame.lock).count r'
              by_cases e : k' = k
              · subst e
                rw [if_pos rfl, h.readers r' k', ht]
                rfl
              · rw [if_neg e]; exact h.readers r' k'
            writer := fun r' k' hw' => by
              replace hw' : (if r' = r then some k else s.writer r') = some k' := hw'
              show ∃ c' us', (if k' = k then Thread.updating true ((r, c) :: us) else s.thread k') = _
              by_cases e' : r' = r
              · subst e'
                rw [if_pos rfl] at hw'
                cases hw'
                exact ⟨c, us, by rw [if_pos rfl]⟩
              · rw [if_neg e'] at hw'
                obtain ⟨c', us', e⟩ := h.writer r' k' hw'
                refine ⟨c', us', ?_⟩
                rw [if_neg (fun e' => by rw [e', ht] at e; cases e)]
                exact e }
        · cases hs
      | true =>
        simp only [Option.some.injEq] at hs
        subst hs
        exact {
          content := fun r' => by
            show Below rank (rank r') (if r' = r then c else s.content r')
            split
            · next e => subst e; exact hk r' c (List.mem_cons_self ..)
            · exact h.content r'
          thread := fun k' => by
            show (if k' = k then Thread.updating false us else s.thread k').Ok rank
            split
            · exact fun r' c' hc => hk r' c' (List.mem_cons_of_mem _ hc)
            · exact h.thread k'
          readers := fun r' k' => by
            show (s.readers r').count k'
              = ((if k' = k then Thread.updating false us else s.thread k').held.map Frame.lock).count r'
            by_cases e : k' = k
            · subst e
              rw [if_pos rfl, h.readers r' k', ht]
              rfl
            · rw [if_neg e]; exact h.readers r' k'
          writer := fun r' k' hw' => by
            replace hw' : (if r' = r then none else s.writer r') = some k' := hw'
            show ∃ c' us', (if k' = k then Thread.updating false us else s.thread k') = _
            by_cases e' : r' = r
            · rw [if_pos e'] at hw'; cases hw'
            · rw [if_neg e'] at hw'
              obtain ⟨c', us', e⟩ := h.writer r' k' hw'
              refine ⟨c', us', ?_⟩
              rw [if_neg (fun e'' => by
                rw [e'', ht] at e
                injection e with _ e
                injection e with e _
                injection e with e _
                exact e' e.symm)]
              exact e }

/-- So does each schedule. -/
theorem Locks.Inv.run {s : Locks} (h : s.Inv rank) (ks : List Nat) : (s.run joins ks).Inv rank := by
  induction ks generalizing s with
  | nil => exact h
  | cons k ks ih =>
    show (((s.step joins k).getD s).run joins ks).Inv rank
    cases hs : s.step joins k with
    | none => exact ih h
    | some s' => exact ih (h.step hs)

/-- Who does not get a lock waits for somebody who holds it. -/
theorem Locks.not_lets {s : Locks} {r : Nat} (h : s.lets joins r = false) :
    (∃ w, s.writer r = some w) ∨ ∃ w, w ∈ s.readers r := by
  cases hw : s.writer r with
  | some w => exact .inl ⟨w, rfl⟩
  | none =>
    refine .inr ?_
    cases hr : s.readers r with
    | cons w l => exact ⟨w, List.mem_cons_self ..⟩
    | nil =>
      unfold Locks.lets at h
      rw [hw, hr] at h
      cases hk : s.kind r <;> rw [hk] at h <;> simp at h

/-- If nobody can make a step, nobody holds a lock. -/
theorem Locks.Inv.unheld {s : Locks} (h : s.Inv rank) (hn : ∀ k, s.step joins k = none) :
    ∀ n r, rank r = n → s.writer r = none ∧ s.readers r = [] := by
  intro n
  induction n using Nat.strongRecOn with
  | _ n ih =>
    intro r hr
    constructor
    · cases hw : s.writer r with
      | none => rfl
      | some w =>
        obtain ⟨c, us, e⟩ := h.writer r w hw
        have := hn w
        unfold Locks.step at this
        rw [e] at this
        cases this
    · cases hr' : s.readers r with
      | nil => rfl
      | cons w l =>
        exfalso
        have h1 := h.readers r w
        rw [hr', List.count_cons_self] at h1
        have h2 : r ∈ (s.thread w).held.map Frame.lock :=
          List.count_pos_iff.mp (by omega)
        have h3 := hn w
        have h4 := h.thread w
        unfold Locks.step at h3
        cases ht : s.thread w with
        | ended q => rw [ht] at h2; simp [Thread.held] at h2
        | updating g us => rw [ht] at h2; simp [Thread.held] at h2
        | failing q held =>
          rw [ht] at h3
          cases held <;> cases h3
        | encoding c held =>
          rw [ht] at h2 h3 h4
          cases c with
          | nil => cases held <;> cases h3
          | cons p c =>
            cases p with
            | plain m =>
              simp only at h3
              split at h3 <;> cases h3
            | lock r' g =>
              simp only at h3
              split at h3
              · cases h3
              · next hl =>
                obtain ⟨f, hf, rfl⟩ := List.mem_map.mp h2
                have h5 := h4.asks f hf
                obtain ⟨i1, i2⟩ := ih (rank r') (by omega) r' rfl
                rcases Locks.not_lets (Bool.not_eq_true _ ▸ hl) with ⟨w', e⟩ | ⟨w', e⟩
                · rw [i1] at e; cases e
                · rw [i2] at e; cases e

/-- Where locks are in order there is no deadlock. -/
theorem Locks.Inv.no_deadlock {s : Locks} (h : s.Inv rank) : ¬Deadlock joins s := by
  rintro ⟨⟨k, hk⟩, hn⟩
  have hu := fun r => h.unheld hn (rank r) r rfl
  have h3 := hn k
  unfold Locks.step at h3
  cases ht : s.thread k with
  | ended q => rw [ht] at hk; exact hk trivial
  | failing q held => rw [ht] at h3; cases held <;> cases h3
  | encoding c held =>
    rw [ht] at h3
    cases c with
    | nil => cases held <;> cases h3
    | cons p c =>
      cases p with
      | plain m =>
        simp only at h3
        split at h3 <;> cases h3
      | lock r' g =>
        simp only at h3
        split at h3
        · cases h3
        · next hl =>
          obtain ⟨i1, i2⟩ := hu r'
          rcases Locks.not_lets (Bool.not_eq_true _ ▸ hl) with ⟨w', e⟩ | ⟨w', e⟩
          · rw [i1] at e; cases e
          · rw [i2] at e; cases e
  | updating g us =>
    rw [ht] at h3 hk
    cases us with
    | nil => exact hk rfl
    | cons u us =>
      obtain ⟨r, c⟩ := u
      cases g with
      | true => cases h3
      | false =>
        simp only [(hu r).1, (hu r).2] at h3
        cases h3

end Oct
