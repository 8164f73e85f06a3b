import Verif.Proofs.Locks
/- Guards exclude each other, whatever the locks contain. -/
namespace Oct
open Spec

/-- Who holds what. -/
structure Locks.Excl (s : Locks) : Prop where
  readers : ∀ r k, (s.readers r).count k = ((s.thread k).held.map Frame.lock).count r
  alone : ∀ r k, s.writer r = some k → s.readers r = []
  own : ∀ k r c us, s.thread k = .updating true ((r, c) :: us) → s.writer r = some k
  single : ∀ r, s.kind r = .mutex → (s.readers r).length ≤ 1

variable {joins : Locks → Nat → Bool}

theorem Locks.start_excl {kind : Nat → LockKind} {content : Nat → List Piece}
    {thread : Nat → Thread} {output : Nat → Output} (hf : ∀ k, Fresh (thread k)) :
    (Locks.start kind content thread output).Excl where
  readers := fun r k => by
    have h := hf k
    show ([] : List Nat).count k = ((thread k).held.map Frame.lock).count r
    cases ht : thread k with
    | encoding c h' => rw [ht] at h; simp only [Fresh] at h; subst h; rfl
    | failing r h' => rw [ht] at h; exact h.elim
    | ended r => rfl
    | updating g us => rfl
  alone := fun r k h => by cases h
  own := fun k r c us ht => by
    replace ht : thread k = _ := ht
    have h := hf k
    rw [ht] at h
    cases h
  single := fun r _ => Nat.zero_le 1

/-- A thread goes on without guards changing hands. -/
theorem Locks.Excl.goto {s : Locks} (h : s.Excl) {k : Nat} {t : Thread}
    (hh : t.held.map Frame.lock = (s.thread k).held.map Frame.lock)
    (hu : ∀ c us, t ≠ .updating true (c :: us)) : (s.goto k t).Excl where
  readers := fun r k' => by
    show (s.readers r).count k' = ((if k' = k then t else s.thread k').held.map Frame.lock).count r
    split
    · next e => subst e; rw [hh]; exact h.readers r k'
    · exact h.readers r k'
  alone := h.alone
  own := fun k' r c us ht => by
    replace ht : (if k' = k then t else s.thread k') = _ := ht
    by_cases e : k' = k
    · rw [if_pos e] at ht; exact absurd ht (hu _ _)
    · rw [if_neg e] at ht; exact h.own k' r c us ht
  single := h.single

/-- A thread drops its innermost guard. -/
theorem Locks.Excl.give {s : Locks} (h : s.Excl) {k r : Nat} {t : Thread}
    (hh : (s.thread k).held.map Frame.lock = r :: t.held.map Frame.lock)
    (hu : ∀ c us, t ≠ .updating true (c :: us)) : ((s.give k r).goto k t).Excl where
  readers := fun r' k' => by
    show (if r' = r then (s.readers r).erase k else s.readers r').count k'
      = ((if k' = k then t else s.thread k').held.map Frame.lock).count r'
    have h1 := h.readers r' k'
    by_cases e : k' = k
    · subst e
      rw [hh] at h1
      rw [if_pos rfl]
      by_cases e' : r' = r
      · subst e'
        rw [if_pos rfl, List.count_erase_self]
        rw [List.count_cons_self] at h1
        omega
      · rw [if_neg e']
        rwa [List.count_cons_of_ne (fun h => e' h.symm)] at h1
    · rw [if_neg e, ← h1]
      by_cases e' : r' = r
      · subst e'
        rw [if_pos rfl, List.count_erase_of_ne (fun h => e h)]
      · rw [if_neg e']
  alone := fun r' k' hw => by
    show (if r' = r then (s.readers r).erase k else s.readers r') = []
    have h1 := h.alone r' k' hw
    split
    · next e => subst e; rw [h1]; rfl
    · exact h1
  own := fun k' r' c us ht => by
    replace ht : (if k' = k then t else s.thread k') = _ := ht
    by_cases e : k' = k
    · rw [if_pos e] at ht; exact absurd ht (hu _ _)
    · rw [if_neg e] at ht; exact h.own k' r' c us ht
  single := fun r' hm => by
    show (if r' = r then (s.readers r).erase k else s.readers r').length ≤ 1
    have h1 := h.single r' hm
    split
    · next e => subst e; exact Nat.le_trans (List.erase_sublist.length_le) h1
    · exact h1

/-- Each step keeps that. -/
theorem Locks.Excl.step {s s' : Locks} {k : Nat} (h : s.Excl) (hs : s.step joins k = some s') :
    s'.Excl := by
  unfold Locks.step at hs
  cases ht : s.thread k with
  | encoding c held =>
    rw [ht] at hs
    cases c with
    | nil =>
      cases held with
      | nil =>
        simp only [Option.some.injEq] at hs
        subst hs
        exact h.goto (by rw [ht]; rfl) (fun _ _ e => by cases e)
      | cons f fs =>
        simp only [Option.some.injEq] at hs
        subst hs
        exact h.give (by rw [ht]; rfl) (fun _ _ e => by cases e)
    | cons p c =>
      cases p with
      | plain m =>
        simp only at hs
        have h' : Locks.Excl { s with output := fun k' => if k' = k then (m (s.output k)).2 else s.output k' } :=
          ⟨h.readers, h.alone, h.own, h.single⟩
        split at hs
        · simp only [Option.some.injEq] at hs
          subst hs
          exact h'.goto (t := .encoding c held) (by
            show held.map Frame.lock = (s.thread k).held.map Frame.lock
            rw [ht]; rfl) (fun _ _ e => by cases e)
        · simp only [Option.some.injEq] at hs
          subst hs
          exact h'.goto (t := .failing _ held) (by
            show held.map Frame.lock = (s.thread k).held.map Frame.lock
            rw [ht]; rfl) (fun _ _ e => by cases e)
      | lock r g =>
        simp only at hs
        split at hs
        · next hl =>
          have hw : s.writer r = none := by
            unfold Locks.lets at hl
            split at hl
            all_goals
              simp only [Bool.and_eq_true, Option.isNone_iff_eq_none] at hl
              exact hl.1
          simp only [Option.some.injEq] at hs
          subst hs
          exact {
            readers := fun r' k' => by
              show (if r' = r then k :: s.readers r else s.readers r').count k'
                = ((if k' = k then Thread.encoding (s.content r) (⟨r, g, c⟩ :: held) else s.thread k').held.map
                  Frame.lock).count r'
              have h1 := h.readers r' k'
              by_cases e : k' = k
              · subst e
                rw [ht] at h1
                rw [if_pos rfl]
                show _ = (r :: held.map Frame.lock).count r'
                by_cases e' : r' = r
                · subst e'
                  rw [if_pos rfl, List.count_cons_self, List.count_cons_self, h1]
                  rfl
                · rw [if_neg e', List.count_cons_of_ne (fun h => e' h.symm), h1]
                  rfl
              · rw [if_neg e, ← h1]
                by_cases e' : r' = r
                · subst e'
                  rw [if_pos rfl, List.count_cons_of_ne (fun h => e h.symm)]
                · rw [if_neg e']
            alone := fun r' k' hw' => by
              show (if r' = r then k :: s.readers r else s.readers r') = []
              replace hw' : s.writer r' = some k' := hw'
              split
              · next e => subst e; rw [hw] at hw'; cases hw'
              · exact h.alone r' k' hw'
            own := fun k' r' c' us h' => by
              replace h' : (if k' = k then Thread.encoding (s.content r) (⟨r, g, c⟩ :: held) else s.thread k') = _ := h'
              by_cases e : k' = k
              · rw [if_pos e] at h'; cases h'
              · rw [if_neg e] at h'; exact h.own k' r' c' us h'
            single := fun r' hm => by
              show (if r' = r then k :: s.readers r else s.readers r').length ≤ 1
              replace hm : s.kind r' = .mutex := hm
              split
              · next e =>
                subst e
                unfold Locks.lets at hl
                rw [hm] at hl
                simp only [Bool.and_eq_true, List.isEmpty_iff] at hl
                rw [hl.2]
                exact Nat.le_refl 1
              · exact h.single r' hm }
        · cases hs
  | failing q held =>
    rw [ht] at hs
    cases held with
    | nil =>
      simp only [Option.some.injEq] at hs
      subst hs
      exact h.goto (by rw [ht]; rfl) (fun _ _ e => by cases e)
    | cons f fs =>
      simp only [Option.some.injEq] at hs
      subst hs
      exact h.give (by rw [ht]; rfl) (fun _ _ e => by cases e)
  | ended q => rw [ht] at hs; cases hs
  | updating g us =>
    rw [ht] at hs
    cases us with
    | nil => cases g <;> cases hs
    | cons u us =>
      obtain ⟨r, c⟩ := u
      cases g with
      | false =>
        simp only at hs
        split at hs
        · next hw =>
          simp only [Bool.and_eq_true, Option.isNone_iff_eq_none, List.isEmpty_iff] at hw
          simp only [Option.some.injEq] at hs
          subst hs
          exact {
            readers := fun r' k' => by
              show (s.readers r').count k'
                = ((if k' = k then Thread.updating true ((r, c) :: us) else s.thread k').held.map Frame.lock).count r'
              by_cases e : k' = k
              · subst e
                rw [if_pos rfl, h.readers r' k', ht]
                rfl
              · rw [if_neg e]; exact h.readers r' k'
            alone := fun r' k' hw' => by
              replace hw' : (if r' = r then some k else s.writer r') = some k' := hw'
              show s.readers r' = []
              by_cases e : r' = r
              · subst e; exact hw.2
              · rw [if_neg e] at hw'; exact h.alone r' k' hw'
            own := fun k' r' c' us' h' => by
              replace h' : (if k' = k then Thread.updating true ((r, c) :: us) else s.thread k') = _ := h'
              show (if r' = r then some k else s.writer r') = some k'
              by_cases e : k' = k
              · rw [if_pos e] at h'
                cases h'
                rw [if_pos rfl, e]
              · rw [if_neg e] at h'
                have h1 := h.own k' r' c' us' h'
                by_cases e' : r' = r
                · subst e'; rw [hw.1] at h1; cases h1
                · rw [if_neg e']; exact h1
            single := h.single }
        · cases hs
      | true =>
        simp only [Option.some.injEq] at hs
        subst hs
        exact {
          readers := fun r' k' => by
            show (s.readers r').count k'
              = ((if k' = k then Thread.updating false us else s.thread k').held.map Frame.lock).count r'
            by_cases e : k' = k
            · subst e
              rw [if_pos rfl, h.readers r' k', ht]
              rfl
            · rw [if_neg e]; exact h.readers r' k'
          alone := fun r' k' hw' => by
            replace hw' : (if r' = r then none else s.writer r') = some k' := hw'
            show s.readers r' = []
            by_cases e : r' = r
            · rw [if_pos e] at hw'; cases hw'
            · rw [if_neg e] at hw'; exact h.alone r' k' hw'
          own := fun k' r' c' us' h' => by
            replace h' : (if k' = k then Thread.updating false us else s.thread k') = _ := h'
            show (if r' = r then none else s.writer r') = some k'
            by_cases e : k' = k
            · rw [if_pos e] at h'; cases h'
            · rw [if_neg e] at h'
              have h1 := h.own k' r' c' us' h'
              by_cases e' : r' = r
              · subst e'
                have h2 := h.own k r' c us ht
                rw [h1] at h2
                cases h2
                exact absurd rfl e
              · rw [if_neg e']; exact h1
          single := h.single }

theorem Locks.Excl.run {s : Locks} (h : s.Excl) (ks : List Nat) : (s.run joins ks).Excl := by
  induction ks generalizing s with
  | nil => exact h
  | cons k ks ih =>
    show (((s.step joins k).getD s).run joins ks).Excl
    cases hs : s.step joins k with
    | none => exact ih h
    | some s' => exact ih (h.step hs)

/-- A thread inside a lock is one of its readers. -/
theorem Locks.Excl.inside {s : Locks} (h : s.Excl) {k r : Nat} (hi : Inside r (s.thread k)) :
    k ∈ s.readers r := by
  have key : r ∈ (s.thread k).held.map Frame.lock := by
    revert hi
    cases s.thread k with
    | encoding c held => rintro ⟨f, hf, rfl⟩; exact List.mem_map_of_mem hf
    | failing c held => rintro ⟨f, hf, rfl⟩; exact List.mem_map_of_mem hf
    | ended c => exact fun h => h.elim
    | updating g us => exact fun h => h.elim
  have h1 := List.count_pos_iff.mpr key
  rw [← h.readers r k] at h1
  exact List.count_pos_iff.mp h1

theorem Locks.Excl.writing {s : Locks} (h : s.Excl) {k r : Nat} (hi : Writing r (s.thread k)) :
    s.writer r = some k := by
  cases ht : s.thread k with
  | encoding c held => rw [ht] at hi; exact hi.elim
  | failing c held => rw [ht] at hi; exact hi.elim
  | ended c => rw [ht] at hi; exact hi.elim
  | updating g us =>
    rw [ht] at hi
    cases g with
    | false => cases us <;> exact hi.elim
    | true =>
      cases us with
      | nil => exact hi.elim
      | cons u us =>
        obtain ⟨r', c⟩ := u
        have : r' = r := hi
        subst this
        exact h.own k r' c us ht

/-- What is in a lock does not change while somebody reads it. -/
theorem Locks.Excl.steady {s s' : Locks} (h : s.Excl) {k j r : Nat} (hk : k ∈ s.readers r)
    (hs : s.step joins j = some s') : s'.content r = s.content r := by
  unfold Locks.step at hs
  split at hs
  · simp only at hs
    split at hs <;> (simp only [Option.some.injEq] at hs; subst hs; rfl)
  · split at hs
    · simp only [Option.some.injEq] at hs; subst hs; rfl
    · cases hs
  · simp only [Option.some.injEq] at hs; subst hs; rfl
  · simp only [Option.some.injEq] at hs; subst hs; rfl
  · simp only [Option.some.injEq] at hs; subst hs; rfl
  · simp only [Option.some.injEq] at hs; subst hs; rfl
  · cases hs
  · cases hs
  · split at hs
    · simp only [Option.some.injEq] at hs; subst hs; rfl
    · cases hs
  · next r' c us ht =>
    simp only [Option.some.injEq] at hs
    subst hs
    show (if r = r' then c else s.content r) = s.content r
    split
    · next e =>
      subst e
      have := h.alone r j (h.own j r c us ht)
      rw [this] at hk
      cases hk
    · rfl

end Oct
