import Verif.Proofs.Shared
/- When a lock is poisoned: C72. -/
namespace Oct
open Spec
namespace Shared
variable {α : Type} {part : Steps α} {s : Shared α}

theorem step_kind (e : Event α) : (s.step part e).kind = s.kind := by
  cases e with
  | lock k => simp only [step]; split <;> (try split) <;> rfl
  | encode k => simp only [step, finish]; split <;> (try split) <;> (try split) <;> rfl
  | _ => simp only [step]; split <;> rfl

theorem run_kind (es : List (Event α)) : (s.run part es).kind = s.kind := by
  induction es using concatInd with
  | nil => rfl
  | snoc es e ih => rw [run_concat, step_kind, ih]

theorem finish_poisoned (k : Nat) (r : Res EncErr Unit) (o : Output) :
    (s.finish k r o).poisoned = true ↔
      s.poisoned = true ∨ s.kind = .mutex ∧ ∃ p, r = .panic p := by
  unfold finish
  rw [Bool.or_eq_true]
  cases s.kind <;> cases r <;> simp

theorem finish_ended (k : Nat) (i : Nat) (hk : s.phase k = .running i) (r : Res EncErr Unit)
    (o : Output) : (∃ k' p, (s.finish k r o).phase k' = .finished (.panic p)) ↔
      (∃ k' p, s.phase k' = .finished (.panic p)) ∨ ∃ p, r = .panic p := by
  unfold finish
  constructor
  · rintro ⟨k', p, h⟩
    by_cases hkk : k' = k
    · simp only [if_pos hkk] at h
      exact .inr ⟨p, by injection h⟩
    · simp only [if_neg hkk] at h
      exact .inl ⟨k', p, h⟩
  · rintro (⟨k', p, h⟩ | ⟨p, rfl⟩)
    · refine ⟨k', p, ?_⟩
      have hkk : k' ≠ k := by rintro rfl; rw [h] at hk; cases hk
      simp only [if_neg hkk, h]
    · exact ⟨k, p, by simp⟩

/-- An event at which a thread panics that holds a guard to write through. -/
def Broken (part : Steps α) (s : Shared α) (es : List (Event α)) : Prop :=
  ∃ p w q, es = p ++ .panic w :: q ∧ (s.run part p).writer = some w

theorem broken_snoc (es : List (Event α)) (e : Event α) :
    Broken part s (es ++ [e]) ↔
      Broken part s es ∨ ∃ w, e = .panic w ∧ (s.run part es).writer = some w := by
  constructor
  · rintro ⟨p, w, q, h1, h2⟩
    rcases concat_eq_split h1 with ⟨_, rfl, rfl⟩ | ⟨q', _, h⟩
    · exact .inr ⟨w, rfl, h2⟩
    · exact .inl ⟨p, w, q', h, h2⟩
  · rintro (⟨p, w, q, rfl, h2⟩ | ⟨w, rfl, h⟩)
    · exact ⟨p, w, q ++ [e], by simp, h2⟩
    · exact ⟨es, w, [], rfl, h⟩

theorem run_poisoned (kind : LockKind) (v : α) (outs : Nat → Output) (es : List (Event α)) :
    ((start kind v outs).run part es).poisoned = true ↔
      Broken part (start kind v outs) es ∨
        kind = .mutex ∧ ∃ k p, ((start kind v outs).run part es).phase k = .finished (.panic p) := by
  induction es using concatInd with
  | nil =>
    simp only [run_nil]
    constructor
    · intro h; cases h
    · rintro (⟨p, w, q, h, _⟩ | ⟨_, k, p, h⟩)
      · simp at h
      · cases h
  | snoc es e ih =>
    rw [broken_snoc, run_concat]
    have hk : ((start kind v outs).run part es).kind = kind := run_kind (s := start kind v outs) es
    generalize hs : (start kind v outs).run part es = s at *
    -- Steps that change neither.
    have same : ∀ s' : Shared α, s'.poisoned = s.poisoned →
        (∀ k p, s'.phase k = .finished (.panic p) ↔ s.phase k = .finished (.panic p)) →
        (∀ w, e = .panic w → s.writer ≠ some w) →
        (s'.poisoned = true ↔ (Broken part (start kind v outs) es ∨
          ∃ w, e = .panic w ∧ s.writer = some w) ∨
          kind = .mutex ∧ ∃ k p, s'.phase k = .finished (.panic p)) := by
      intro s' h1 h2 h3
      rw [h1, ih]
      simp only [h2]
      constructor
      · rintro (h | h)
        · exact .inl (.inl h)
        · exact .inr h
      · rintro ((h | ⟨w, he, hw⟩) | h)
        · exact .inl h
        · exact absurd hw (h3 w he)
        · exact .inr h
    have fin : ∀ k i r o, e = .encode k → s.phase k = .running i →
        ((s.finish k r o).poisoned = true ↔ (Broken part (start kind v outs) es ∨
          ∃ w, e = .panic w ∧ s.writer = some w) ∨
          kind = .mutex ∧ ∃ k' p, (s.finish k r o).phase k' = .finished (.panic p)) := by
      intro k i r o he hph
      rw [finish_poisoned, finish_ended k i hph, ih, hk]
      subst he
      constructor
      · rintro ((h | ⟨h, h'⟩) | ⟨h, h'⟩)
        · exact .inl (.inl h)
        · exact .inr ⟨h, .inl h'⟩
        · exact .inr ⟨h, .inr h'⟩
      · rintro ((h | ⟨w, h, _⟩) | ⟨h, h' | h'⟩)
        · exact .inl (.inl h)
        · cases h
        · exact .inl (.inr ⟨h, h'⟩)
        · exact .inr ⟨h, h'⟩
    cases e with
    | lock k =>
      cases hph : s.phase k with
      | waiting =>
        by_cases hl : s.lets = true
        · simp only [step, hph, hl, if_true]
          refine same
            { s with
              readers := k :: s.readers
              phase := fun k' => if k' = k then .running 0 else s.phase k' }
            rfl (fun k' p => ?_) (fun w h => by cases h)
          simp only
          split
          · next h => subst h; simp [hph]
          · rfl
        · simp only [step, hph, hl]
          exact same _ rfl (fun _ _ => Iff.rfl) (fun w h => by cases h)
      | running i =>
        simp only [step, hph]; exact same _ rfl (fun _ _ => Iff.rfl) (fun w h => by cases h)
      | finished r =>
        simp only [step, hph]; exact same _ rfl (fun _ _ => Iff.rfl) (fun w h => by cases h)
    | encode k =>
      cases hph : s.phase k with
      | waiting =>
        simp only [step, hph]; exact same _ rfl (fun _ _ => Iff.rfl) (fun w h => by cases h)
      | finished r =>
        simp only [step, hph]; exact same _ rfl (fun _ _ => Iff.rfl) (fun w h => by cases h)
      | running i =>
        cases hpt : part i s.val with
        | none => simp only [step, hph, hpt]; exact fin k i _ _ rfl hph
        | some m =>
          cases hm : m (s.output k) with
          | mk r o =>
            cases r with
            | ok u =>
              simp only [step, hph, hpt, hm]
              refine same
                { s with
                  phase := fun k' => if k' = k then .running (i + 1) else s.phase k'
                  output := fun k' => if k' = k then o else s.output k' }
                rfl (fun k' p => ?_) (fun w h => by cases h)
              simp only
              split
              · next h => subst h; simp [hph]
              · rfl
            | _ => simp only [step, hph, hpt, hm]; exact fin k i _ _ rfl hph
    | panic w =>
      by_cases hw : s.writer = some w
      · simp only [step, if_pos hw, true_iff]
        exact .inl (.inr ⟨w, rfl, hw⟩)
      · simp only [step, if_neg hw]
        exact same _ rfl (fun _ _ => Iff.rfl) (fun w' h => by injection h with h; rwa [← h])
    | _ =>
      simp only [step]
      split
      · exact same _ rfl (fun _ _ => Iff.rfl) (fun w h => by cases h)
      · exact same _ rfl (fun _ _ => Iff.rfl) (fun w h => by cases h)

end Shared
end Oct
