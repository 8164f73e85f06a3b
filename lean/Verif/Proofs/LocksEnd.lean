import Verif.Proofs.Locks
/- Locks inside locks: how many steps there are, and what is encoded. -/
namespace Oct
open Spec
variable {rank : Nat → Nat} {joins : Locks → Nat → Bool}

/-! ## The number of steps -/

/-- A bound for the steps that a piece takes. -/
def Piece.weight (b : Nat) (rank : Nat → Nat) : Piece → Nat
  | .plain _ => 1
  | .lock r _ => (b + 2) ^ (rank r + 1)

/-- A bound for the steps that pieces take. -/
def weights (b : Nat) (rank : Nat → Nat) (c : List Piece) : Nat := (c.map (Piece.weight b rank)).sum

/-- A bound for the steps that a thread takes. -/
def Thread.weight (b : Nat) (rank : Nat → Nat) : Thread → Nat
  | .encoding c held => 1 + weights b rank c + (held.map fun f => 1 + weights b rank f.rest).sum
  | .failing _ held => 1 + held.length
  | .ended _ => 0
  | .updating guarded us => 2 * us.length - (if guarded then 1 else 0)

theorem weights_cons (b : Nat) (p : Piece) (c : List Piece) :
    weights b rank (p :: c) = p.weight b rank + weights b rank c := rfl

theorem length_le_frames (b : Nat) (held : List Frame) :
    held.length ≤ (held.map fun f => 1 + weights b rank f.rest).sum := by
  induction held with
  | nil => exact Nat.le_refl _
  | cons f fs ih => simp only [List.map_cons, List.sum_cons, List.length_cons]; omega

/-- What is in a lock weighs less than the lock. -/
theorem weights_below (b n : Nat) (c : List Piece) (h : Below rank n c) :
    weights b rank c ≤ c.length * (b + 2) ^ n := by
  induction c with
  | nil => simp [weights]
  | cons p c ih =>
    have h1 := ih (Below.tail h)
    have h2 : p.weight b rank ≤ (b + 2) ^ n := by
      cases p with
      | plain m => exact Nat.one_le_pow _ _ (by omega)
      | lock r g => exact Nat.pow_le_pow_right (by omega) (h r g (List.mem_cons_self ..))
    rw [weights_cons, List.length_cons, Nat.succ_mul]
    omega

theorem weights_content (b r : Nat) (c : List Piece) (h : Below rank (rank r) c) (hb : c.length ≤ b) :
    weights b rank c + 2 ≤ (b + 2) ^ (rank r + 1) := by
  have h1 := weights_below b _ c h
  have h2 : c.length * (b + 2) ^ rank r ≤ b * (b + 2) ^ rank r := Nat.mul_le_mul_right _ hb
  have h3 : 1 ≤ (b + 2) ^ rank r := Nat.one_le_pow _ _ (by omega)
  rw [Nat.pow_succ, Nat.mul_comm _ (b + 2), Nat.add_mul]
  omega

/-- Nothing is longer than `b`. -/
structure Locks.Short (b : Nat) (s : Locks) : Prop where
  content : ∀ r, (s.content r).length ≤ b
  update : ∀ k guarded us, s.thread k = .updating guarded us → ∀ r c, (r, c) ∈ us → c.length ≤ b

theorem Locks.goto_self (s : Locks) (k : Nat) (t : Thread) : (s.goto k t).thread k = t := if_pos rfl

/-- A step changes only its own thread, which has fewer steps left. -/
theorem Locks.step_weight {s s' : Locks} {k b : Nat} (h : s.Inv rank) (hb : s.Short b)
    (hs : s.step joins k = some s') :
    (s'.thread k).weight b rank < (s.thread k).weight b rank ∧
      (∀ k', k' ≠ k → s'.thread k' = s.thread k') ∧ s'.Short b := by
  have hgo : ∀ (u : Locks) (t : Thread), u.thread = s.thread → (u.goto k t).thread k = t ∧
      ∀ k', k' ≠ k → (u.goto k t).thread k' = s.thread k' := by
    intro u t hu
    refine ⟨if_pos rfl, fun k' hk' => ?_⟩
    show (if k' = k then t else u.thread k') = _
    rw [if_neg hk', hu]
  have hsh : ∀ (u : Locks) (t : Thread), u.thread = s.thread → u.content = s.content →
      (∀ g us, t = .updating g us → ∀ r c, (r, c) ∈ us → c.length ≤ b) → (u.goto k t).Short b := by
    intro u t hu hc ht
    refine ⟨fun r => ?_, fun k' g us h' => ?_⟩
    · show (u.content r).length ≤ b
      rw [hc]; exact hb.content r
    · by_cases e : k' = k
      · subst e
        rw [(hgo u t hu).1] at h'
        exact ht g us h'
      · rw [(hgo u t hu).2 k' e] at h'
        exact hb.update k' g us h'
  unfold Locks.step at hs
  cases ht : s.thread k with
  | encoding c held =>
    rw [ht] at hs
    cases c with
    | nil =>
      cases held with
      | nil =>
        simp only [Option.some.injEq] at hs
        subst hs
        refine ⟨?_, (hgo s _ rfl).2, hsh s _ rfl rfl (fun g us h => by cases h)⟩
        rw [Locks.goto_self]
        exact Nat.succ_pos _
      | cons f fs =>
        simp only [Option.some.injEq] at hs
        subst hs
        refine ⟨?_, (hgo _ _ rfl).2, hsh _ _ rfl rfl (fun g us h => by cases h)⟩
        rw [Locks.goto_self]
        simp only [Thread.weight, weights, List.map_nil, List.map_cons, List.sum_nil, List.sum_cons]
        omega
    | cons p c =>
      cases p with
      | plain m =>
        simp only at hs
        split at hs
        · simp only [Option.some.injEq] at hs
          subst hs
          refine ⟨?_, (hgo _ _ rfl).2, hsh _ _ rfl rfl (fun g us h => by cases h)⟩
          rw [Locks.goto_self]
          simp only [Thread.weight, weights_cons, Piece.weight]
          omega
        · simp only [Option.some.injEq] at hs
          subst hs
          refine ⟨?_, (hgo _ _ rfl).2, hsh _ _ rfl rfl (fun g us h => by cases h)⟩
          rw [Locks.goto_self]
          have := length_le_frames (rank := rank) b held
          simp only [Thread.weight, weights_cons, Piece.weight]
          omega
      | lock r g =>
        simp only at hs
        split at hs
        · simp only [Option.some.injEq] at hs
          subst hs
          refine ⟨?_, (hgo _ _ rfl).2, hsh _ _ rfl rfl (fun g us h => by cases h)⟩
          rw [Locks.goto_self]
          have := weights_content b r _ (h.content r) (hb.content r)
          simp only [Thread.weight, weights_cons, Piece.weight, List.map_cons, List.sum_cons]
          omega
        · cases hs
  | failing q held =>
    rw [ht] at hs
    cases held with
    | nil =>
      simp only [Option.some.injEq] at hs
      subst hs
      refine ⟨?_, (hgo s _ rfl).2, hsh s _ rfl rfl (fun g us h => by cases h)⟩
      rw [Locks.goto_self]
      exact Nat.succ_pos _
    | cons f fs =>
      simp only [Option.some.injEq] at hs
      subst hs
      refine ⟨?_, (hgo _ _ rfl).2, hsh _ _ rfl rfl (fun g us h => by cases h)⟩
      rw [Locks.goto_self]
      simp only [Thread.weight, List.length_cons]
      omega
  | ended q => rw [ht] at hs; cases hs
  | updating g us =>
    rw [ht] at hs
    cases us with
    | nil => cases g <;> cases hs
    | cons u us =>
      obtain ⟨r, c⟩ := u
      have hu := hb.update k g _ ht
      cases g with
      | false =>
        simp only at hs
        split at hs
        · simp only [Option.some.injEq] at hs
          subst hs
          refine ⟨?_, (hgo _ _ rfl).2, hsh _ _ rfl rfl (fun g us h => by cases h; exact hu)⟩
          rw [Locks.goto_self]
          simp only [Thread.weight, List.length_cons, if_true]
          simp
          omega
        · cases hs
      | true =>
        simp only [Option.some.injEq] at hs
        subst hs
        refine ⟨?_, (hgo _ _ rfl).2, ⟨fun r' => ?_, fun k' g us' h' => ?_⟩⟩
        · rw [Locks.goto_self]
          simp only [Thread.weight, List.length_cons, if_true]
          simp
          omega
        · show (if r' = r then c else s.content r').length ≤ b
          split
          · exact hu r c (List.mem_cons_self ..)
          · exact hb.content r'
        · by_cases e : k' = k
          · subst e
            rw [Locks.goto_self] at h'
            cases h'
            exact fun r' c' hc => hu r' c' (List.mem_cons_of_mem _ hc)
          · replace h' : (if k' = k then Thread.updating false us else s.thread k') = .updating g us' := h'
            rw [if_neg e] at h'
            exact hb.update k' g us' h'

/-- A bound for the steps that the first `n` threads take. -/
def Locks.weight (b : Nat) (rank : Nat → Nat) (s : Locks) : Nat → Nat
  | 0 => 0
  | n + 1 => s.weight b rank n + (s.thread n).weight b rank

theorem Locks.weight_congr {b n : Nat} {s s' : Locks} (h : ∀ k, k < n → s'.thread k = s.thread k) :
    s'.weight b rank n = s.weight b rank n := by
  induction n with
  | zero => rfl
  | succ n ih =>
    show s'.weight b rank n + (s'.thread n).weight b rank = _
    rw [ih (fun k hk => h k (by omega)), h n (by omega)]
    rfl

theorem Locks.weight_lt {b n k : Nat} {s s' : Locks} (hk : k < n)
    (h : ∀ k', k' ≠ k → s'.thread k' = s.thread k')
    (hw : (s'.thread k).weight b rank < (s.thread k).weight b rank) :
    s'.weight b rank n < s.weight b rank n := by
  induction n with
  | zero => omega
  | succ n ih =>
    show s'.weight b rank n + (s'.thread n).weight b rank < s.weight b rank n + (s.thread n).weight b rank
    by_cases e : k = n
    · subst e
      rw [Locks.weight_congr (fun k' hk' => h k' (by omega))]
      omega
    · rw [h n (fun h => e h.symm)]
      have := ih (by omega)
      omega

/-- No schedule has more steps. -/
theorem Locks.made_le {b n : Nat} {s : Locks} (h : s.Inv rank) (hb : s.Short b) (ks : List Nat)
    (hk : ∀ k ∈ ks, k < n) : s.made joins ks ≤ s.weight b rank n := by
  induction ks generalizing s with
  | nil => exact Nat.zero_le _
  | cons k ks ih =>
    show (if (s.step joins k).isSome then 1 else 0) + ((s.step joins k).getD s).made joins ks ≤ _
    have hk' := fun k' hk' => hk k' (List.mem_cons_of_mem _ hk')
    cases hs : s.step joins k with
    | none => simpa using ih h hb hk'
    | some s' =>
      obtain ⟨h1, h2, h3⟩ := Locks.step_weight h hb hs
      have h4 := ih (h.step hs) h3 hk'
      have h5 := Locks.weight_lt (hk k (List.mem_cons_self ..)) h2 h1
      simp only [Option.isSome_some, if_true, Option.getD_some]
      omega

/-- Who is over makes no step. -/
theorem Locks.step_over {s : Locks} {k : Nat} (h : Over (s.thread k)) : s.step joins k = none := by
  unfold Locks.step
  cases ht : s.thread k with
  | encoding c held => rw [ht] at h; exact h.elim
  | failing r held => rw [ht] at h; exact h.elim
  | ended r => rfl
  | updating g us =>
    rw [ht] at h
    cases (show us = [] from h)
    cases g <;> rfl

/-- All threads can be brought to their end. -/
theorem Locks.finishes {b n : Nat} : ∀ (w : Nat) (s : Locks), s.weight b rank n = w → s.Inv rank →
    s.Short b → (∀ k, n ≤ k → Over (s.thread k)) →
    ∃ ks, ∀ k, Over ((s.run joins ks).thread k) := by
  intro w
  induction w using Nat.strongRecOn with
  | _ w ih =>
    intro s hw h hb hn
    by_cases ho : ∀ k, Over (s.thread k)
    · exact ⟨[], ho⟩
    · have hd : ¬∀ k, s.step joins k = none := fun hd =>
        h.no_deadlock (joins := joins) ⟨Classical.not_forall.mp ho, hd⟩
      obtain ⟨k, hk⟩ := Classical.not_forall.mp hd
      cases hs : s.step joins k with
      | none => exact absurd hs hk
      | some s' =>
        obtain ⟨h1, h2, h3⟩ := Locks.step_weight h hb hs
        have hkn : k < n := by
          apply Nat.lt_of_not_le
          intro hle
          exact hk (Locks.step_over (hn k hle))
        have h4 := Locks.weight_lt hkn h2 h1
        obtain ⟨ks, hks⟩ := ih _ (hw ▸ h4) s' rfl (h.step hs) h3 (fun k' hk' => by
          rw [h2 k' (by omega)]; exact hn k' hk')
        refine ⟨k :: ks, fun k' => ?_⟩
        show Over ((((s.step joins k).getD s).run joins ks).thread k')
        rw [hs]
        exact hks k'

theorem Locks.Short.run {b : Nat} {s : Locks} (h : s.Inv rank) (hb : s.Short b) (ks : List Nat) :
    (s.run joins ks).Short b := by
  induction ks generalizing s with
  | nil => exact hb
  | cons k ks ih =>
    show (((s.step joins k).getD s).run joins ks).Short b
    cases hs : s.step joins k with
    | none => exact ih h hb
    | some s' => exact ih (h.step hs) (Locks.step_weight h hb hs).2.2

theorem Locks.run_over {k : Nat} (ks : List Nat) : ∀ {s : Locks}, s.Inv rank →
    Over (s.thread k) → Over ((s.run joins ks).thread k) := by
  induction ks with
  | nil => exact fun _ ho => ho
  | cons j ks ih =>
    intro s h ho
    show Over ((((s.step joins j).getD s).run joins ks).thread k)
    cases hs : s.step joins j with
    | none => exact ih h ho
    | some s' =>
      refine ih (h.step hs) ?_
      by_cases e : k = j
      · subst e
        rw [Locks.step_over ho] at hs
        cases hs
      · show Over (s'.thread k)
        have : s'.thread k = s.thread k := by
          unfold Locks.step at hs
          have hgo : ∀ (u : Locks) (t : Thread), u.thread = s.thread → (u.goto j t).thread k = s.thread k := by
            intro u t hu
            show (if k = j then t else u.thread k) = _
            rw [if_neg e, hu]
          split at hs
          · simp only at hs
            split at hs <;> (simp only [Option.some.injEq] at hs; subst hs; exact hgo _ _ rfl)
          · split at hs
            · simp only [Option.some.injEq] at hs; subst hs; exact hgo _ _ rfl
            · cases hs
          all_goals try (simp only [Option.some.injEq] at hs; subst hs; exact hgo _ _ rfl)
          all_goals try cases hs
          split at hs
          · simp only [Option.some.injEq] at hs; subst hs; exact hgo _ _ rfl
          · cases hs
        rw [this]
        exact ho

/-! ## What is encoded -/

variable {C : Nat → Nat → List Piece}

theorem _root_.Oct.Spec.Moments.from {t t0 t' : Nat} {c : List Piece} {o o' : Output}
    {r : Res EncErr Unit} (h : Moments C t c o r o' t') (ht : t0 ≤ t) : Moments C t0 c o r o' t' := by
  induction h generalizing t0 with
  | nil h => exact .nil (by omega)
  | plain h1 _ ih => exact .plain h1 (ih ht)
  | plainFails h1 h2 h3 => exact .plainFails (by omega) h2 h3
  | lock h1 h2 h3 => exact .lock (by omega) h2 h3
  | lockFails h1 h2 h3 => exact .lockFails (by omega) h2 h3

theorem _root_.Oct.Spec.Moments.upTo {t t1 t' : Nat} {c : List Piece} {o o' : Output}
    {r : Res EncErr Unit} (h : Moments C t c o r o' t') (ht : t' ≤ t1) : Moments C t c o r o' t1 := by
  induction h generalizing t1 with
  | nil h => exact .nil (by omega)
  | plain h1 _ ih => exact .plain h1 (ih ht)
  | plainFails h1 h2 h3 => exact .plainFails (by omega) h2 h3
  | lock h1 h2 _ _ ih3 => exact .lock h1 h2 (ih3 ht)
  | lockFails h1 _ h3 ih2 => exact .lockFails h1 (ih2 ht) h3

/-- Contents that never change. -/
theorem _root_.Oct.Spec.Moments.passes {content : Nat → List Piece} {t t' : Nat} {c : List Piece}
    {o o' : Output} {r : Res EncErr Unit} (h : Moments C t c o r o' t')
    (hC : ∀ t, C t = content) : Passes content c o r o' := by
  induction h with
  | nil h => exact .nil
  | plain h1 _ ih => exact .plain h1 ih
  | plainFails h1 h2 h3 => exact .plainFails h2 h3
  | lock h1 _ _ ih2 ih3 => rw [hC] at ih2; exact .lock ih2 ih3
  | lockFails h1 _ h3 ih2 => rw [hC] at ih2; exact .lockFails ih2 h3

/-- What a failure becomes on its way out. -/
def unwind (r : Res EncErr Unit) (held : List Frame) : Res EncErr Unit :=
  held.foldl (fun r f => r.mapErr f.onErr) r

/-- How an encoder goes on from the time `t`. -/
def GoesOn (C : Nat → Nat → List Piece) :
    List Frame → Nat → List Piece → Output → Res EncErr Unit → Output → Nat → Prop
  | [], t, c, o, r, o', t' => Moments C t c o r o' t'
  | f :: fs, t, c, o, r, o', t' =>
    (∃ o1 t1, Moments C t c o (.ok ()) o1 t1 ∧ GoesOn C fs t1 f.rest o1 r o' t') ∨
    ∃ q, q ≠ .ok () ∧ Moments C t c o q o' t' ∧ r = unwind (q.mapErr f.onErr) fs

theorem GoesOn.from {t t0 t' : Nat} {c : List Piece} {o o' : Output} {r : Res EncErr Unit}
    {held : List Frame} (h : GoesOn C held t c o r o' t') (ht : t0 ≤ t) :
    GoesOn C held t0 c o r o' t' := by
  cases held with
  | nil => exact Moments.from h ht
  | cons f fs =>
    rcases h with ⟨o1, t1, h1, h2⟩ | ⟨q, h1, h2, h3⟩
    · exact .inl ⟨o1, t1, h1.from ht, h2⟩
    · exact .inr ⟨q, h1, h2.from ht, h3⟩

/-- A step in front. -/
theorem GoesOn.before {t t0 t' : Nat} {c c0 : List Piece} {o o0 o' : Output} {r : Res EncErr Unit}
    {held : List Frame} (h : GoesOn C held t c o r o' t')
    (hc : ∀ r o' t', Moments C t c o r o' t' → Moments C t0 c0 o0 r o' t') :
    GoesOn C held t0 c0 o0 r o' t' := by
  cases held with
  | nil => exact hc _ _ _ h
  | cons f fs =>
    rcases h with ⟨o1, t1, h1, h2⟩ | ⟨q, h1, h2, h3⟩
    · exact .inl ⟨o1, t1, hc _ _ _ h1, h2⟩
    · exact .inr ⟨q, h1, hc _ _ _ h2, h3⟩

/-- A failure goes out through all locks held. -/
theorem GoesOn.fails {t t' : Nat} {c : List Piece} {o o' : Output} {r : Res EncErr Unit}
    {held : List Frame} (h : Moments C t c o r o' t') (hr : r ≠ .ok ()) :
    GoesOn C held t c o (unwind r held) o' t' := by
  cases held with
  | nil => exact h
  | cons f fs => exact .inr ⟨r, hr, h, rfl⟩

theorem mapErr_ne_ok {r : Res EncErr Unit} {g : EncErr → EncErr} (h : r ≠ .ok ()) :
    r.mapErr g ≠ .ok () := by
  cases r with
  | ok u => exact absurd rfl h
  | err e => intro h; cases h
  | panic p => intro h; cases h
  | ub u => intro h; cases h

/-- A lock in front. -/
theorem GoesOn.lock {t t' l : Nat} {g : EncErr → EncErr} {c : List Piece} {o o' : Output}
    {r : Res EncErr Unit} {held : List Frame}
    (h : GoesOn C (⟨l, g, c⟩ :: held) t (C t l) o r o' t') :
    GoesOn C held t (.lock l g :: c) o r o' t' := by
  rcases h with ⟨o1, t1, h1, h2⟩ | ⟨q, h1, h2, h3⟩
  · exact h2.before fun r o' t' h => .lock (Nat.le_refl _) h1 h
  · rw [h3]
    exact GoesOn.fails (.lockFails (Nat.le_refl _) h2 h1) (mapErr_ne_ok h1)

/-- What is known at the time `t` of the thread that began with the pieces `c0` and the output `o0`. -/
def Thread.Known (C : Nat → Nat → List Piece) (c0 : List Piece) (o0 : Output) (t : Nat) (o : Output) :
    Thread → Prop
  | .encoding c held => ∀ r o' t', GoesOn C held t c o r o' t' → Moments C 0 c0 o0 r o' t'
  | .failing r held => Moments C 0 c0 o0 (unwind r held) o t
  | .ended r => Moments C 0 c0 o0 r o t
  | .updating _ _ => False

/-- Time passes. -/
theorem Thread.Known.later {c0 : List Piece} {o0 o : Output} {t t1 : Nat} {th : Thread}
    (h : th.Known C c0 o0 t o) (ht : t ≤ t1) : th.Known C c0 o0 t1 o := by
  cases th with
  | encoding c held => exact fun r o' t' h' => h r o' t' (h'.from ht)
  | failing r held => exact Moments.upTo h ht
  | ended r => exact Moments.upTo h ht
  | updating g us => exact h

/-- What a step of another thread does to a thread: nothing. -/
theorem Locks.step_other {s s' : Locks} {k k' : Nat} (hs : s.step joins k = some s') (hk : k' ≠ k) :
    s'.thread k' = s.thread k' ∧ s'.output k' = s.output k' := by
  have hgo : ∀ (u : Locks) (t : Thread), u.thread = s.thread → (u.output k' = s.output k') →
      (u.goto k t).thread k' = s.thread k' ∧ (u.goto k t).output k' = s.output k' := by
    intro u t hu ho
    refine ⟨?_, ho⟩
    show (if k' = k then t else u.thread k') = _
    rw [if_neg hk, hu]
  unfold Locks.step at hs
  split at hs
  · simp only at hs
    split at hs
    all_goals
      simp only [Option.some.injEq] at hs
      subst hs
      refine hgo _ _ rfl ?_
      show (if k' = k then _ else s.output k') = _
      rw [if_neg hk]
  · split at hs
    · simp only [Option.some.injEq] at hs
      subst hs
      exact hgo _ _ rfl rfl
    · cases hs
  · simp only [Option.some.injEq] at hs; subst hs; exact hgo _ _ rfl rfl
  · simp only [Option.some.injEq] at hs; subst hs; exact hgo _ _ rfl rfl
  · simp only [Option.some.injEq] at hs; subst hs; exact hgo _ _ rfl rfl
  · simp only [Option.some.injEq] at hs; subst hs; exact hgo _ _ rfl rfl
  · cases hs
  · cases hs
  · split at hs
    · simp only [Option.some.injEq] at hs; subst hs; exact hgo _ _ rfl rfl
    · cases hs
  · simp only [Option.some.injEq] at hs; subst hs; exact hgo _ _ rfl rfl

/-- A step of the thread itself. -/
theorem Locks.step_known {s s' : Locks} {k t : Nat} {c0 : List Piece} {o0 : Output}
    (hC : C t = s.content) (h : (s.thread k).Known C c0 o0 t (s.output k))
    (hs : s.step joins k = some s') : (s'.thread k).Known C c0 o0 t (s'.output k) := by
  have hgo : ∀ (u : Locks) (th : Thread), (u.goto k th).thread k = th := fun u th => if_pos rfl
  unfold Locks.step at hs
  cases ht : s.thread k with
  | encoding c held =>
    rw [ht] at hs h
    cases c with
    | nil =>
      cases held with
      | nil =>
        simp only [Option.some.injEq] at hs
        subst hs
        rw [hgo]
        exact h _ _ _ (.nil (Nat.le_refl _))
      | cons f fs =>
        simp only [Option.some.injEq] at hs
        subst hs
        rw [hgo]
        exact fun r o' t' h' => h r o' t' (.inl ⟨_, t, .nil (Nat.le_refl _), h'⟩)
    | cons p c =>
      cases p with
      | plain m =>
        simp only at hs
        split at hs
        · next hm =>
          simp only [Option.some.injEq] at hs
          subst hs
          rw [hgo]
          show Thread.Known C c0 o0 t (if k = k then (m (s.output k)).2 else s.output k) _
          rw [if_pos rfl]
          intro r o' t' h'
          exact h r o' t' (h'.before fun r o' t' h => .plain (Prod.ext hm rfl) h)
        · next hm =>
          simp only [Option.some.injEq] at hs
          subst hs
          rw [hgo]
          show Thread.Known C c0 o0 t (if k = k then (m (s.output k)).2 else s.output k) _
          rw [if_pos rfl]
          exact h _ _ _ (GoesOn.fails (.plainFails (Nat.le_refl _) rfl hm) hm)
      | lock r g =>
        simp only at hs
        split at hs
        · simp only [Option.some.injEq] at hs
          subst hs
          rw [hgo]
          intro q o' t' h'
          refine h q o' t' (GoesOn.lock ?_)
          rw [hC]
          exact h'
        · cases hs
  | failing q held =>
    rw [ht] at hs h
    cases held with
    | nil =>
      simp only [Option.some.injEq] at hs
      subst hs
      rw [hgo]
      exact h
    | cons f fs =>
      simp only [Option.some.injEq] at hs
      subst hs
      rw [hgo]
      exact h
  | ended q => rw [ht] at hs; cases hs
  | updating g us => rw [ht] at h; exact h.elim

theorem Locks.run_append (s : Locks) (ks ks' : List Nat) :
    s.run joins (ks ++ ks') = (s.run joins ks).run joins ks' := by
  induction ks generalizing s with
  | nil => rfl
  | cons k ks ih => exact ih _

/-- What is known after a schedule. -/
theorem Locks.run_known {s : Locks} {k : Nat} {c0 : List Piece} (hk : s.thread k = .encoding c0 [])
    (ks : List Nat) : ∀ t, t ≤ ks.length →
      (((s.run joins (ks.take t)).thread k).Known
        (fun t => (s.run joins (ks.take t)).content) c0 (s.output k) t
        ((s.run joins (ks.take t)).output k)) := by
  intro t
  induction t with
  | zero =>
    intro _
    rw [List.take_zero]
    show Thread.Known _ c0 (s.output k) 0 (s.output k) (s.thread k)
    rw [hk]
    exact fun r o' t' h => h
  | succ t ih =>
    intro ht
    have h := ih (by omega)
    obtain ⟨j, hj⟩ : ∃ j, ks[t]? = some j := ⟨_, List.getElem?_eq_getElem (by omega)⟩
    have he : s.run joins (ks.take (t + 1)) = ((s.run joins (ks.take t)).step joins j).getD
        (s.run joins (ks.take t)) := by
      rw [List.take_add_one, hj, Locks.run_append]
      rfl
    rw [he]
    cases hs : (s.run joins (ks.take t)).step joins j with
    | none => exact h.later (Nat.le_succ _)
    | some s' =>
      show Thread.Known _ c0 (s.output k) (t + 1) (s'.output k) (s'.thread k)
      refine Thread.Known.later (t := t) ?_ (Nat.le_succ _)
      by_cases e : k = j
      · subst e
        exact Locks.step_known rfl h hs
      · obtain ⟨h1, h2⟩ := Locks.step_other hs e
        rw [h1, h2]
        exact h

end Oct
