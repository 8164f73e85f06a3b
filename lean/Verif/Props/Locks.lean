import Verif.Proofs.LocksEnd
import Verif.Proofs.LocksExclude
/-
C104, C105, C106: locks inside locks.
-/
namespace Oct.Props
open Oct Spec
set_option linter.unusedVariables false

/-- C104, as far as it holds. However many threads encode and update locks, however they are scheduled
and whomever the system lets in first: as long as no lock contains itself, directly or not, there is
never a deadlock. Missing: locks that contain themselves, see `C104_false_self` and the others. -/
theorem C104_no_deadlock_partial (joins : Locks → Nat → Bool) (kind : Nat → LockKind)
    (content : Nat → List Piece) (thread : Nat → Thread) (output : Nat → Output) (rank : Nat → Nat)
    (hl : Layered rank content thread) (hf : ∀ k, Fresh (thread k)) (ks : List Nat) :
    ¬Deadlock joins ((Locks.start kind content thread output).run joins ks) :=
  ((Locks.start_inv hl hf).run ks).no_deadlock

/-- A piece that encodes the octet `b`. -/
def octetPiece (b : BitVec 8) : Piece := .plain ((Ty.num (.int .u8)).encode b)

/-- A lock `1` that contains the locks `0`, which a thread encodes, and another thread updates. -/
example : Layered id (fun r => if r = 1 then [.lock 0 id, octetPiece 1#8] else [])
    (fun k => if k = 0 then .encoding [.lock 1 id] [] else if k = 1 then .updating false [(0, [octetPiece 2#8])]
      else .updating false []) := by
  constructor
  · intro r r' g h
    dsimp only at h
    split at h
    · next e =>
      subst e
      simp only [octetPiece, List.mem_cons, reduceCtorEq, List.not_mem_nil, or_false] at h
      cases h
      exact Nat.zero_lt_one
    · cases h
  · intro k guarded us h r c hc r' g h'
    dsimp only at h
    split at h
    · cases h
    · split at h
      · cases h
        simp only [List.mem_singleton, Prod.mk.injEq] at hc
        obtain ⟨rfl, rfl⟩ := hc
        simp [octetPiece] at h'
      · cases h
        cases hc

/-- Nobody else does anything. -/
def alone (c : List Piece) : Nat → Thread
  | 0 => .encoding c []
  | _ + 1 => .updating false []

/-- C104 is false of a `Mutex` that contains itself (as by an `Arc` in what it protects): whoever
encodes it waits for itself. -/
theorem C104_false_self (joins : Locks → Nat → Bool) (g : EncErr → EncErr) (c : List Piece)
    (output : Nat → Output) :
    Deadlock joins ((Locks.start (fun _ => .mutex) (fun _ => .lock 0 g :: c) (alone [.lock 0 g])
      output).run joins [0]) := by
  refine ⟨⟨0, fun h => h⟩, fun k => ?_⟩
  cases k with
  | zero => rfl
  | succ k => rfl

/-- The kinds never change. -/
theorem step_kind {joins : Locks → Nat → Bool} {s s' : Locks} {j : Nat}
    (hs : s.step joins j = some s') : s'.kind = s.kind := by
  unfold Locks.step at hs
  split at hs
  · simp only at hs
    split at hs <;> (simp only [Option.some.injEq] at hs; subst hs; rfl)
  · split at hs
    · simp only [Option.some.injEq] at hs; subst hs; rfl
    · cases hs
  all_goals try (simp only [Option.some.injEq] at hs; subst hs; rfl)
  all_goals try cases hs
  split at hs
  · simp only [Option.some.injEq] at hs; subst hs; rfl
  · cases hs

/-- A thread that asks for a mutex that it holds waits forever. -/
theorem stuck_step {joins : Locks → Nat → Bool} {s s' : Locks} {k j r : Nat} {g : EncErr → EncErr}
    {c : List Piece} {held : List Frame} (hm : s.kind r = .mutex)
    (ht : s.thread k = .encoding (.lock r g :: c) held) (hr : k ∈ s.readers r)
    (hs : s.step joins j = some s') :
    s'.kind r = .mutex ∧ s'.thread k = .encoding (.lock r g :: c) held ∧ k ∈ s'.readers r := by
  have hkj : k ≠ j := by
    rintro rfl
    unfold Locks.step at hs
    rw [ht] at hs
    have : s.lets joins r = false := by
      unfold Locks.lets
      rw [hm]
      cases hrr : s.readers r with
      | nil => rw [hrr] at hr; cases hr
      | cons a l => exact Bool.and_false _
    simp only [this] at hs
    cases hs
  have hth := (Locks.step_other hs hkj).1
  refine ⟨?_, hth.trans ht, ?_⟩
  · rw [step_kind hs]; exact hm
  · unfold Locks.step at hs
    split at hs
    · simp only at hs
      split at hs <;> (simp only [Option.some.injEq] at hs; subst hs; exact hr)
    · split at hs
      · simp only [Option.some.injEq] at hs
        subst hs
        show k ∈ (if r = _ then _ else s.readers r)
        split
        · next e => subst e; exact List.mem_cons_of_mem _ hr
        · exact hr
      · cases hs
    · simp only [Option.some.injEq] at hs
      subst hs
      show k ∈ (if r = _ then _ else s.readers r)
      split
      · next e => subst e; exact (List.mem_erase_of_ne hkj).mpr hr
      · exact hr
    · simp only [Option.some.injEq] at hs; subst hs; exact hr
    · simp only [Option.some.injEq] at hs
      subst hs
      show k ∈ (if r = _ then _ else s.readers r)
      split
      · next e => subst e; exact (List.mem_erase_of_ne hkj).mpr hr
      · exact hr
    · simp only [Option.some.injEq] at hs; subst hs; exact hr
    · cases hs
    · cases hs
    · split at hs
      · simp only [Option.some.injEq] at hs; subst hs; exact hr
      · cases hs
    · simp only [Option.some.injEq] at hs; subst hs; exact hr

/-- C104. In any state, an encoder that comes to a `Mutex` which it is inside of stays there under
every schedule: the call of `encode` never returns. -/
theorem C104_false_stuck (joins : Locks → Nat → Bool) (s : Locks) (k r : Nat) (g : EncErr → EncErr)
    (c : List Piece) (held : List Frame) (hm : s.kind r = .mutex)
    (ht : s.thread k = .encoding (.lock r g :: c) held) (hr : k ∈ s.readers r) (ks : List Nat) :
    (s.run joins ks).thread k = .encoding (.lock r g :: c) held := by
  induction ks generalizing s with
  | nil => exact ht
  | cons j ks ih =>
    show (((s.step joins j).getD s).run joins ks).thread k = _
    cases hs : s.step joins j with
    | none => exact ih s hm ht hr
    | some s' =>
      obtain ⟨h1, h2, h3⟩ := stuck_step hm ht hr hs
      exact ih s' h1 h2 h3

/-- Readers wait if the thread `1` waits to write. -/
def writersFirst (s : Locks) (r : Nat) : Bool :=
  match s.thread 1 with
  | .updating false ((r', _) :: _) => r' ≠ r
  | _ => true

/-- The thread `0` encodes, and the thread `1` makes an update. -/
def contest (c : List Piece) (u : Nat × List Piece) : Nat → Thread
  | 0 => .encoding c []
  | 1 => .updating false [u]
  | _ + 2 => .updating false []

/-- C104 is false of an `RwLock` that contains itself, if writers go first: the encoder waits for the
writer, and the writer for the encoder. -/
theorem C104_false_writer (g : EncErr → EncErr) (c c' : List Piece) (output : Nat → Output) :
    Deadlock writersFirst ((Locks.start (fun _ => .rwLock) (fun _ => .lock 0 g :: c)
      (contest [.lock 0 g] (0, c')) output).run writersFirst [0]) := by
  refine ⟨⟨0, fun h => h⟩, fun k => ?_⟩
  match k with
  | 0 => rfl
  | 1 => rfl
  | k + 2 => rfl

/-! ## C105 -/

/-- C105, as far as it holds. As long as no lock contains itself, there is a number of steps that no
schedule of `n` threads exceeds. Missing: locks that contain themselves, see `C105_false_endless`. -/
theorem C105_ends_partial (joins : Locks → Nat → Bool) (kind : Nat → LockKind)
    (content : Nat → List Piece) (thread : Nat → Thread) (output : Nat → Output) (rank : Nat → Nat)
    (hl : Layered rank content thread) (hf : ∀ k, Fresh (thread k)) (b : Nat)
    (hb : Bounded b content thread) (n : Nat) :
    ∃ steps, ∀ ks : List Nat, (∀ k ∈ ks, k < n) →
      (Locks.start kind content thread output).made joins ks ≤ steps :=
  ⟨_, fun ks hk => Locks.made_le (Locks.start_inv hl hf) ⟨hb.1, hb.2⟩ ks hk⟩

/-- C105. When nobody can make a further step, all threads are over, as long as no lock contains
itself. -/
theorem C105_over_partial (joins : Locks → Nat → Bool) (kind : Nat → LockKind)
    (content : Nat → List Piece) (thread : Nat → Thread) (output : Nat → Output) (rank : Nat → Nat)
    (hl : Layered rank content thread) (hf : ∀ k, Fresh (thread k)) (ks : List Nat)
    (hn : ∀ k, ((Locks.start kind content thread output).run joins ks).step joins k = none) (k : Nat) :
    Over (((Locks.start kind content thread output).run joins ks).thread k) := by
  apply Classical.byContradiction
  intro h
  exact C104_no_deadlock_partial joins kind content thread output rank hl hf ks ⟨⟨k, h⟩, hn⟩

/-- C105. Whatever has happened so far, all of `n` threads can be brought to their end, as long as no lock
contains itself. -/
theorem C105_finishes_partial (joins : Locks → Nat → Bool) (kind : Nat → LockKind)
    (content : Nat → List Piece) (thread : Nat → Thread) (output : Nat → Output) (rank : Nat → Nat)
    (hl : Layered rank content thread) (hf : ∀ k, Fresh (thread k)) (b : Nat)
    (hb : Bounded b content thread) (n : Nat) (hn : ∀ k, n ≤ k → Over (thread k)) (ks : List Nat) :
    ∃ ks', ∀ k, Over (((Locks.start kind content thread output).run joins (ks ++ ks')).thread k) := by
  have hi : (Locks.start kind content thread output).Inv rank := Locks.start_inv hl hf
  have hs : (Locks.start kind content thread output).Short b := ⟨hb.1, hb.2⟩
  obtain ⟨ks', h⟩ := Locks.finishes (joins := joins) (n := n) _ _ rfl (hi.run (joins := joins) ks)
    (hs.run hi ks) (fun k hk => Locks.run_over ks hi (hn k hk))
  exact ⟨ks', fun k => by rw [Locks.run_append]; exact h k⟩

/-- A mutex, which a thread encodes and another one updates. -/
example : Layered (fun _ => 0) (fun _ => [octetPiece 0#8]) (contest [.lock 0 id] (0, [octetPiece 1#8])) ∧
    Bounded 1 (fun _ => [octetPiece 0#8]) (contest [.lock 0 id] (0, [octetPiece 1#8])) ∧
    (∀ k, Fresh (contest [.lock 0 id] (0, [octetPiece 1#8]) k)) ∧
    ∀ k, 2 ≤ k → Over (contest [.lock 0 id] (0, [octetPiece 1#8]) k) := by
  have hu : ∀ k guarded us, contest [.lock 0 id] (0, [octetPiece 1#8]) k = .updating guarded us →
      ∀ r c, (r, c) ∈ us → c = [octetPiece 1#8] := by
    intro k g us h r c hc
    match k, h with
    | 0, h => cases h
    | 1, h =>
      cases h
      simp only [List.mem_singleton, Prod.mk.injEq] at hc
      exact hc.2
    | k + 2, h => cases h; cases hc
  refine ⟨⟨fun r r' g h => ?_, fun k g us h r c hc => ?_⟩, ⟨fun _ => Nat.le_refl _, fun k g us h r c hc => ?_⟩,
    fun k => ?_, fun k hk => ?_⟩
  · simp [octetPiece] at h
  · rw [hu k g us h r c hc]
    intro r' g h
    simp [octetPiece] at h
  · rw [hu k g us h r c hc]
    exact Nat.le_refl _
  · match k with
    | 0 => rfl
    | 1 => rfl
    | k + 2 => rfl
  · match k, hk with
    | k + 2, _ => rfl

/-- The content never changes if nobody makes updates. -/
theorem step_content {joins : Locks → Nat → Bool} {s s' : Locks} {k : Nat}
    (h : ∀ k guarded us, s.thread k = .updating guarded us → us = [])
    (hs : s.step joins k = some s') :
    s'.content = s.content ∧ ∀ k guarded us, s'.thread k = .updating guarded us → us = [] := by
  have key : s'.content = s.content ∧ ∀ g us, s'.thread k = .updating g us → us = [] := by
    have hgo : ∀ (u : Locks) (th : Thread), (u.goto k th).thread k = th := fun u th => if_pos rfl
    unfold Locks.step at hs
    split at hs
    · simp only at hs
      split at hs
      all_goals
        simp only [Option.some.injEq] at hs
        subst hs
        refine ⟨rfl, fun g us h => ?_⟩
        rw [hgo] at h
        cases h
    · split at hs
      · simp only [Option.some.injEq] at hs
        subst hs
        refine ⟨rfl, fun g us h => ?_⟩
        rw [hgo] at h
        cases h
      · cases hs
    · simp only [Option.some.injEq] at hs; subst hs; exact ⟨rfl, fun g us h => by rw [hgo] at h; cases h⟩
    · simp only [Option.some.injEq] at hs; subst hs; exact ⟨rfl, fun g us h => by rw [hgo] at h; cases h⟩
    · simp only [Option.some.injEq] at hs; subst hs; exact ⟨rfl, fun g us h => by rw [hgo] at h; cases h⟩
    · simp only [Option.some.injEq] at hs; subst hs; exact ⟨rfl, fun g us h => by rw [hgo] at h; cases h⟩
    · cases hs
    · cases hs
    · next e => exact absurd (h k _ _ e) (List.cons_ne_nil _ _)
    · next e => exact absurd (h k _ _ e) (List.cons_ne_nil _ _)
  refine ⟨key.1, fun k' g us hu => ?_⟩
  by_cases e : k' = k
  · subst e; exact key.2 g us hu
  · rw [(Locks.step_other hs e).1] at hu
    exact h k' g us hu

theorem run_content {joins : Locks → Nat → Bool} (ks : List Nat) : ∀ {s : Locks},
    (∀ k guarded us, s.thread k = .updating guarded us → us = []) →
      (s.run joins ks).content = s.content := by
  induction ks with
  | nil => exact fun _ => rfl
  | cons k ks ih =>
    intro s h
    show (((s.step joins k).getD s).run joins ks).content = _
    cases hs : s.step joins k with
    | none => exact ih h
    | some s' =>
      obtain ⟨h1, h2⟩ := step_content h hs
      exact (ih h2).trans h1

/-- C105. If nobody makes updates, an encoder that is over has done what it does if there are no other
threads and the contents stand where their locks do: with the same result and the same output. -/
theorem C105_result (joins : Locks → Nat → Bool) (kind : Nat → LockKind) (content : Nat → List Piece)
    (thread : Nat → Thread) (output : Nat → Output)
    (hu : ∀ k guarded us, thread k = .updating guarded us → us = [])
    (k : Nat) (c : List Piece) (hk : thread k = .encoding c []) (ks : List Nat) (r : Res EncErr Unit)
    (he : ((Locks.start kind content thread output).run joins ks).thread k = .ended r) :
    Passes content c (output k) r
      (((Locks.start kind content thread output).run joins ks).output k) := by
  have h := Locks.run_known (joins := joins) (s := Locks.start kind content thread output) hk ks
    ks.length (Nat.le_refl _)
  rw [List.take_length, he] at h
  refine Moments.passes h fun t => ?_
  exact run_content _ hu

example (joins : Locks → Nat → Bool) :
    ((Locks.start (fun _ => .mutex) (fun _ => [octetPiece 3#8]) (alone [.lock 0 id])
      (fun _ => Output.new [0])).run joins [0, 0, 0, 0]).thread 0 = .ended (.ok ()) := rfl

/-- C105. What the pieces of a lock amount to: if the contents amount to the encoder of a value, so does
the lock to that of a `Mutex` or `RwLock` of the value. -/
theorem C105_lock (content : Nat → List Piece) (kind : LockKind) (t : Ty) (v : t.Val) (r : Nat)
    (g : EncErr → EncErr) (poisoned : Bool) (h : Spells content (content r) (t.encode v)) :
    Spells content [.lock r g] (((Ty.lock kind t).encode ⟨poisoned, v⟩).mapErr g) := by
  intro o q o' hp
  show ((t.encode v o).1.mapErr g, (t.encode v o).2) = (q, o')
  cases hp with
  | lock h1 h2 => cases h2; rw [h _ _ _ h1]; rfl
  | lockFails h1 h2 => rw [h _ _ _ h1]

/-- C105. So do pieces that come one after the other amount to encoders that do. -/
theorem C105_then (content : Nat → List Piece) (c c' : List Piece) (m m' : Enc Unit)
    (h : Spells content c m) (h' : Spells content c' m') :
    Spells content (c ++ c') (do m; m') := by
  have key : ∀ c o r o2, Passes content (c ++ c') o r o2 →
      (∃ o1, Passes content c o (.ok ()) o1 ∧ Passes content c' o1 r o2) ∨
        (Passes content c o r o2 ∧ r ≠ .ok ()) := by
    intro c
    induction c with
    | nil => exact fun o r o2 h => .inl ⟨o, .nil, h⟩
    | cons p c ih =>
      intro o r o2 hp
      cases hp with
      | plain h1 h2 =>
        rcases ih _ _ _ h2 with ⟨o1, i1, i2⟩ | ⟨i1, i2⟩
        · exact .inl ⟨o1, .plain h1 i1, i2⟩
        · exact .inr ⟨.plain h1 i1, i2⟩
      | plainFails h1 h2 => exact .inr ⟨.plainFails h1 h2, h2⟩
      | lock h1 h2 =>
        rcases ih _ _ _ h2 with ⟨o1, i1, i2⟩ | ⟨i1, i2⟩
        · exact .inl ⟨o1, .lock h1 i1, i2⟩
        · exact .inr ⟨.lock h1 i1, i2⟩
      | lockFails h1 h2 => exact .inr ⟨.lockFails h1 h2, mapErr_ne_ok h2⟩
  intro o r o' hp
  show Enc.bind m (fun _ => m') o = _
  unfold Enc.bind
  rcases key _ _ _ _ hp with ⟨o1, i1, i2⟩ | ⟨i1, i2⟩
  · rw [h _ _ _ i1]
    exact h' _ _ _ i2
  · rw [h _ _ _ i1]
    cases r with
    | ok u => exact absurd rfl i2
    | err e => rfl
    | panic p => rfl
    | ub u => rfl

/-- C105. What has no locks amounts to itself. -/
theorem C105_plain (content : Nat → List Piece) (m : Enc Unit) : Spells content [.plain m] m := by
  intro o r o' hp
  cases hp with
  | plain h1 h2 => cases h2; exact h1
  | plainFails h1 h2 => exact h1

/-- C105. And nothing to nothing. -/
theorem C105_nothing (content : Nat → List Piece) : Spells content [] (pure ()) := by
  intro o r o' hp
  cases hp
  rfl

/-- A mutex of a mutex of an octetPiece and an octet: the pieces amount to the encoder of the whole. -/
example : Spells (fun r => if r = 0 then [.lock 1 id, .plain (((Ty.num (.int .u8)).encode (5#8 : BitVec 8)).mapErr id)]
      else [octetPiece 7#8]) [.lock 0 id]
    (((Ty.lock .mutex (.tuple (.cons (.lock .mutex (.num (.int .u8))) (.cons (.num (.int .u8)) .nil)))).encode
      ⟨false, ⟨false, (7#8 : BitVec 8)⟩, (5#8 : BitVec 8), ()⟩).mapErr id) :=
  C105_lock _ .mutex _ _ 0 id false
    (C105_then _ [_] [_] _ _ (C105_lock _ .mutex (.num (.int .u8)) (7#8 : BitVec 8) 1 id false (C105_plain _ _))
      (C105_then _ [_] [] _ _ (C105_plain _ _) (C105_nothing _)))

/-- C105 is false of an `RwLock` that contains itself: the encoder goes on forever (until the stack is
used up), whatever the number of steps. -/
theorem C105_false_endless (g : EncErr → EncErr) (c : List Piece) (output : Nat → Output) (n : Nat) :
    (Locks.start (fun _ => .rwLock) (fun _ => .lock 0 g :: c) (alone [.lock 0 g]) output).made
      (fun _ _ => true) (List.replicate n 0) = n := by
  have key : ∀ n (s : Locks) c' held, s.thread 0 = .encoding (.lock 0 g :: c') held → s.writer 0 = none →
      s.kind 0 = .rwLock → s.content 0 = .lock 0 g :: c →
      s.made (fun _ _ => true) (List.replicate n 0) = n := by
    intro n
    induction n with
    | zero => exact fun _ _ _ _ _ _ _ => rfl
    | succ n ih =>
      intro s c' held h1 h2 h3 h4
      have hl : s.lets (fun _ _ => true) 0 = true := by
        unfold Locks.lets
        rw [h3]
        simp [h2]
      have hs : s.step (fun _ _ => true) 0
          = some ((s.take 0 0).goto 0 (.encoding (s.content 0) (⟨0, g, c'⟩ :: held))) := by
        unfold Locks.step
        rw [h1]
        simp only [hl, if_true]
      show (if (s.step (fun _ _ => true) 0).isSome then 1 else 0)
        + ((s.step (fun _ _ => true) 0).getD s).made (fun _ _ => true) (List.replicate n 0) = n + 1
      rw [hs]
      simp only [Option.isSome_some, if_true, Option.getD_some]
      have := ih ((s.take 0 0).goto 0 (.encoding (s.content 0) (⟨0, g, c'⟩ :: held))) c
        (⟨0, g, c'⟩ :: held) (by rw [Locks.goto_self, h4]) h2 h3 h4
      omega
  exact key n _ [] [] rfl rfl rfl rfl

/-! ## C106 -/

/-- C106, as far as it holds. However threads update the locks meanwhile, each lock is encoded as it was at
one moment of the schedule, and these moments come one after the other. Missing: that it is one and the
same moment, see `C106_false_mixture`. -/
theorem C106_moments_partial (joins : Locks → Nat → Bool) (kind : Nat → LockKind)
    (content : Nat → List Piece) (thread : Nat → Thread) (output : Nat → Output)
    (k : Nat) (c : List Piece) (hk : thread k = .encoding c []) (ks : List Nat) (r : Res EncErr Unit)
    (he : ((Locks.start kind content thread output).run joins ks).thread k = .ended r) :
    Moments (fun t => ((Locks.start kind content thread output).run joins (ks.take t)).content) 0 c
      (output k) r (((Locks.start kind content thread output).run joins ks).output k) ks.length := by
  have h := Locks.run_known (joins := joins) (s := Locks.start kind content thread output) hk ks
    ks.length (Nat.le_refl _)
  rw [List.take_length, he] at h
  exact h

/-- What is in the locks is among what was there at first and what updates bring. -/
theorem step_among {P : List Piece → Prop} {joins : Locks → Nat → Bool} {s s' : Locks} {k : Nat}
    (hc : ∀ r, P (s.content r))
    (hu : ∀ k guarded us, s.thread k = .updating guarded us → ∀ r c, (r, c) ∈ us → P c)
    (hs : s.step joins k = some s') :
    (∀ r, P (s'.content r)) ∧
      ∀ k guarded us, s'.thread k = .updating guarded us → ∀ r c, (r, c) ∈ us → P c := by
  have key : (∀ r, P (s'.content r)) ∧
      ∀ g us, s'.thread k = .updating g us → ∀ r c, (r, c) ∈ us → P c := by
    unfold Locks.step at hs
    split at hs
    · simp only at hs
      split at hs
      all_goals
        simp only [Option.some.injEq] at hs
        subst hs
        refine ⟨hc, fun g us h => ?_⟩
        rw [Locks.goto_self] at h
        cases h
    · split at hs
      · simp only [Option.some.injEq] at hs
        subst hs
        refine ⟨hc, fun g us h => ?_⟩
        rw [Locks.goto_self] at h
        cases h
      · cases hs
    · simp only [Option.some.injEq] at hs; subst hs
      exact ⟨hc, fun g us h => by rw [Locks.goto_self] at h; cases h⟩
    · simp only [Option.some.injEq] at hs; subst hs
      exact ⟨hc, fun g us h => by rw [Locks.goto_self] at h; cases h⟩
    · simp only [Option.some.injEq] at hs; subst hs
      exact ⟨hc, fun g us h => by rw [Locks.goto_self] at h; cases h⟩
    · simp only [Option.some.injEq] at hs; subst hs
      exact ⟨hc, fun g us h => by rw [Locks.goto_self] at h; cases h⟩
    · cases hs
    · cases hs
    · next e =>
      split at hs
      · simp only [Option.some.injEq] at hs; subst hs
        refine ⟨hc, fun g us h => ?_⟩
        rw [Locks.goto_self] at h
        cases h
        exact hu k _ _ e
      · cases hs
    · next r c us e =>
      simp only [Option.some.injEq] at hs; subst hs
      refine ⟨fun r' => ?_, fun g us h => ?_⟩
      · show P (if r' = r then c else s.content r')
        split
        · exact hu k _ _ e r c (List.mem_cons_self ..)
        · exact hc r'
      · rw [Locks.goto_self] at h
        cases h
        exact fun r' c' h' => hu k _ _ e r' c' (List.mem_cons_of_mem _ h')
  refine ⟨key.1, fun k' g us h => ?_⟩
  by_cases e : k' = k
  · subst e; exact key.2 g us h
  · rw [(Locks.step_other hs e).1] at h
    exact hu k' g us h

theorem run_among {P : List Piece → Prop} {joins : Locks → Nat → Bool} (ks : List Nat) :
    ∀ {s : Locks}, (∀ r, P (s.content r)) →
      (∀ k guarded us, s.thread k = .updating guarded us → ∀ r c, (r, c) ∈ us → P c) →
      ∀ r, P ((s.run joins ks).content r) := by
  induction ks with
  | nil => exact fun hc _ => hc
  | cons k ks ih =>
    intro s hc hu
    show ∀ r, P ((((s.step joins k).getD s).run joins ks).content r)
    cases hs : s.step joins k with
    | none => exact ih hc hu
    | some s' =>
      obtain ⟨h1, h2⟩ := step_among hc hu hs
      exact ih h1 h2

/-- A mutex with an octet, which is `0` at first. The thread `0` encodes a pair of two references to it,
and the thread `1` makes the octet `1`. -/
def pair : Locks := Locks.start (fun _ => .mutex) (fun _ => [octetPiece 0#8])
  (contest [.lock 0 id, .lock 0 id] (0, [octetPiece 1#8])) (fun _ => Output.new [0, 0])

/-- The thread `0` encodes the mutex once, then the thread `1` updates it, then the thread `0` encodes it
once more. -/
def mixture : List Nat := [0, 0, 0, 1, 1, 0, 0, 0, 0]

theorem pair_passes {C : Nat → List Piece} {a : BitVec 8} (ha : C 0 = [octetPiece a])
    {o o' : Output} {r : Res EncErr Unit} (h : Passes C [.lock 0 id, .lock 0 id] o r o') :
    Enc.bind (((Ty.lock .mutex (.num (.int .u8))).encode ⟨false, a⟩).mapErr id) (fun _ =>
      ((Ty.lock .mutex (.num (.int .u8))).encode ⟨false, a⟩).mapErr id) o = (r, o') :=
  C105_then C [.lock 0 id] [.lock 0 id] _ _
    (C105_lock C .mutex (.num (.int .u8)) a 0 id false (by rw [ha]; exact C105_plain _ _))
    (C105_lock C .mutex (.num (.int .u8)) a 0 id false (by rw [ha]; exact C105_plain _ _)) o r o' h

theorem pair_never {C : Nat → List Piece} {a : BitVec 8} (ha : C 0 = [octetPiece a]) (h01 : a = 0#8 ∨ a = 1#8)
    {o' : Output} (h : Passes C [.lock 0 id, .lock 0 id] (Output.new [0, 0]) (.ok ()) o') :
    o'.asSlice ≠ [0, 1] := by
  have h3 := congrArg (fun x => x.2.asSlice) (pair_passes ha h)
  intro h4
  rcases h01 with rfl | rfl
  · exact absurd (h3.trans h4) (by decide)
  · exact absurd (h3.trans h4) (by decide)

/-- Whom the system lets in first makes no difference to mutexes. -/
theorem run_mutex {joins joins' : Locks → Nat → Bool} (ks : List Nat) : ∀ {s : Locks},
    (∀ r, s.kind r = .mutex) → s.run joins ks = s.run joins' ks := by
  induction ks with
  | nil => exact fun _ => rfl
  | cons k ks ih =>
    intro s h
    have hl : s.lets joins = s.lets joins' := by
      funext r
      unfold Locks.lets
      rw [h r]
    have hs : s.step joins k = s.step joins' k := by
      unfold Locks.step
      rw [hl]
    show ((s.step joins k).getD s).run joins ks = ((s.step joins' k).getD s).run joins' ks
    rw [hs]
    cases hs' : s.step joins' k with
    | none => exact ih h
    | some s' => exact ih (s := s') (fun r => by rw [step_kind hs']; exact h r)

/-- C106 is false, even of two references to one lock: what is encoded may be a mixture of old and new
that encoding gives at no moment of the schedule. -/
theorem C106_false_mixture (joins : Locks → Nat → Bool) :
    (pair.run joins mixture).thread 0 = .ended (.ok ()) ∧
    ((pair.run joins mixture).output 0).asSlice = [0, 1] ∧
    ∀ ks, ¬Passes (pair.run joins ks).content [.lock 0 id, .lock 0 id] (pair.output 0)
      (.ok ()) ((pair.run joins mixture).output 0) := by
  have hout : ((pair.run joins mixture).output 0).asSlice = [0, 1] := by
    rw [run_mutex (joins' := fun _ _ => true) mixture (fun _ => rfl)]
    decide +kernel
  refine ⟨rfl, hout, ?_⟩
  intro ks h
  have key := run_among (P := fun c => c = [octetPiece 0#8] ∨ c = [octetPiece 1#8]) (joins := joins) ks
    (s := pair) (fun _ => .inl rfl) (by
      intro k g us h r c hc
      match k, h with
      | 0, h => cases h
      | 1, h =>
        cases h
        simp only [List.mem_singleton, Prod.mk.injEq] at hc
        exact .inr hc.2
      | k + 2, h => cases h; cases hc) 0
  rcases key with ha | ha
  · exact pair_never ha (.inl rfl) h hout
  · exact pair_never ha (.inr rfl) h hout

/-- C106. What is in a lock stays the same as long as a thread is inside it: nobody else writes to it
or replaces it. -/
theorem C106_steady (joins : Locks → Nat → Bool) (kind : Nat → LockKind) (content : Nat → List Piece)
    (thread : Nat → Thread) (output : Nat → Output) (hf : ∀ k, Fresh (thread k)) (ks : List Nat)
    (k r : Nat) (hi : Inside r (((Locks.start kind content thread output).run joins ks).thread k)) :
    (∀ j, ¬Writing r (((Locks.start kind content thread output).run joins ks).thread j)) ∧
    ∀ j s', ((Locks.start kind content thread output).run joins ks).step joins j = some s' →
      s'.content r = ((Locks.start kind content thread output).run joins ks).content r := by
  have h : ((Locks.start kind content thread output).run joins ks).Excl :=
    (Locks.start_excl hf).run ks
  refine ⟨fun j hj => ?_, fun j s' hs => h.steady (h.inside hi) hs⟩
  have h1 := h.inside hi
  rw [h.alone r j (h.writing hj)] at h1
  cases h1

/-- C106. Of two threads, one at most is inside a mutex or writes to it; and two threads never write
to the same lock. -/
theorem C106_exclusive (joins : Locks → Nat → Bool) (kind : Nat → LockKind) (content : Nat → List Piece)
    (thread : Nat → Thread) (output : Nat → Output) (hf : ∀ k, Fresh (thread k)) (ks : List Nat)
    (k j r : Nat) (hkj : k ≠ j) :
    (((Locks.start kind content thread output).run joins ks).kind r = .mutex →
      Inside r (((Locks.start kind content thread output).run joins ks).thread k) →
      ¬Inside r (((Locks.start kind content thread output).run joins ks).thread j)) ∧
    (Writing r (((Locks.start kind content thread output).run joins ks).thread k) →
      ¬Writing r (((Locks.start kind content thread output).run joins ks).thread j)) := by
  have h : ((Locks.start kind content thread output).run joins ks).Excl :=
    (Locks.start_excl hf).run ks
  refine ⟨fun hm hk hj => ?_, fun hk hj => ?_⟩
  · have h1 := h.inside hk
    have h2 := h.inside hj
    have h3 := h.single r hm
    revert h1 h2 h3
    generalize ((Locks.start kind content thread output).run joins ks).readers r = l
    intro h1 h2 h3
    match l, h1, h2, h3 with
    | [a], h1, h2, _ =>
      rw [List.mem_singleton] at h1 h2
      exact hkj (h1.trans h2.symm)
    | _ :: _ :: _, _, _, h3 => exact absurd h3 (by simp)
  · have h1 := h.writing hk
    rw [h.writing hj] at h1
    cases h1
    exact hkj rfl

/-- An encoder inside a lock, and a thread that is to write to it. -/
example : Inside 0 (((Locks.start (fun _ => .rwLock) (fun _ => [octetPiece 7#8])
      (contest [.lock 0 id] (0, [])) (fun _ => Output.new [])).run (fun _ _ => true) [0, 1]).thread 0) ∧
    ¬Writing 0 (((Locks.start (fun _ => .rwLock) (fun _ => [octetPiece 7#8])
      (contest [.lock 0 id] (0, [])) (fun _ => Output.new [])).run (fun _ _ => true) [0, 1]).thread 1) ∧
    Writing 0 (((Locks.start (fun _ => .rwLock) (fun _ => [octetPiece 7#8])
      (contest [.lock 0 id] (0, [])) (fun _ => Output.new [])).run (fun _ _ => true) [1, 0]).thread 1) :=
  ⟨⟨_, List.mem_cons_self .., rfl⟩, fun h => h, rfl⟩

end Oct.Props
