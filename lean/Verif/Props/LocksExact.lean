import Verif.Proofs.LocksExact
import Verif.Props.Locks
/-
C104 and C105, exactly: deadlocks and encoders without end come from locks that contain themselves.
-/
namespace Oct.Props
open Oct Spec

private theorem alone_start (content : Nat → List Piece) (c : List Piece) (output : Nat → Output) :
    (Locks.start (fun _ => .mutex) content (alone c) output).Alone content c [] (output 0) :=
  ⟨rfl, rfl, rfl, fun _ => rfl, rfl, fun _ => rfl, rfl⟩

/-- C104. Whatever the system does: an encoder of a `Mutex` that contains itself, directly or not, waits for
itself in the end, even if it is alone, unless the output is too short to get there. -/
theorem C104_false_cycle (joins : Locks → Nat → Bool) (N : Nat) (content : Nat → List Piece)
    (hN : OnlyLocks N content) (hf : ∀ r, ∀ p ∈ content r, PieceFits p) (r : Nat) (g : EncErr → EncErr)
    (hr : ContainsItself content r) :
    ∃ L, ∀ output : Nat → Output, (output 0).position ≤ (output 0).capacity → L ≤ (output 0).remaining →
      ∃ ks, Deadlock joins
        ((Locks.start (fun _ => .mutex) content (alone [.lock r g]) output).run joins ks) := by
  have hlt : r < N := by
    cases hr with
    | single h => exact hN.2 _ _ h
    | tail _ h => exact hN.2 _ _ h
  obtain ⟨L, hL⟩ := Locks.Alone.progress (joins := joins) hN hf N [] List.nodup_nil (fun _ h => nomatch h)
    (Nat.le_add_left _ _) [.lock r g] (fun r' g' h => by cases h with | head => exact hlt | tail _ h => cases h)
    (fun p h => by cases h with | head => exact trivial | tail _ h => cases h)
  refine ⟨L, fun output ho hl => ?_⟩
  obtain ⟨ks, h | ⟨o', h, _, _⟩⟩ := hL _ _ (alone_start content _ output) ho hl
  · exact ⟨ks, h⟩
  · exfalso
    have he : ((Locks.start (fun _ => .mutex) content (alone [.lock r g]) output).run joins (ks ++ [0])).thread 0
        = .ended (.ok ()) := by
      rw [Locks.run_append]
      show (((Locks.step joins _ 0).getD _)).thread 0 = _
      unfold Locks.step
      rw [h.thread]
      rfl
    have hp := C105_result joins _ content (alone [.lock r g]) output
      (fun k gd us e => by cases k with | zero => cases e | succ k => cases e; rfl) 0 _ rfl _ _ he
    exact not_itself_of_acc (Passes.acc hp rfl r g (.head _)) hr

/-- C104. Exactly: encoders of mutexes are free of deadlocks, however many there are, whatever they encode and
however they are scheduled, if and only if no mutex contains itself, directly or not. -/
theorem C104_exactly (joins : Locks → Nat → Bool) (N : Nat) (content : Nat → List Piece)
    (hN : OnlyLocks N content) (hf : ∀ r, ∀ p ∈ content r, PieceFits p) :
    (∀ thread output, Encoders thread → ∀ ks,
      ¬ Deadlock joins ((Locks.start (fun _ => .mutex) content thread output).run joins ks)) ↔
      ∀ r, ¬ ContainsItself content r := by
  constructor
  · intro h r hr
    obtain ⟨L, hL⟩ := C104_false_cycle joins N content hN hf r id hr
    obtain ⟨ks, hk⟩ := hL (fun _ => Output.new (List.replicate L 0)) (Nat.zero_le _)
      (by simp [Output.new, Output.remaining, Output.capacity, Output.position])
    refine h _ _ (fun k => ?_) ks hk
    cases k with
    | zero => exact .inl ⟨_, rfl⟩
    | succ k => exact .inr rfl
  · intro h thread output he ks
    obtain ⟨rank, hr⟩ := exists_rank hN h
    refine C104_no_deadlock_partial joins _ content thread output rank ⟨hr, fun k gd us e => ?_⟩ (fun k => ?_) ks
    · rcases he k with ⟨c, hc⟩ | hc <;> (rw [hc] at e; cases e)
      exact fun _ _ h => nomatch h
    · rcases he k with ⟨c, hc⟩ | hc <;> rw [hc] <;> rfl

/-- C105. Exactly: an encoder of each lock, of either kind, comes to its end with success if the output is long
enough, if and only if no lock contains itself, directly or not. -/
theorem C105_exactly (joins : Locks → Nat → Bool) (kind : Nat → LockKind) (N : Nat) (content : Nat → List Piece)
    (hN : OnlyLocks N content) (hf : ∀ r, ∀ p ∈ content r, PieceFits p) :
    (∀ r, ∃ L, ∀ output : Nat → Output, (output 0).position ≤ (output 0).capacity → L ≤ (output 0).remaining →
      ∃ ks, ((Locks.start kind content (alone [.lock r id]) output).run joins ks).thread 0 = .ended (.ok ())) ↔
      ∀ r, ¬ ContainsItself content r := by
  have hu : ∀ c k gd us, alone c k = .updating gd us → us = [] := fun c k gd us e => by
    cases k with
    | zero => cases e
    | succ k => cases e; rfl
  constructor
  · intro h r
    obtain ⟨L, hL⟩ := h r
    obtain ⟨ks, he⟩ := hL (fun _ => Output.new (List.replicate L 0)) (Nat.zero_le _)
      (by simp [Output.new, Output.remaining, Output.capacity, Output.position])
    have hp := C105_result joins kind content (alone [.lock r id]) _ (hu _) 0 _ rfl ks _ he
    exact not_itself_of_acc (Passes.acc hp rfl r id (.head _))
  · intro h r
    obtain ⟨rank, hr⟩ := exists_rank hN h
    obtain ⟨b, hb⟩ := length_bound hN
    obtain ⟨L, hL⟩ := exists_passes hf rank hr (rank r + 1) [.lock r id]
      (fun r' g' h => by cases h with | head => exact Nat.lt_succ_self _ | tail _ h => cases h)
      (fun p h => by cases h with | head => exact trivial | tail _ h => cases h)
    refine ⟨L, fun output ho hl => ?_⟩
    obtain ⟨ks, hk⟩ := C105_finishes_partial joins kind content (alone [.lock r id]) output rank
      ⟨hr, fun k gd us e => by rw [hu _ k gd us e]; exact fun _ _ h => nomatch h⟩
      (fun k => by cases k <;> rfl) b ⟨hb, fun k gd us e => by rw [hu _ k gd us e]; exact fun _ _ h => nomatch h⟩
      1 (fun k hk => by cases k with | zero => omega | succ k => rfl) []
    rw [List.nil_append] at hk
    refine ⟨ks, ?_⟩
    have hk := hk 0
    have hn := Locks.run_known (joins := joins) (s := Locks.start kind content (alone [.lock r id]) output)
      (k := 0) rfl ks ks.length (Nat.le_refl _)
    rw [List.take_length] at hn
    cases ht : ((Locks.start kind content (alone [.lock r id]) output).run joins ks).thread 0 with
    | encoding c held => rw [ht] at hk; exact hk.elim
    | failing q held => rw [ht] at hk; exact hk.elim
    | updating gd us => rw [ht] at hn; exact hn.elim
    | ended q =>
      have hp := C105_result joins kind content (alone [.lock r id]) output (hu _) 0 _ rfl ks q ht
      obtain ⟨o', h1, _⟩ := hL (output 0) ho hl
      rw [(Passes.unique hp h1).1]

/-- C105. What has an encoding fits, such as the values without locks of the types of the other claims, whatever
is done with errors. -/
theorem C105_fits (t : Ty) (v : t.Val) (h : Encodable t v) :
    PieceFits (.plain (t.encode v)) ∧ ∀ g, PieceFits (.plain ((t.encode v).mapErr g)) := by
  have key : ∀ o : Output, o.position ≤ o.capacity → (wire t v).length ≤ o.remaining →
      t.encode v o = (.ok (), o.put (wire t v)) ∧ (o.put (wire t v)).position ≤ (o.put (wire t v)).capacity ∧
        o.remaining ≤ (o.put (wire t v)).remaining + (wire t v).length := by
    intro o ho hl
    refine ⟨(((Ty.encode_encodes t v).emits h) o ho).1 hl, Output.WF.put ho hl, ?_⟩
    have := Output.remaining_put ho hl
    omega
  refine ⟨⟨_, fun o ho hl => ⟨_, key o ho hl⟩⟩, fun g => ⟨_, fun o ho hl => ⟨_, ?_, (key o ho hl).2⟩⟩⟩
  show (((t.encode v o).1).mapErr g, (t.encode v o).2) = _
  rw [(key o ho hl).1]
  rfl

/-- A mutex `0` that contains the mutex `1`, which contains the mutex `0` again if the ring is closed. -/
private abbrev ring (closed : Bool) (r : Nat) : List Piece :=
  if r = 0 then [octetPiece 1#8, .lock 1 id]
  else if r = 1 then octetPiece 2#8 :: (if closed then [.lock 0 id] else []) else []

private theorem ring_fits (closed : Bool) : ∀ r, ∀ p ∈ ring closed r, PieceFits p := by
  intro r p hp
  have octet : ∀ b : BitVec 8, PieceFits (octetPiece b) := fun b => (C105_fits (.num (.int .u8)) b trivial).1
  cases closed <;> simp only [ring] at hp <;> split at hp
  all_goals try split at hp
  all_goals simp at hp
  all_goals rcases hp with rfl | rfl
  all_goals first | exact octet _ | exact trivial

private theorem ring_contains {closed : Bool} {q r : Nat} (h : Contains (ring closed) q r) :
    q = 0 ∧ r = 1 ∨ q = 1 ∧ r = 0 ∧ closed = true := by
  obtain ⟨g, hg⟩ := h
  cases closed <;> simp only [ring] at hg <;> split at hg
  all_goals try split at hg
  all_goals simp [octetPiece] at hg
  all_goals simp_all

private theorem ring_only (closed : Bool) : OnlyLocks 2 (ring closed) := by
  refine ⟨fun r hr => ?_, fun q r h => ?_⟩
  · simp only [ring]
    rw [if_neg (by omega), if_neg (by omega)]
  · rcases ring_contains h with h | h <;> omega

private theorem ring_closed : ContainsItself (ring true) 0 :=
  .tail (.single ⟨id, .tail _ (.head _)⟩) (b := 1) ⟨id, .tail _ (.head _)⟩

private theorem ring_open (r : Nat) : ¬ ContainsItself (ring false) r := by
  suffices ∀ a b, Relation.TransGen (Contains (ring false)) a b → a = 0 ∧ b = 1 from fun h => by
    have := this _ _ h
    omega
  intro a b h
  induction h with
  | single h =>
    rcases ring_contains h with h | ⟨_, _, h⟩
    · exact h
    · cases h
  | tail _ h ih =>
    rcases ring_contains h with h | ⟨_, _, h⟩
    · omega
    · cases h

/-- Whoever encodes the closed ring waits for itself, if the output is long enough. -/
example (joins : Locks → Nat → Bool) : ∃ L, ∀ output : Nat → Output,
    (output 0).position ≤ (output 0).capacity → L ≤ (output 0).remaining → ∃ ks, Deadlock joins
      ((Locks.start (fun _ => .mutex) (ring true) (alone [.lock 0 id]) output).run joins ks) :=
  C104_false_cycle joins 2 (ring true) (ring_only true) (ring_fits true) 0 id ring_closed

/-- The open ring is free of deadlocks. -/
example (joins : Locks → Nat → Bool) (thread : Nat → Thread) (output : Nat → Output) (h : Encoders thread)
    (ks : List Nat) :
    ¬ Deadlock joins ((Locks.start (fun _ => .mutex) (ring false) thread output).run joins ks) :=
  (C104_exactly joins 2 (ring false) (ring_only false) (ring_fits false)).mpr ring_open thread output h ks

/-- Of read-write locks, too, the encoder of the closed ring does not end well, however long the output. -/
example (joins : Locks → Nat → Bool) : ¬ ∀ r, ∃ L, ∀ output : Nat → Output,
    (output 0).position ≤ (output 0).capacity → L ≤ (output 0).remaining → ∃ ks,
      ((Locks.start (fun _ => .rwLock) (ring true) (alone [.lock r id]) output).run joins ks).thread 0
        = .ended (.ok ()) := fun h =>
  (C105_exactly joins _ 2 (ring true) (ring_only true) (ring_fits true)).mp h 0 ring_closed

end Oct.Props
