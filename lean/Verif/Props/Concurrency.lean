import Verif.Proofs.Poisoned
import Verif.Spec.Format
/-
C71, C72, C73, C74: encoding locks and atomics while other threads use them.
-/
namespace Oct.Props
open Oct Spec
set_option linter.unusedVariables false

/-- C71. However the threads are scheduled, and however the encoder of the contents is split into
steps, a thread that encodes a `Mutex` or `RwLock` ends as if it had encoded, in one go, the contents
of the lock at the moment at which it got its guard, when nobody was writing. -/
theorem C71_snapshot (kind : LockKind) (t : Ty) (part : Steps t.Val) (hp : Splits part t.encode)
    (v : t.Val) (outs : Nat → Output) (es : List (Event t.Val)) (k : Nat) (r : Res EncErr Unit)
    (h : ((Shared.start kind v outs).run part es).phase k = .finished r) :
    ∃ p q, es = p ++ .lock k :: q ∧
      ((Shared.start kind v outs).run part p).writer = none ∧
      ∀ poisoned, (Ty.lock kind t).encode ⟨poisoned, ((Shared.start kind v outs).run part p).val⟩
          (outs k)
        = (r, ((Shared.start kind v outs).run part es).output k) := by
  have hk := (Shared.run_inv (part := part) kind v outs es).known k
  unfold Shared.Known at hk
  rw [h] at hk
  obtain ⟨w, ⟨p, q, h1, h2, rfl⟩, h4⟩ := hk
  exact ⟨p, q, h1, h2, fun _ => hp _ _ _ _ h4⟩

/-- C71 for an array in a lock, which is encoded item by item. -/
theorem C71_array (kind : LockKind) (t : Ty) (n : Nat) (v : (Ty.array t n).Val)
    (outs : Nat → Output) (es : List (Event (Ty.array t n).Val)) (k : Nat) (r : Res EncErr Unit)
    (h : ((Shared.start kind v outs).run (arraySteps t n) es).phase k = .finished r) :
    ∃ p q, es = p ++ .lock k :: q ∧
      ((Shared.start kind v outs).run (arraySteps t n) p).writer = none ∧
      ∀ poisoned, (Ty.lock kind (.array t n)).encode
          ⟨poisoned, ((Shared.start kind v outs).run (arraySteps t n) p).val⟩ (outs k)
        = (r, ((Shared.start kind v outs).run (arraySteps t n) es).output k) :=
  C71_snapshot kind (.array t n) _ (arraySteps_splits t n) v outs es k r h

/-- C71 for a derived structure in a lock, which is encoded field by field. -/
theorem C71_fields (kind : LockKind) (fs : Fields) (v : (Ty.struct fs).Val)
    (outs : Nat → Output) (es : List (Event (Ty.struct fs).Val)) (k : Nat) (r : Res EncErr Unit)
    (h : ((Shared.start kind v outs).run (fieldSteps fs EncErr.toGeneric) es).phase k = .finished r) :
    ∃ p q, es = p ++ .lock k :: q ∧
      ((Shared.start kind v outs).run (fieldSteps fs EncErr.toGeneric) p).writer = none ∧
      ∀ poisoned, (Ty.lock kind (.struct fs)).encode
          ⟨poisoned, ((Shared.start kind v outs).run (fieldSteps fs EncErr.toGeneric) p).val⟩ (outs k)
        = (r, ((Shared.start kind v outs).run (fieldSteps fs EncErr.toGeneric) es).output k) :=
  C71_snapshot kind (.struct fs) _
    (fun v o r o' h => fieldSteps_runs fs EncErr.toGeneric v o o' r h) v outs es k r h

/-- A pair of octets in a lock. -/
abbrev octets : Ty := .array (.num (.int .u8)) 2

/-- The pair `[a, b]`. -/
def octets.mk (a b : BitVec 8) : octets.Val := ⟨[a, b], rfl⟩

/-- Replaces the first octet. -/
def setFirst (a : BitVec 8) (v : octets.Val) : octets.Val :=
  ⟨v.1.set 0 a, List.length_set.trans v.2⟩

/-- Replaces the second octet. -/
def setSecond (b : BitVec 8) (v : octets.Val) : octets.Val :=
  ⟨v.1.set 1 b, List.length_set.trans v.2⟩

/-- A thread writes `[7, 8]` octet by octet, between and during the steps of an encoder: the encoder
waits for it, then it waits for the encoder. -/
def duel : List (Event octets.Val) :=
  [.acquire 5, .store 5 (setFirst 7), .lock 0, .encode 0, .store 5 (setSecond 8), .release 5,
    .lock 0, .encode 0, .acquire 6, .store 6 (setSecond 9), .encode 0, .encode 0]

example : (((Shared.start .mutex (octets.mk 1 2) fun _ => Output.new [0, 0]).run
    (arraySteps _ _) duel).phase 0 = .finished (.ok ())) ∧
    (((Shared.start .mutex (octets.mk 1 2) fun _ => Output.new [0, 0]).run
    (arraySteps _ _) duel).output 0).asSlice = [7, 8] := ⟨rfl, rfl⟩

/-- C72 (part). If no thread panics while it writes, and every thread leaves the contents in order
when it drops its guard, what is encoded is in order: no half-made update is seen. Missing: threads
that panic, see `C72_panic_false`. -/
theorem C72_in_order_partial (kind : LockKind) (t : Ty) (part : Steps t.Val)
    (hp : Splits part t.encode) (P : t.Val → Prop) (v : t.Val) (hv : P v) (outs : Nat → Output)
    (es : List (Event t.Val)) (ht : Tidy P part (Shared.start kind v outs) es) (k : Nat)
    (r : Res EncErr Unit) (h : ((Shared.start kind v outs).run part es).phase k = .finished r) :
    ∃ x, P x ∧ ∀ poisoned, (Ty.lock kind t).encode ⟨poisoned, x⟩ (outs k)
      = (r, ((Shared.start kind v outs).run part es).output k) := by
  obtain ⟨p, q, he, h1, h2⟩ := C71_snapshot kind t part hp v outs es k r h
  refine ⟨_, Shared.tidy_val (part := part) (s := Shared.start kind v outs) hv p ?_ h1, h2⟩
  subst he
  refine ⟨fun w hm => ht.1 w (by simp [hm]), fun p' q' w he hw => ?_⟩
  exact ht.2 p' (q' ++ .lock k :: q) w (by rw [he]; simp) hw

/-- The duel is tidy if being in order is to be one of the pairs that are written. -/
example : ∃ x : octets.Val, (x = octets.mk 1 2 ∨ x = octets.mk 7 8) ∧
    ∀ poisoned, (Ty.lock .mutex octets).encode ⟨poisoned, x⟩ (Output.new [0, 0])
      = (.ok (), ⟨[7, 8], 2⟩) := by
  refine C72_in_order_partial .mutex octets (arraySteps _ _) (arraySteps_splits _ _)
    (fun x => x = octets.mk 1 2 ∨ x = octets.mk 7 8) (octets.mk 1 2) (.inl rfl)
    (fun _ => Output.new [0, 0]) duel ⟨by simp [duel], ?_⟩ 0 (.ok ()) rfl
  intro p q w he hw
  have hp : p = duel.take p.length := by rw [he]; simp
  have hl : p.length < 12 := by
    have := congrArg List.length he
    simp [duel] at this
    omega
  have hr : duel[p.length]? = some (.release w) := by rw [he]; simp
  generalize hn : p.length = n at hp hl hr
  have h5 : n = 5 := by
    match n, hr, hl with
    | 0, hr, _ => simp [duel] at hr
    | 1, hr, _ => simp [duel] at hr
    | 2, hr, _ => simp [duel] at hr
    | 3, hr, _ => simp [duel] at hr
    | 4, hr, _ => simp [duel] at hr
    | 5, _, _ => rfl
    | 6, hr, _ => simp [duel] at hr
    | 7, hr, _ => simp [duel] at hr
    | 8, hr, _ => simp [duel] at hr
    | 9, hr, _ => simp [duel] at hr
    | 10, hr, _ => simp [duel] at hr
    | 11, hr, _ => simp [duel] at hr
  subst h5
  right
  rw [hp]
  rfl

/-- C72 (part). Poisoning, which encoding does not mind, tells of every panic under a guard that
excludes others: after any schedule a lock is poisoned exactly if a thread has panicked that held a
guard to write through, or the encoder of a `Mutex` has. -/
theorem C72_poisoned_partial (kind : LockKind) (t : Ty) (part : Steps t.Val) (v : t.Val)
    (outs : Nat → Output) (es : List (Event t.Val)) :
    ((Shared.start kind v outs).run part es).poisoned = true ↔
      (∃ p w q, es = p ++ .panic w :: q ∧
        ((Shared.start kind v outs).run part p).writer = some w) ∨
      kind = .mutex ∧ ∃ k p,
        ((Shared.start kind v outs).run part es).phase k = .finished (.panic p) :=
  Shared.run_poisoned kind v outs es

/-- An encoder without room panics, which poisons a `Mutex` and not a `RwLock`. -/
example : ((Shared.start .mutex (octets.mk 1 2) fun _ => Output.new [0]).run (arraySteps _ _)
      [.lock 0, .encode 0, .encode 0]).poisoned = true ∧
    ((Shared.start .rwLock (octets.mk 1 2) fun _ => Output.new [0]).run (arraySteps _ _)
      [.lock 0, .encode 0, .encode 0]).poisoned = false := ⟨rfl, rfl⟩

/-- C72 is false if a thread panics between two updates: the poisoned lock is encoded as the panic
has left it (`[7, 2]`, although only `[1, 2]` and `[7, 8]` are ever meant to be there), and the
encoder reports success. For both kinds of locks. -/
theorem C72_panic_false (kind : LockKind) :
    ∃ (outs : Nat → Output) (es : List (Event octets.Val)),
      es = [.acquire 5, .store 5 (setFirst 7), .panic 5, .lock 0, .encode 0, .encode 0, .encode 0] ∧
      let s := (Shared.start kind (octets.mk 1 2) outs).run (arraySteps _ _) es
      s.poisoned = true ∧ s.phase 0 = .finished (.ok ()) ∧ (s.output 0).asSlice = [7, 2] := by
  refine ⟨fun _ => Output.new [0, 0], _, rfl, ?_⟩
  cases kind <;> exact ⟨rfl, rfl, rfl⟩

/-- C73. However the threads are scheduled, and whichever of the values that `Relaxed` allows the loads
give, a thread that encodes a row of atomics ends as if it had encoded values that each of them has
had: a first value, or one that was stored. -/
theorem C73_had (t : Ty) (n : Nat) (init : Nat → t.Val) (es : List (AtomicEvent t.Val)) (k : Nat)
    (o0 o : Output) (seen : List Nat) (r : Res EncErr Unit)
    (h : (k, o0, seen, r, o) ∈ ((Atomics.start init).run n es).done) :
    ∃ vs : (Ty.array (.wrap .atomic t) n).Val,
      (∀ i v, vs.1[i]? = some v → Had init es i v) ∧
      (Ty.array (.wrap .atomic t) n).encode vs o0 = (r, o) := by
  obtain ⟨_, ⟨vs, ws, h1, h2, h3, h4⟩, _⟩ := (Atomics.run_inv (n := n) init es).done _ h
  refine ⟨⟨vs ++ ws, (List.length_append (as := vs) (bs := ws)).trans h2⟩, fun i v hi => ?_, h4⟩
  apply Atomics.history_had (n := n)
  by_cases hl : i < vs.length
  · have hi' : vs[i]? = some v := by rw [← List.getElem?_append_left (l₂ := ws) hl]; exact hi
    obtain ⟨j, hj⟩ : ∃ j, seen[i]? = some j :=
      ⟨seen[i]'(by rw [← h1.1]; exact hl), List.getElem?_eq_getElem _⟩
    obtain ⟨w, hw, hw'⟩ := h1.2 i j hj
    obtain rfl : w = v := Option.some.inj (hw.symm.trans hi')
    exact List.mem_of_getElem? hw'
  · have hi' : ws[i - vs.length]? = some v := by
      rw [← List.getElem?_append_right (l₁ := vs) (Nat.le_of_not_lt hl)]; exact hi
    have := h3 _ _ hi'
    rwa [show vs.length + (i - vs.length) = i by omega] at this

/-- C73. When a thread encodes the atomics again, it sees no older value of any of them. -/
theorem C73_forward (t : Ty) (n : Nat) (init : Nat → t.Val) (es : List (AtomicEvent t.Val))
    (before between after : List (Nat × Output × List Nat × Res EncErr Unit × Output))
    (k : Nat) (o0 o1 o2 o3 : Output) (seen seen' : List Nat) (r r' : Res EncErr Unit)
    (h : ((Atomics.start init).run n es).done = before ++ (k, o0, seen, r, o1) :: between
      ++ (k, o2, seen', r', o3) :: after)
    (i j j' : Nat) (hj : seen[i]? = some j) (hj' : seen'[i]? = some j') : j ≤ j' := by
  have ho := (Atomics.run_inv (n := n) init es).order
  rw [h, List.append_assoc] at ho
  have h1 := (List.pairwise_append.1 ho).2.1
  rw [List.cons_append] at h1
  exact (List.pairwise_cons.1 h1).1 (k, o2, seen', r', o3) (by simp) rfl i j j' hj hj'

/-- An octet that is kept in an atomic. -/
abbrev octet : Ty := .num (.int .u8)

/-- One thread encodes two atomics while another stores `1` to both. -/
def race : List (AtomicEvent octet.Val) :=
  [.start 0 (Output.new [0, 0]), .next 0 0, .store 1 0 (1 : BitVec 8), .store 1 1 (1 : BitVec 8),
    .next 0 1, .next 0 0]

/-- All atomics start with zero. -/
def zeros : Nat → octet.Val := fun _ => (0 : BitVec 8)

/-- It ends with `[0, 1]`. -/
theorem race_done : ((Atomics.start zeros).run 2 race).done
    = [(0, Output.new [0, 0], [0, 1], .ok (), ⟨[0, 1], 2⟩)] := rfl

example : ∃ vs : (Ty.array (.wrap .atomic octet) 2).Val,
    (∀ i v, vs.1[i]? = some v → Had zeros race i v) ∧
    (Ty.array (.wrap .atomic octet) 2).encode vs (Output.new [0, 0]) = (.ok (), ⟨[0, 1], 2⟩) :=
  C73_had octet 2 _ race 0 _ _ [0, 1] _ (by rw [race_done]; simp)

/-- A thread that encodes one atomic twice, and sees the store of another thread only then. -/
example : ((Atomics.start zeros).run 1 [.start 0 (Output.new [0]), .store 1 0 (1 : BitVec 8),
    .next 0 0, .next 0 0, .start 0 (Output.new [0]), .next 0 1, .next 0 0]).done
    = [] ++ (0, Output.new [0], [0], .ok (), ⟨[0], 1⟩) :: []
      ++ (0, Output.new [0], [1], .ok (), ⟨[1], 1⟩) :: [] := rfl

/-- C74 (part). If only the thread itself has stored to the atomics, and nobody stores while it
encodes, it encodes the values that the atomics have. Missing: other threads that store, see
`C74_false`. -/
theorem C74_alone_partial (t : Ty) (n : Nat) (init : Nat → t.Val) (k : Nat)
    (p q : List (AtomicEvent t.Val)) (hp : ∀ e ∈ p, ∃ l v, e = .store k l v)
    (hq : ∀ e ∈ q, ∀ k l v, e ≠ .store k l v)
    (o0 o : Output) (seen : List Nat) (r : Res EncErr Unit)
    (h : (k, o0, seen, r, o) ∈ ((Atomics.start init).run n (p ++ q)).done) :
    (Ty.array (.wrap .atomic t) n).encode
      ⟨(List.range n).map (valuesAfter init p), by
        exact (List.length_map _).trans List.length_range⟩ o0 = (r, o) := by
  obtain ⟨h1, h2, h3⟩ := Atomics.stores_upToDate (n := n) k p (Atomics.start init) init
    ⟨fun l => rfl, fun l => rfl⟩ rfl rfl hp
  have h0 : ((Atomics.start init).run n p).Alone n k (valuesAfter init p) :=
    ⟨h1, fun o0 seen o hc => (by rw [h2] at hc; cases hc), fun d hd => (by rw [h3] at hd; cases hd)⟩
  rw [Atomics.run_append] at h
  exact (Atomics.alone_run k _ q _ h0 hq).done _ h rfl

example : (Ty.array (.wrap .atomic octet) 2).encode ⟨[(5 : BitVec 8), (0 : BitVec 8)], rfl⟩
    (Output.new [0, 0]) = (.ok (), ⟨[5, 0], 2⟩) :=
  C74_alone_partial octet 2 zeros 3 [.store 3 0 (5 : BitVec 8)]
    [.start 3 (Output.new [0, 0]), .next 3 1, .next 3 0, .next 3 0]
    (fun e he => ⟨0, (5 : BitVec 8), List.mem_singleton.1 he⟩) (by simp)
    _ ⟨[5, 0], 2⟩ [1, 0] (.ok ()) (by
      show _ ∈ [((3 : Nat), Output.new [0, 0], [1, 0], (.ok () : Res EncErr Unit), (⟨[5, 0], 2⟩ : Output))]
      simp)

/-- C74 is false otherwise: what is encoded of several atomics need not be what they hold at any one
time, even if every load gives the newest value. -/
theorem C74_false :
    ∃ (init : Nat → octet.Val) (es : List (AtomicEvent octet.Val)) (d : _),
      d ∈ ((Atomics.start init).run 2 es).done ∧ d.2.2.2.1 = .ok () ∧
      ∀ p q, es = p ++ q → d.2.2.2.2.asSlice ≠
        wire octet (valuesAfter init p 0) ++ wire octet (valuesAfter init p 1) := by
  refine ⟨zeros, race, _, by rw [race_done]; exact List.mem_singleton.2 rfl, rfl, ?_⟩
  intro p q he
  have hp : p = race.take p.length := by rw [he]; simp
  have hl : p.length ≤ 6 := by
    have := congrArg List.length he
    simp [race] at this
    omega
  generalize p.length = n at hp hl
  subst hp
  match n, hl with
  | 0, _ => decide
  | 1, _ => decide
  | 2, _ => decide
  | 3, _ => decide
  | 4, _ => decide
  | 5, _ => decide
  | 6, _ => decide

end Oct.Props
