import Verif.Proofs.GuardsSnap
import Verif.Props.Locks
/-
C136, C137: guards that callers hold.
-/
namespace Oct.Props
open Oct Spec
set_option linter.unusedVariables false

theorem _root_.Oct.Spec.LockOrder.inv {rank : Nat → Nat} {s : Guards} (h : LockOrder rank s) : s.Inv rank := by
  refine ⟨h.2, fun a ha => ?_⟩
  obtain ⟨script, o, rfl, h1⟩ := h.1 a ha
  exact ⟨h1, trivial⟩

/-- C136, as far as it holds. Threads that hold guards of their own while they encode never end up in a
deadlock, however they are scheduled and whomever the system lets in first, if all of them take locks in the
same order, where `encode` counts as taking the locks in the value, and drop their guards in the end. Missing:
programs without such an order, see `C136_false_own` and the others. -/
theorem C136_no_deadlock_partial (joins : Guards → Nat → Bool) (rank : Nat → Nat) (s : Guards)
    (h : LockOrder rank s) (ks : List Nat) : ¬GuardDeadlock joins (s.run joins ks) :=
  (h.inv.run ks).no_deadlock

/-- C136, as far as it holds: there is a bound on the number of steps that the threads make, and from
wherever they are they can be brought to the end, where nobody holds anything. -/
theorem C136_ends_partial (joins : Guards → Nat → Bool) (rank : Nat → Nat) (b : Nat) (s : Guards)
    (h : LockOrder rank s) (hc : ∀ r, (s.content r).length ≤ b) (hs : ∀ a ∈ s.agents, ShortSets b a.script) :
    (∃ n, ∀ ks, s.made joins ks ≤ n) ∧
    ∀ ks, ∃ ks', ∀ a ∈ ((s.run joins ks).run joins ks').agents, Done a ∧ a.holds = [] := by
  refine ⟨⟨_, Guards.made_le h.inv ⟨hc, hs⟩⟩, fun ks => ?_⟩
  obtain ⟨ks', h'⟩ := Guards.finishes (joins := joins) (b := b) _ (s.run joins ks) rfl (h.inv.run ks)
    (Guards.Short.run h.inv ⟨hc, hs⟩ ks)
  exact ⟨ks', fun a ha => ⟨h' a ha, (((h.inv.run ks).run ks').agent a ha).done (h' a ha)⟩⟩

/-- Two accounts `0` and `1` in an `RwLock` `2`. One thread updates both while it holds the outer lock, and
another one takes the outer lock and encodes an account. -/
def accounts : Guards where
  kind r := if r = 2 then .rwLock else .mutex
  content r := if r = 2 then [.lock 0 id, .lock 1 id] else [octetPiece 0#8]
  agents := [
    Agent.start [.guard 2 true, .guard 1 true, .set 1 [octetPiece 1#8], .drop 1, .guard 0 true,
      .set 0 [octetPiece 1#8], .drop 0, .through 2, .drop 2] (Output.new [0, 0]),
    Agent.start [.guard 2 false, .encode [.lock 1 id], .drop 2] (Output.new [0]),
    Agent.start [.encode [.lock 2 id]] (Output.new [0, 0])]

theorem accounts_inOrder : LockOrder id accounts := by
  refine ⟨?_, ?_⟩
  · intro a ha
    have h0 : ∀ n b, Below id n [octetPiece b] := fun n b r g h => by simp [octetPiece] at h
    rcases List.mem_cons.mp ha with rfl | ha
    · exact ⟨_, _, rfl, by simp [Orderly, h0]⟩
    rcases List.mem_cons.mp ha with rfl | ha
    · exact ⟨_, _, rfl, by simp [Orderly, Below]⟩
    cases List.mem_singleton.mp ha
    exact ⟨_, _, rfl, by simp [Orderly]⟩
  · intro r r' g h
    show r' < r
    dsimp only [accounts] at h
    split at h
    · next e =>
      simp only [List.mem_cons, Piece.lock.injEq, List.not_mem_nil, or_false] at h
      omega
    · simp [octetPiece] at h

example (joins : Guards → Nat → Bool) (ks : List Nat) : ¬GuardDeadlock joins (accounts.run joins ks) :=
  C136_no_deadlock_partial joins id accounts accounts_inOrder ks

example (joins : Guards → Nat → Bool) :
    (∃ n, ∀ ks, accounts.made joins ks ≤ n) ∧
    ∀ ks, ∃ ks', ∀ a ∈ ((accounts.run joins ks).run joins ks').agents, Done a ∧ a.holds = [] := by
  refine C136_ends_partial joins id 2 accounts accounts_inOrder ?_ ?_
  · intro r
    dsimp only [accounts]
    split <;> simp
  · intro a ha r c h
    rcases List.mem_cons.mp ha with rfl | ha
    · simp only [Agent.start, List.mem_cons, reduceCtorEq, Cmd.set.injEq, List.not_mem_nil, or_false,
        false_or] at h
      rcases h with ⟨_, rfl⟩ | ⟨_, rfl⟩ <;> simp
    rcases List.mem_cons.mp ha with rfl | ha
    · simp [Agent.start] at h
    cases List.mem_singleton.mp ha
    simp [Agent.start] at h

/-- C136, where it fails: a thread that encodes a mutex of which it holds a guard waits for ever. -/
theorem C136_false_own (joins : Guards → Nat → Bool) (content : Nat → List Piece) (g : EncErr → EncErr)
    (o : Output) :
    GuardDeadlock joins (Guards.run joins ⟨fun _ => .mutex, content,
      [Agent.start [.guard 0 true, .encode [.lock 0 g], .drop 0] o]⟩ [0, 0]) := by
  refine ⟨⟨_, List.mem_cons_self .., fun h => nomatch h.1⟩, fun k => ?_⟩
  cases k with
  | zero => rfl
  | succ k => rfl

theorem run_step {joins : Guards → Nat → Bool} {s s' : Guards} {k : Nat} {ks : List Nat}
    (h : s.step joins k = some s') : s.run joins (k :: ks) = s'.run joins ks := by
  show ((s.step joins k).getD s).run joins ks = _
  rw [h]
  rfl

/-- C136, where it fails: no lock contains itself, and no thread encodes what it holds a guard of; but one
thread encodes the lock `1` while it has the lock `0`, and another one encodes the lock `1`, in which is the
lock `0`. -/
theorem C136_false_order (joins : Guards → Nat → Bool) (g g' : EncErr → EncErr) (o o' : Output) :
    GuardDeadlock joins (Guards.run joins ⟨fun _ => .mutex,
      fun r => if r = 1 then [.lock 0 g'] else [octetPiece 0#8],
      [Agent.start [.guard 0 true, .encode [.lock 1 g], .drop 0] o,
        Agent.start [.encode [.lock 1 g]] o']⟩ [0, 1, 1, 0]) := by
  generalize hC : (fun r => if r = 1 then [.lock 0 g'] else [octetPiece 0#8]) = C
  have h1 : C 1 = [.lock 0 g'] := by rw [← hC]; rfl
  have e : Guards.run joins ⟨fun _ => .mutex, C, [Agent.start [.guard 0 true, .encode [.lock 1 g], .drop 0] o,
      Agent.start [.encode [.lock 1 g]] o']⟩ [0, 1, 1, 0] = ⟨fun _ => .mutex, C,
      [⟨[.drop 0], [(0, true)], .encoding [.lock 1 g] [], o, []⟩, ⟨[], [], .encoding [.lock 0 g'] [⟨1, g, []⟩], o', []⟩]⟩ :=
    (run_step (s' := ⟨fun _ => .mutex, C,
      [⟨[.encode [.lock 1 g], .drop 0], [(0, true)], .idle, o, []⟩, ⟨[.encode [.lock 1 g]], [], .idle, o', []⟩]⟩) rfl).trans <|
    (run_step (s' := ⟨fun _ => .mutex, C,
      [⟨[.encode [.lock 1 g], .drop 0], [(0, true)], .idle, o, []⟩, ⟨[], [], .encoding [.lock 1 g] [], o', []⟩]⟩) rfl).trans <|
    (run_step (s' := ⟨fun _ => .mutex, C,
      [⟨[.encode [.lock 1 g], .drop 0], [(0, true)], .idle, o, []⟩, ⟨[], [], .encoding [.lock 0 g'] [⟨1, g, []⟩], o', []⟩]⟩)
        (by rw [← h1]; rfl)).trans <|
    (run_step (s' := ⟨fun _ => .mutex, C,
      [⟨[.drop 0], [(0, true)], .encoding [.lock 1 g] [], o, []⟩, ⟨[], [], .encoding [.lock 0 g'] [⟨1, g, []⟩], o', []⟩]⟩) rfl).trans <|
    rfl
  rw [e]
  refine ⟨⟨_, List.mem_cons_self .., fun h => nomatch h.1⟩, fun k => ?_⟩
  match k with
  | 0 => rfl
  | 1 => rfl
  | k + 2 => rfl

/-- A system that lets no further reader in while somebody waits to write. -/
def writersBefore (s : Guards) (r : Nat) : Bool :=
  s.agents.all fun a => a.asks != some (r, true)

/-- C136, where it fails: a thread that reads an `RwLock` may not be able to encode it, because another one
waits to write; and neither of them goes on. With a system that always lets further readers in, both do. -/
theorem C136_false_reader (g : EncErr → EncErr) (o o' : Output) :
    let s : Guards := ⟨fun _ => .rwLock, fun _ => [],
      [Agent.start [.guard 0 false, .encode [.lock 0 g], .drop 0] o, Agent.start [.guard 0 true, .drop 0] o']⟩
    GuardDeadlock writersBefore (s.run writersBefore [0, 0]) ∧
    ∀ a ∈ ((s.run (fun _ _ => true) [0, 0]).run (fun _ _ => true) [0, 0, 0, 0, 1, 1]).agents, Done a := by
  intro s
  refine ⟨?_, fun a ha => ?_⟩
  · have e : s.run writersBefore [0, 0] = ⟨fun _ => .rwLock, fun _ => [],
        [⟨[.drop 0], [(0, false)], .encoding [.lock 0 g] [], o, []⟩,
          ⟨[.guard 0 true, .drop 0], [], .idle, o', []⟩]⟩ := rfl
    rw [e]
    refine ⟨⟨_, List.mem_cons_self .., fun h => nomatch h.1⟩, fun k => ?_⟩
    match k with
    | 0 => rfl
    | 1 => rfl
    | k + 2 => rfl
  · have e : s.run (fun _ _ => true) [0, 0] = ⟨fun _ => .rwLock, fun _ => [],
        [⟨[.drop 0], [(0, false)], .encoding [.lock 0 g] [], o, []⟩,
          ⟨[.guard 0 true, .drop 0], [], .idle, o', []⟩]⟩ := rfl
    have e : (s.run (fun _ _ => true) [0, 0]).run (fun _ _ => true) [0, 0, 0, 0, 1, 1] =
        ⟨fun _ => .rwLock, fun _ => [], [⟨[], [], .idle, o, [.ok ()]⟩, ⟨[], [], .idle, o', []⟩]⟩ :=
      (congrArg (fun s => Guards.run _ s _) e).trans <|
      (run_step (s' := ⟨fun _ => .rwLock, fun _ => [],
        [⟨[.drop 0], [(0, false)], .encoding [] [⟨0, g, []⟩], o, []⟩, ⟨[.guard 0 true, .drop 0], [], .idle, o', []⟩]⟩) rfl).trans <|
      (run_step (s' := ⟨fun _ => .rwLock, fun _ => [],
        [⟨[.drop 0], [(0, false)], .encoding [] [], o, []⟩, ⟨[.guard 0 true, .drop 0], [], .idle, o', []⟩]⟩) rfl).trans <|
      (run_step (s' := ⟨fun _ => .rwLock, fun _ => [],
        [⟨[.drop 0], [(0, false)], .idle, o, [.ok ()]⟩, ⟨[.guard 0 true, .drop 0], [], .idle, o', []⟩]⟩) rfl).trans <|
      (run_step (s' := ⟨fun _ => .rwLock, fun _ => [],
        [⟨[], [], .idle, o, [.ok ()]⟩, ⟨[.guard 0 true, .drop 0], [], .idle, o', []⟩]⟩) rfl).trans <|
      (run_step (s' := ⟨fun _ => .rwLock, fun _ => [],
        [⟨[], [], .idle, o, [.ok ()]⟩, ⟨[.drop 0], [(0, true)], .idle, o', []⟩]⟩) rfl).trans <|
      (run_step (s' := ⟨fun _ => .rwLock, fun _ => [],
        [⟨[], [], .idle, o, [.ok ()]⟩, ⟨[], [], .idle, o', []⟩]⟩) rfl).trans <|
      rfl
    rw [e] at ha
    rcases List.mem_cons.mp ha with rfl | ha
    · exact ⟨rfl, rfl⟩
    · cases List.mem_singleton.mp ha
      exact ⟨rfl, rfl⟩

theorem _root_.Oct.Spec.CoveredBy.fenced {l : Nat} {S : Nat → Prop} {s : Guards} (h : CoveredBy l S s) : s.Fenced l S := by
  refine ⟨?_, ?_, h.2⟩
  · intro i j a b hi hj hij g hg
    obtain ⟨script, o, rfl, _⟩ := h.1 a (List.mem_of_getElem? hi)
    cases hg
  · intro a ha
    obtain ⟨script, o, rfl, h1⟩ := h.1 a ha
    exact h1

/-- C137. When the call of `encode` for the outer lock ends, what it wrote and its outcome are those of
encoding all locks inside as they were at one single moment during the call. -/
theorem C137_outer (joins : Guards → Nat → Bool) (l : Nat) (S : Nat → Prop) (s : Guards)
    (h : CoveredBy l S s) (ks ks' : List Nat) (k : Nat) (a a' : Agent) (g : EncErr → EncErr)
    (r : Res EncErr Unit)
    (ha : (s.run joins ks).agents[k]? = some a) (hc : a.call = .encoding [.lock l g] [])
    (ha' : ((s.run joins ks).run joins ks').agents[k]? = some a')
    (hl : a'.results.length = a.results.length) (hr : Returns a' r) :
    ∃ pre post, ks' = pre ++ post ∧
      Passes ((s.run joins ks).run joins pre).content [.lock l g] a.output r a'.output :=
  Guards.Fenced.waits ks' (h.fenced.run ks) ha hc ha' hl hr

/-- C137. And when a thread that has a guard of the outer lock encodes what is in it, what it writes and the
outcome are those of encoding all locks inside as they were when the call began. -/
theorem C137_through (joins : Guards → Nat → Bool) (l : Nat) (S : Nat → Prop) (s : Guards)
    (h : CoveredBy l S s) (ks ks' : List Nat) (k : Nat) (a a' : Agent) (r : Res EncErr Unit)
    (ha : (s.run joins ks).agents[k]? = some a) (hc : a.call = .encoding ((s.run joins ks).content l) [])
    (hg : ∃ g ∈ a.guards, g.1 = l)
    (ha' : ((s.run joins ks).run joins ks').agents[k]? = some a')
    (hl : a'.results.length = a.results.length) (hr : Returns a' r) :
    Passes (s.run joins ks).content ((s.run joins ks).content l) a.output r a'.output :=
  Guards.Fenced.through ks' (h.fenced.run ks) ha hc hg ha' hl hr

/-- C137. Guards exclude one another: if a thread has one of a mutex, or one to write through, nobody else
has any guard of the same lock. -/
theorem C137_exclusive (joins : Guards → Nat → Bool) (s : Guards)
    (h : ∀ a ∈ s.agents, ∃ script o, a = Agent.start script o) (ks : List Nat) (i j : Nat) (a b : Agent)
    (ha : (s.run joins ks).agents[i]? = some a) (hb : (s.run joins ks).agents[j]? = some b) (hij : i ≠ j)
    (x y : Nat × Bool) (hx : x ∈ a.holds) (hy : y ∈ b.holds) (e : x.1 = y.1) :
    (s.run joins ks).kind x.1 = .rwLock ∧ x.2 = false ∧ y.2 = false := by
  have hex : (s.run joins ks).Excl := by
    have : s.Excl := by
      intro i j a b hi hj hij g hg
      obtain ⟨script, o, rfl⟩ := h a (List.mem_of_getElem? hi)
      cases hg
    exact this.run ks
  have h1 := hex i j a b ha hb hij x hx y hy e
  have h2 := hex j i b a hb ha (Ne.symm hij) y hy x hx e.symm
  unfold alone? at h1 h2
  rw [← e] at h2
  cases hk : (s.run joins ks).kind x.1 with
  | mutex => rw [hk] at h1; cases h1
  | rwLock => rw [hk] at h1 h2; exact ⟨rfl, h1, h2⟩

/-- C137. What a lock protects is changed only by a thread that has a guard of it to write through, or one of
a mutex, and while nobody else has any guard of it. -/
theorem C137_changes (joins : Guards → Nat → Bool) (s : Guards)
    (h : ∀ a ∈ s.agents, ∃ script o, a = Agent.start script o) (ks : List Nat) (k r : Nat)
    (hc : (s.run joins (ks ++ [k])).content r ≠ (s.run joins ks).content r) :
    ∃ a, (s.run joins ks).agents[k]? = some a ∧
      (∃ x ∈ a.guards, x.1 = r ∧ ((s.run joins ks).kind r = .mutex ∨ x.2 = true)) ∧
      ∀ j b, j ≠ k → (s.run joins ks).agents[j]? = some b → ∀ y ∈ b.holds, y.1 ≠ r := by
  have hrun : ∀ (ks : List Nat) (s : Guards), s.run joins (ks ++ [k]) =
      ((s.run joins ks).step joins k).getD (s.run joins ks) := by
    intro ks
    induction ks with
    | nil => intro s; rfl
    | cons i ks ih => intro s; exact ih _
  rw [hrun] at hc
  have hex := fun a j b => C137_exclusive joins s h ks k j a b
  generalize s.run joins ks = t at hc hex
  cases hs : t.step joins k with
  | none => rw [hs] at hc; exact absurd rfl hc
  | some t' =>
  rw [hs] at hc
  obtain ⟨a, a', w, ha, _, hn, rfl⟩ := Guards.step_some hs
  replace hc : wrote t.content w r ≠ t.content r := hc
  have hw : ∃ c, w = some (r, c) := by
    cases w with
    | none => exact absurd rfl hc
    | some q =>
      obtain ⟨r', c⟩ := q
      simp only [wrote] at hc
      by_cases hr : r = r'
      · exact ⟨c, by rw [hr]⟩
      · rw [if_neg hr] at hc; exact absurd rfl hc
  obtain ⟨c, rfl⟩ := hw
  have hg : ∃ x ∈ a.guards, x.1 = r ∧ alone? t.kind x = true := by
    unfold Agent.next at hn
    split at hn
    · split at hn <;> cases hn
    · cases hn
    · cases hn
    · cases hn
    · cases hn
    · cases hn
    · cases hn
    · split at hn
      · cases hn
      · cases hn
      · cases hn
      · rename_i r' c' cs _
        split at hn
        · rename_i hany
          have : r' = r := by injection hn with hn; injection hn with _ hn; injection hn with hn; injection hn
          subst this
          obtain ⟨x, hx, h1⟩ := List.any_eq_true.mp hany
          simp only [Bool.and_eq_true, beq_iff_eq] at h1
          exact ⟨x, hx, h1.1, h1.2⟩
        · cases hn
      · cases hn
      · split at hn <;> cases hn
  obtain ⟨x, hx, rfl, hal⟩ := hg
  have hk : t.kind x.1 = .mutex ∨ x.2 = true := by
    unfold alone? at hal
    cases hk : t.kind x.1 with
    | mutex => exact .inl rfl
    | rwLock => rw [hk] at hal; exact .inr hal
  refine ⟨a, ha, ⟨x, hx, rfl, hk⟩, fun j b hj hb y hy e => ?_⟩
  have := hex a j b ha hb (Ne.symm hj) x y (List.mem_append_right _ hx) hy e.symm
  rcases hk with hk | hk
  · rw [hk] at this; cases this.1
  · rw [hk] at this; cases this.2.1

theorem accounts_covered : CoveredBy 2 (fun r => r < 2) accounts := by
  refine ⟨?_, ?_⟩
  · intro a ha
    have h0 : ∀ b, LocksIn (fun r => r < 2) [octetPiece b] := fun b r g h => by simp [octetPiece] at h
    rcases List.mem_cons.mp ha with rfl | ha
    · exact ⟨_, _, rfl, by simp [Covers, h0, dropGuard, alone?, accounts]⟩
    rcases List.mem_cons.mp ha with rfl | ha
    · exact ⟨_, _, rfl, by simp [Covers]⟩
    cases List.mem_singleton.mp ha
    exact ⟨_, _, rfl, by simp [Covers]⟩
  · intro r _ r' g h
    show r' < 2
    dsimp only [accounts] at h
    split at h
    · next e =>
      simp only [List.mem_cons, Piece.lock.injEq, List.not_mem_nil, or_false] at h
      omega
    · simp [octetPiece] at h

/-- The third thread encodes the outer lock, for which the first one waits. -/
example : ∃ pre post, [2, 0, 2, 2, 2, 2, 2, 2, 2] = pre ++ post ∧
    Passes ((accounts.run (fun _ _ => true) [2]).run (fun _ _ => true) pre).content [.lock 2 id]
      (Output.new [0, 0]) (.ok ()) ⟨[0, 0], 2⟩ :=
  C137_outer (fun _ _ => true) 2 (fun r => r < 2) accounts accounts_covered [2]
    [2, 0, 2, 2, 2, 2, 2, 2, 2] 2 _ ⟨[], [], .encoding [] [], ⟨[0, 0], 2⟩, []⟩ id (.ok ()) rfl rfl rfl rfl
    (.inl ⟨rfl, rfl⟩)

/-- A thread encodes both accounts through a guard, while the first one waits. -/
example : Passes accounts.content [.lock 0 id, .lock 1 id] (Output.new [0, 0]) (.ok ()) ⟨[0, 0], 2⟩ :=
  C137_through (fun _ _ => true) 2 (fun r => r < 2)
    { accounts with agents := [Agent.start [.guard 2 false, .through 2, .drop 2] (Output.new [0, 0]),
        Agent.start [.guard 2 true, .guard 0 true, .set 0 [octetPiece 1#8], .drop 0, .drop 2] (Output.new [])] }
    (by
      refine ⟨fun a ha => ?_, accounts_covered.2⟩
      rcases List.mem_cons.mp ha with rfl | ha
      · exact ⟨_, _, rfl, by simp [Covers]⟩
      cases List.mem_singleton.mp ha
      exact ⟨_, _, rfl, by simp [Covers, LocksIn, octetPiece, alone?, accounts]⟩)
    [0, 0] [0, 1, 0, 0, 0, 0, 0] 0 _ ⟨[.drop 2], [(2, false)], .encoding [] [], ⟨[0, 0], 2⟩, []⟩ (.ok ()) rfl
    rfl ⟨(2, false), List.mem_cons_self .., rfl⟩ rfl rfl (.inl ⟨rfl, rfl⟩)

/-- Two threads at once have a guard of the outer lock, both to read through. -/
example : accounts.kind 2 = .rwLock ∧ false = false ∧ false = false :=
  C137_exclusive (fun _ _ => true) accounts
    (fun a ha => (accounts_covered.1 a ha).imp fun _ h => h.imp fun _ h => h.1) [1, 2, 2] 1 2 _ _ rfl rfl
    (by decide) (2, false) (2, false) (List.mem_cons_self ..) (List.mem_cons_self ..) rfl

/-- A thread with the two guards sets what is in the inner lock, and nobody else has a guard of it. -/
example : ∃ a, (accounts.run (fun _ _ => true) [0, 0]).agents[0]? = some a ∧
    (∃ x ∈ a.guards, x.1 = 1 ∧
      ((accounts.run (fun _ _ => true) [0, 0]).kind 1 = .mutex ∨ x.2 = true)) ∧
    ∀ j b, j ≠ 0 → (accounts.run (fun _ _ => true) [0, 0]).agents[j]? = some b → ∀ y ∈ b.holds, y.1 ≠ 1 :=
  C137_changes (fun _ _ => true) accounts
    (fun a ha => (accounts_covered.1 a ha).imp fun _ h => h.imp fun _ h => h.1) [0, 0] 0 1 (fun e => by
      have e : [octetPiece 1#8] = [octetPiece 0#8] := e
      have := congrArg (fun l => match l with
        | [.plain m] => (m (Output.new [0])).2.asSlice
        | _ => []) e
      revert this; decide)

/-- One that has a guard to read through changes nothing. -/
example : (Guards.run (fun _ _ => true) ⟨fun _ => .rwLock, fun _ => [], [Agent.start [.guard 0 false,
    .set 0 [octetPiece 1#8]] (Output.new [])]⟩ [0, 0]).content 0 = [] := rfl

/-- The same locks, but nobody takes the outer one: the first thread sets the locks `0` and `1` one after
the other, and the second one encodes the outer lock. -/
def uncovered : Guards where
  kind _ := .mutex
  content r := if r = 2 then [.lock 0 id, .lock 1 id] else [octetPiece 0#8]
  agents := [
    Agent.start [.guard 0 true, .set 0 [octetPiece 1#8], .drop 0, .guard 1 true, .set 1 [octetPiece 1#8],
      .drop 1] (Output.new []),
    Agent.start [.encode [.lock 2 id]] (Output.new [0, 0])]

/-- The second thread encodes the lock `0`, then the first one sets both, then the second one goes on. -/
def tearing : List Nat := [1, 1, 1, 1, 1, 0, 0, 0, 0, 0, 0, 1, 1, 1, 1]

theorem uncovered_passes {C : Nat → List Piece} {a b : BitVec 8} (ha : C 0 = [octetPiece a])
    (hb : C 1 = [octetPiece b]) (h2 : C 2 = [.lock 0 id, .lock 1 id])
    (h01 : a = 0#8 ∧ b = 0#8 ∨ a = 1#8 ∧ b = 0#8 ∨ a = 1#8 ∧ b = 1#8) {r : Res EncErr Unit}
    {o' : Output} (h : Passes C [.lock 2 id] (Output.new [0, 0]) r o') : o'.asSlice ≠ [0, 1] := by
  have h1 := C105_then C [.lock 0 id] [.lock 1 id] _ _
    (C105_lock C .mutex (.num (.int .u8)) a 0 id false (by rw [ha]; exact C105_plain _ _))
    (C105_lock C .mutex (.num (.int .u8)) b 1 id false (by rw [hb]; exact C105_plain _ _))
  have key : ∃ r o1, Passes C [.lock 0 id, .lock 1 id] (Output.new [0, 0]) r o1 ∧ o1.asSlice = o'.asSlice := by
    cases h with
    | lock h3 h4 => cases h4; rw [h2] at h3; exact ⟨_, _, h3, rfl⟩
    | lockFails h3 h4 => rw [h2] at h3; exact ⟨_, _, h3, rfl⟩
  obtain ⟨r, o1, h3, h4⟩ := key
  have h5 := congrArg (fun x => x.2.asSlice) (h1 _ _ _ h3)
  rw [← h4]
  intro h6
  rcases h01 with ⟨rfl, rfl⟩ | ⟨rfl, rfl⟩ | ⟨rfl, rfl⟩
  · exact absurd (h5.trans h6) (by decide)
  · exact absurd (h5.trans h6) (by decide)
  · exact absurd (h5.trans h6) (by decide)

/-- The hypotheses of C137 are needed: if somebody changes the inner locks without the outer one, what is
encoded may be as the locks were at no moment of the schedule. -/
theorem C137_torn :
    (∃ a, (uncovered.run (fun _ _ => true) tearing).agents[1]? = some a ∧ Returns a (.ok ()) ∧
      a.output.asSlice = [0, 1]) ∧
    ∀ n r o', Passes (uncovered.run (fun _ _ => true) (tearing.take n)).content [.lock 2 id]
      (Output.new [0, 0]) r o' → o'.asSlice ≠ [0, 1] := by
  refine ⟨⟨⟨[], [], .encoding [] [], ⟨[0, 1], 2⟩, []⟩, rfl, .inl ⟨rfl, rfl⟩, rfl⟩, fun n r o' h => ?_⟩
  match n, h with
  | 0, h => exact uncovered_passes rfl rfl rfl (.inl ⟨rfl, rfl⟩) h
  | 1, h => exact uncovered_passes rfl rfl rfl (.inl ⟨rfl, rfl⟩) h
  | 2, h => exact uncovered_passes rfl rfl rfl (.inl ⟨rfl, rfl⟩) h
  | 3, h => exact uncovered_passes rfl rfl rfl (.inl ⟨rfl, rfl⟩) h
  | 4, h => exact uncovered_passes rfl rfl rfl (.inl ⟨rfl, rfl⟩) h
  | 5, h => exact uncovered_passes rfl rfl rfl (.inl ⟨rfl, rfl⟩) h
  | 6, h => exact uncovered_passes rfl rfl rfl (.inl ⟨rfl, rfl⟩) h
  | 7, h => exact uncovered_passes rfl rfl rfl (.inr (.inl ⟨rfl, rfl⟩)) h
  | 8, h => exact uncovered_passes rfl rfl rfl (.inr (.inl ⟨rfl, rfl⟩)) h
  | 9, h => exact uncovered_passes rfl rfl rfl (.inr (.inl ⟨rfl, rfl⟩)) h
  | 10, h => exact uncovered_passes rfl rfl rfl (.inr (.inr ⟨rfl, rfl⟩)) h
  | 11, h => exact uncovered_passes rfl rfl rfl (.inr (.inr ⟨rfl, rfl⟩)) h
  | 12, h => exact uncovered_passes rfl rfl rfl (.inr (.inr ⟨rfl, rfl⟩)) h
  | 13, h => exact uncovered_passes rfl rfl rfl (.inr (.inr ⟨rfl, rfl⟩)) h
  | 14, h => exact uncovered_passes rfl rfl rfl (.inr (.inr ⟨rfl, rfl⟩)) h
  | n + 15, h =>
    rw [List.take_of_length_le (by simp [tearing])] at h
    exact uncovered_passes rfl rfl rfl (.inr (.inr ⟨rfl, rfl⟩)) h

end Oct.Props
