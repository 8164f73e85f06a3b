import Verif.Proofs.Client
/-
C112, C113: programs in safe Rust that use streams, in memory.
-/
namespace Oct.Props
open Oct Spec
set_option linter.unusedVariables false

/-- C112. Whatever a program in safe Rust does with buffers, streams over parts of them and slices of
these, for any number of them and steps: no step is undefined behaviour and none panics, and all that
the program learns is what it learns if streams are values and buffers are lists. -/
theorem C112_safe (bufs : Nat → List Byte) (ops : List ClientOp)
    (h : AllAllowed (freshClient bufs) ops) :
    ∃ m', (freshRaw bufs).run ops = (.ok ((freshClient bufs).run ops).1, m') ∧
      ∀ b, m'.mem (m'.base b) = some ((((freshClient bufs).run ops).2.bufs b).map some) := by
  obtain ⟨m', h1, h2, -⟩ := run_shows ops (fresh_shows bufs) (fresh_valid bufs) h
  exact ⟨m', h1, h2.bufs⟩

/-- C112, from any state that such a program may be in, wherever its buffers are. -/
theorem C112_safe_from (m : RawClient) (c : Client) (hs : ShowsClient m c) (hv : Valid c)
    (ops : List ClientOp) (h : AllAllowed c ops) :
    ∃ m', m.run ops = (.ok (c.run ops).1, m') ∧ ShowsClient m' (c.run ops).2 ∧ Valid (c.run ops).2 :=
  run_shows ops hs hv h

/-- Buffer 0 is `[1, 2, 3, 4]`, all others are `[0, 0, 0]`. -/
def twoBufs : Nat → List Byte := fun b => if b = 0 then [1, 2, 3, 4] else [0, 0, 0]

/-- Copies two octets from buffer 0 to buffer 1, and tries it again. -/
def copyOps : List ClientOp :=
  [.openIn 0 ⟨0, 0, 4⟩, .openOut 0 ⟨1, 0, 3⟩, .read 0 2 7, .write 0 7, .look 0, .write 0 7, .see 7,
    .dropOut 0, .readInto 0 ⟨1, 1, 2⟩, .lookIn 0]

theorem copyOps_allowed : AllAllowed (freshClient twoBufs) copyOps := by
  refine ⟨⟨rfl, by unfold InBuffer; decide, fun _ _ _ h => nomatch h⟩, ⟨rfl, by unfold InBuffer; decide, fun _ _ _ h => (nomatch h), ?_, ?_⟩,
    ⟨rfl, _, rfl⟩, ⟨⟨_, rfl⟩, _, rfl⟩, ⟨_, rfl⟩, ⟨⟨_, rfl⟩, _, rfl⟩, ⟨_, rfl⟩, trivial,
    ⟨⟨⟨⟨0, 0, 4⟩, 2⟩, rfl⟩, by unfold InBuffer; decide, ?_, ?_, ?_⟩, ⟨_, rfl⟩, trivial⟩
  · intro k h hk
    rcases setAt_some hk with ⟨-, rfl⟩ | ⟨-, hk⟩
    · exact .inr (.inr (.inl (by decide)))
    · exact nomatch hk
  · intro j s hj; exact nomatch hj
  · intro k h hn hk
    have := setAt_none hk
    rcases setAt_some this with ⟨rfl, rfl⟩ | ⟨hne, hk'⟩
    · exact absurd hk (by decide)
    · rcases setAt_some hk' with ⟨h1, -⟩ | ⟨-, hk2⟩
      · exact absurd h1 hne
      · exact nomatch hk2
  · intro k h hk
    rcases setAt_some hk with ⟨-, rfl⟩ | ⟨hne, hk⟩
    · exact .inr (.inr (.inl (by decide)))
    · rcases setAt_some hk with ⟨h1, -⟩ | ⟨-, hk⟩
      · exact absurd h1 hne
      · exact nomatch hk
  · intro j s hj
    rcases setAt_some hj with ⟨-, rfl⟩ | ⟨-, hj⟩
    · exact .inr (.inr (.inl (by decide)))
    · exact nomatch hj

example : AllAllowed (freshClient twoBufs) copyOps ∧ ((freshClient twoBufs).run copyOps).1 =
    [.done, .done, .done, .done, .stream [1, 2] 2 1 3, .outErr ⟨3, 2, 2⟩, .octets [1, 2], .done, .done,
      .numbers 4 0 4] ∧ ((freshClient twoBufs).run copyOps).2.bufs 1 = [1, 3, 4] :=
  ⟨copyOps_allowed, by decide, by decide⟩

/-- C112, what the rules are for: the buffer of a stream, and what is written to it, must not overlap,
or `Output::write` is undefined behaviour (no program in safe Rust comes to this). -/
theorem C112_needs_borrows : ∃ (m : RawClient) (c : Client) (op : ClientOp), ShowsClient m c ∧
    ¬ Valid c ∧ Allowed c op ∧ (m.step op).1 = .ub .overlap := by
  refine ⟨⟨fun _ => some ([1, 2, 3, 4].map some), id,
      fun k => if k = 0 then some ⟨⟨⟨0, 0⟩, 4⟩, 0⟩ else none, fun _ => none,
      fun k => if k = 0 then some ⟨⟨0, 1⟩, 2⟩ else none⟩,
    ⟨fun _ => [1, 2, 3, 4], fun k => if k = 0 then some ⟨⟨0, 0, 4⟩, 0⟩ else none, fun _ => none,
      fun k => if k = 0 then some ⟨0, 1, 2⟩ else none⟩, .write 0 0,
    ⟨fun _ _ h => h, fun _ => rfl, fun k => ?_, fun _ => rfl, fun k => ?_⟩, fun hv => ?_, ⟨⟨_, rfl⟩, _, rfl⟩,
    by decide⟩
  · by_cases h : k = 0
    · subst h; rfl
    · simp only [if_neg h]; rfl
  · by_cases h : k = 0
    · subst h; rfl
    · simp only [if_neg h]; rfl
  · have := (hv.outs 0 _ rfl).2.2.2.2 0 _ rfl
    revert this
    unfold RegionsApart
    decide

/-- C113. A slice that `Input::read` gave (or any other) has the octets that it had, until it is
dropped, whatever happens to streams and buffers meanwhile; even to the stream that gave it. -/
theorem C113_slices (c : Client) (hv : Valid c) (ops : List ClientOp) (h : AllAllowed c ops) (j : Nat)
    (r : Region) (hr : c.refs j = some r) (hd : .dropRef j ∉ ops) :
    (c.run ops).2.refs j = some r ∧ (c.run ops).2.content r = c.content r :=
  run_ref ops hv h hr hd

/-- C113, and these are the octets that `read` is to give: those from the position of the stream on. -/
theorem C113_read (c : Client) (k n j : Nat) (h : Handle) (hk : c.ins k = some h)
    (d : List Byte) (i : Input) (hr : (c.input h).read n = (.ok d, i)) :
    ∃ r, (c.step (.read k n j)).2.refs j = some r ∧ (c.step (.read k n j)).2.content r = d ∧
      (c.step (.read k n j)).2.ins k = some ⟨h.region, h.pos + n⟩ := by
  have hs : c.step (.read k n j) = (.done, { c with
          ins := setAt c.ins k (some ⟨h.region, i.pos⟩)
          refs := setAt c.refs j (some ⟨h.region.buf, h.region.lo + h.pos, n⟩) }) := by
    unfold Client.step
    simp only [hk, hr]
  unfold Input.read at hr
  simp only at hr
  split at hr
  · exact nomatch (Prod.mk.inj hr).1
  · next hlt =>
    have h1 := Except.ok.inj (Prod.mk.inj hr).1
    have h2 := (Prod.mk.inj hr).2
    rw [hs]
    refine ⟨_, setAt_self _ _ _, ?_, ?_⟩
    · rw [← h1]
      show ((c.bufs h.region.buf).drop (h.region.lo + h.pos)).take n
        = ((((c.bufs h.region.buf).drop h.region.lo).take h.region.len).drop h.pos).take n
      rw [List.drop_take, List.take_take, List.drop_drop]
      congr 1
      have h3 : (c.input h).buf.length ≤ h.region.len := by
        show (((c.bufs h.region.buf).drop h.region.lo).take h.region.len).length ≤ _
        rw [List.length_take]; omega
      have h4 : (c.input h).pos = h.pos := rfl
      omega
    · show setAt c.ins k (some ⟨h.region, i.pos⟩) k = _
      rw [setAt_self, ← h2]
      rfl

example : ∃ (c : Client) (r : Region), Valid c ∧ c.refs 7 = some r ∧ c.content r = [1, 2] ∧
    AllAllowed c [.write 0 7] := by
  have h := copyOps_allowed
  refine ⟨((freshClient twoBufs).run (copyOps.take 3)).2, ⟨0, 0, 2⟩,
    run_valid (copyOps.take 3) (fresh_valid _) ⟨h.1, h.2.1, h.2.2.1, trivial⟩, rfl, by decide,
    h.2.2.2.1, trivial⟩

example : (((freshClient twoBufs).run (copyOps.take 1)).2.input ⟨⟨0, 0, 4⟩, 0⟩).read 2
    = (.ok [1, 2], ⟨[1, 2, 3, 4], 2⟩) := rfl

/-- C113. A stream for output is the same value, octets and position, until it is written to or
dropped. -/
theorem C113_outputs (c : Client) (hv : Valid c) (ops : List ClientOp) (h : AllAllowed c ops) (k : Nat)
    (s : Handle) (hs : c.outs k = some s) (h1 : ∀ j, .write k j ∉ ops) (h2 : ∀ k', .writeFrom k k' ∉ ops)
    (h3 : .dropOut k ∉ ops) :
    (c.run ops).2.outs k = some s ∧ (c.run ops).2.output s = c.output s :=
  run_output ops hv h hs h1 h2 h3

/-- C113. A stream for input is the same value until it is read from or dropped. -/
theorem C113_inputs (c : Client) (hv : Valid c) (ops : List ClientOp) (h : AllAllowed c ops) (k : Nat)
    (s : Handle) (hs : c.ins k = some s) (h1 : ∀ n j, .read k n j ∉ ops) (h2 : ∀ r, .readInto k r ∉ ops)
    (h3 : .dropIn k ∉ ops) :
    (c.run ops).2.ins k = some s ∧ (c.run ops).2.input s = c.input s :=
  run_input ops hv h hs h1 h2 h3

example : ∃ c : Client, Valid c ∧ c.outs 0 = some ⟨⟨1, 0, 3⟩, 0⟩ ∧ c.ins 0 = some ⟨⟨0, 0, 4⟩, 0⟩ ∧
    AllAllowed c [.lookIn 0] := by
  have h := copyOps_allowed
  exact ⟨((freshClient twoBufs).run (copyOps.take 2)).2,
    run_valid (copyOps.take 2) (fresh_valid _) ⟨h.1, h.2.1, trivial⟩, rfl, rfl, ⟨_, rfl⟩, trivial⟩

end Oct.Props
