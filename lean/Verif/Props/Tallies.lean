import Verif.Proofs.TallyExact
import Verif.Proofs.EncodesTo
import Verif.Props.Samples
/-
C133: what encoding costs, in calls of `encode` and in writes.
-/
namespace Oct.Props
open Oct Spec
set_option linter.unusedVariables false

/-- Counting does not change what is encoded. -/
theorem C133_encodes (p : Prices) (t : Ty) (v : t.Val) (o : Output) : (t.tally p v o).1 = t.encode v o :=
  t.tally_same p v o

theorem tally_finished (p : Prices) {t : Ty} {v : t.Val} {o : Output} (h : finished (t.encode v o).1 = true) :
    finished (t.tally p v o).1.1 = true := by rw [C133_encodes]; exact h

/-- C133. For every type: a write puts one to sixteen octets, so that there are no more writes than octets
written (one more if the last did not fit), and no fewer than a sixteenth of them. -/
theorem C133_writes (t : Ty) (v : t.Val) (o : Output) (ho : o.WF) :
    (t.tally .writes v o).2 ≤ written o (t.encode v o).2 + (if finished (t.encode v o).1 then 0 else 1) ∧
      written o (t.encode v o).2 ≤ 16 * (t.tally .writes v o).2 := by
  have h := (t.tally_inv Effort.paced_inv v).2 o ho
  rw [C133_encodes] at h
  exact h

/-- The sample takes seven octets and five writes; in a stream of two octets, the second write is the last. -/
example : (sampleTy.tally .writes sampleVal (.new [0, 0, 0, 0, 0, 0, 0])).2 = 5 ∧
    written (.new [0, 0, 0, 0, 0, 0, 0]) (sampleTy.encode sampleVal (.new [0, 0, 0, 0, 0, 0, 0])).2 = 7 ∧
    (sampleTy.tally .writes sampleVal (.new [0, 0])).2 = 2 ∧
    written (.new [0, 0]) (sampleTy.encode sampleVal (.new [0, 0])).2 = 1 ∧
    finished (sampleTy.encode sampleVal (.new [0, 0])).1 = false := by decide

/-- C133. The stream does not matter: a value costs the same in each stream in which it can be encoded, and no
more in the others. -/
theorem C133_stream (p : Prices) (t : Ty) (v : t.Val) (o o' : Output) (h : finished (t.encode v o).1 = true) :
    (t.tally p v o').2 ≤ (t.tally p v o).2 ∧
      (finished (t.encode v o').1 = true → (t.tally p v o').2 = (t.tally p v o).2) := by
  obtain ⟨c, hc⟩ := t.tally_inv (Effort.costs_inv p) v
  have h1 := (hc o).2 (tally_finished p h)
  rw [h1]
  exact ⟨(hc o').1, fun h' => (hc o').2 (tally_finished p h')⟩

example : finished (sampleTy.encode sampleVal (.new [0, 0, 0, 0, 0, 0, 0])).1 = true ∧
    (sampleTy.tally .calls sampleVal (.new [0, 0, 0, 0, 0, 0, 0])).2 = 11 ∧
    (sampleTy.tally .calls sampleVal (.new [0, 0])).2 = 5 := by decide

/-- C133. If it comes to its end, encoding takes exactly the work of the value, and otherwise no more. -/
theorem C133_work (p : Prices) (t : Ty) (v : t.Val) (o : Output) :
    (t.tally p v o).2 ≤ work p t v ∧ (finished (t.encode v o).1 = true → (t.tally p v o).2 = work p t v) :=
  ⟨(t.tally_costs p v o).1, fun h => (t.tally_costs p v o).2 (tally_finished p h)⟩

example : work .calls sampleTy sampleVal = 11 ∧ work .writes sampleTy sampleVal = 5 ∧
    work .calls shapeTy shapeVal = 3 := by decide

/-- C133. If each item of a collection writes an octet, then, whatever the outcome, there are at most eight calls
for each part of the type, and eight for each part and octet written. Missing: collections whose items may write
none. -/
theorem C133_calls_partial (t : Ty) (ht : Thrifty t) (v : t.Val) (o : Output) (ho : o.WF) :
    (t.tally .calls v o).2 ≤ 8 * parts t * (1 + written o (t.encode v o).2) := by
  have h := t.tally_le .calls ht v o ho
  rw [C133_encodes] at h
  exact h

/-- The sample has five parts, so that three hundred and twenty calls would be allowed. -/
example : Thrifty sampleTy ∧ parts sampleTy = 5 := ⟨⟨trivial, ⟨trivial, trivial⟩, ⟨trivial, trivial⟩, trivial⟩, rfl⟩

/-- A socket address takes the eight calls. -/
example : (Ty.socketAddr.tally .calls (.v6 ⟨⟨List.replicate 16 0, rfl⟩, 0, 0, 0⟩) (.new [])).2 = 2 ∧
    (Ty.socketAddr.tally .calls (.v6 ⟨⟨List.replicate 16 0, rfl⟩, 0, 0, 0⟩) (.new (List.replicate 27 0))).2 = 8 := by
  decide

/-- C133. `EmitsSome` is exactly the types none of whose values is encoded as nothing. -/
theorem C133_emits (t : Ty) : EmitsSome t ↔ ∀ v, wire t v ≠ [] := by
  refine ⟨t.wire_ne_nil, fun h => Classical.byContradiction fun hn => ?_⟩
  obtain ⟨v, hv, _⟩ := t.wire_nil hn
  exact h v hv

example : EmitsSome (.option (.unit .unit)) ∧ ¬ EmitsSome (.hashSet .bool) := ⟨trivial, id⟩

/-- C133. The octets written do not bound the calls: if the items of a collection may write none, then for each
number of items there is a value that is written as two octets with more calls than that. -/
theorem C133_false_calls (k : SeqKind) (t : Ty) (ht : ¬ EmitsSome t) (n : Nat) (hn : n ≤ 65535) :
    ∃ v : (Ty.seq k t).Val, ∀ o : Output, o.WF → 2 ≤ o.remaining →
      finished ((Ty.seq k t).encode v o).1 = true ∧ written o ((Ty.seq k t).encode v o).2 = 2 ∧
        n ≤ ((Ty.seq k t).tally .calls v o).2 := by
  obtain ⟨x, hx, hE⟩ := t.wire_nil ht
  have hl : (List.replicate n x).length = n := List.length_replicate
  have hE' : Encodable (.seq k t) (List.replicate n x) := by
    refine ⟨by rw [hl]; exact hn, fun y hy => ?_⟩
    rw [List.eq_of_mem_replicate hy]
    exact hE
  have hw : wire (.seq k t) (List.replicate n x) = leBytes 2 n := by
    show leBytes 2 (List.replicate n x).length ++ (List.replicate n x).flatMap (wire t) = _
    rw [hl, List.flatMap_eq_nil_iff.mpr (fun y hy => by rw [List.eq_of_mem_replicate hy, hx]), List.append_nil]
  refine ⟨List.replicate n x, fun o ho hr => ?_⟩
  have hb : (leBytes 2 n).length = 2 := by simp [leBytes]
  obtain ⟨o', h1, _, h3, _⟩ := encodesTo' hE' hw o ho (by rw [hb]; exact hr)
  have hf : finished ((Ty.seq k t).encode (List.replicate n x) o).1 = true := by rw [h1]; rfl
  refine ⟨hf, by rw [h1]; unfold written; rw [h3, hb]; omega, ?_⟩
  have := tallySeq_ge .calls k t (List.replicate n x) o (tally_finished .calls hf)
  rw [hl] at this
  exact Nat.le_trans (Nat.le_of_eq (Nat.one_mul n).symm) this

/-- Three units take seven calls and two octets, with no room for a third. -/
example : ¬ EmitsSome (.unit .unit) ∧ ((Ty.seq .vec (.unit .unit)).tally .calls [(), (), ()] (.new [0, 0])).2 = 7 ∧
    ((Ty.seq .vec (.unit .unit)).encode [(), (), ()] (.new [0, 0])).2 = ⟨[3, 0], 2⟩ := ⟨id, by decide, by decide⟩

/-- C133. Octets are not written at once: `n` of them in a vector take a write and a call each, next to the length
(a write) and the calls for the vector, the slice, the length and its number. -/
theorem C133_octets (p : Prices) (l : List (BitVec 8)) (hl : l.length ≤ 65535) (o : Output)
    (hf : finished ((Ty.seq .vec (.num (.int .u8))).encode l o).1 = true) :
    ((Ty.seq .vec (.num (.int .u8))).tally p l o).2 = (4 + l.length) * p.call + (1 + l.length) * p.write := by
  have h := ((tallySlice_costs p (c := p.call + p.write) (m := (Ty.num (.int .u8)).tally p)
    (fun v => Effort.Costs.num p _ _) hl).call p o).2 (tally_finished p hf)
  refine h.trans ?_
  show p.call + (p.call + ((p.call + (p.call + p.write)) + (p.call + p.write) * l.length)) = _
  rw [Nat.add_mul p.call, Nat.add_mul 4, Nat.add_mul 1, Nat.mul_comm p.call, Nat.mul_comm p.write]
  omega

/-- C133. The same holds of the text of a string, with one call more. -/
theorem C133_string (p : Prices) (s : (Ty.str .string).Val) (hs : s.val.length ≤ 65535) (o : Output)
    (hf : finished ((Ty.str .string).encode s o).1 = true) :
    ((Ty.str .string).tally p s o).2 = (5 + s.val.length) * p.call + (1 + s.val.length) * p.write := by
  have h := (((tallySlice_costs (α := Byte) p (c := p.call + p.write) (m := fun b => tallyNum p 1 b.toNat)
    (fun v => Effort.Costs.num p _ _) hs).call p).call p o).2 (tally_finished p hf)
  refine h.trans ?_
  rw [Nat.add_mul p.call, Nat.add_mul 5, Nat.add_mul 1, Nat.mul_comm p.call, Nat.mul_comm p.write]
  omega

example : ((Ty.seq .vec (.num (.int .u8))).tally .calls [7#8, 8#8] (.new [0, 0, 0, 0])).2 = 6 ∧
    ((Ty.str .string).tally .writes ⟨[0x68, 0x69], by decide⟩ (.new [0, 0, 0, 0])).2 = 3 ∧
    ((Ty.str .string).tally .calls ⟨[0x68, 0x69], by decide⟩ (.new [0, 0, 0, 0])).2 = 7 := by decide

end Oct.Props
