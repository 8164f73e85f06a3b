import Verif.Proofs.CostRate
import Verif.Proofs.CostTrack
import Verif.Props.Samples
/-
C101-C103: what decoding costs, in calls, allocations and space that is reserved.
-/
namespace Oct.Props
open Oct Spec
set_option linter.unusedVariables false

/-- Counting does not change what is decoded. -/
theorem C101_decodes (w : Weights) (t : Ty) (I : Input) : (t.cost w I).1 = t.decode I := t.cost_same w I

/-- The bound behind all the others: whatever things cost, decoding costs at most the rate of the type for
each octet consumed, and once more; and, if it does not succeed, what may have been reserved in vain. -/
theorem cost_le (w : Weights) (t : Ty) (I : Input) (hI : I.WF) :
    (t.cost w I).2 ≤ rate w t * (1 + consumed I (t.decode I).2)
      + (if came (t.decode I).1 then 0 else pending w t) := by
  have h := (t.cost_fits w I hI).2.2
  rw [t.cost_same w I] at h
  exact h

/-- C101. The number of calls of `decode`, whatever the outcome, is at most the rate for each octet
consumed, and once more. -/
theorem C101_calls (t : Ty) (I : Input) (hI : I.WF) :
    (t.cost .calls I).2 ≤ rate .calls t * (1 + consumed I (t.decode I).2) := by
  have h := cost_le .calls t I hI
  have h0 : pending .calls t = 0 := by
    have := pending_le .calls t
    rw [show 65535 * Weights.calls.cell * nest t = 0 by show 65535 * 0 * _ = 0; simp] at this
    omega
  rw [h0, ite_self] at h
  exact h

/-- C101. If each item of a collection has an octet, that is at most two to the depth of nesting of the
collections for each part of the type and octet. Missing: collections whose items have none. -/
theorem C101_calls_partial (t : Ty) (ht : Frugal t) (I : Input) (hI : I.WF) :
    (t.cost .calls I).2 ≤ 2 ^ nest t * parts t * (1 + consumed I (t.decode I).2) := by
  refine Nat.le_trans (C101_calls t I hI) (Nat.mul_le_mul_right _ ?_)
  have h : rate .calls t ≤ 1 * (2 ^ nest t * parts t) := rate_le .calls t ht
  rwa [Nat.one_mul] at h

/-- `Vec<Option<u16>>`. -/
abbrev optionsTy : Ty := .seq .vec (.option (.num (.int .u16)))

/-- Two items take six octets, and four calls (a length, two signs and a number); six for each octet and once
more would be allowed. -/
example : Frugal optionsTy ∧
    (optionsTy.cost .calls ⟨[2, 0, 0, 1, 5, 6], 0⟩).2 = 4 ∧
    consumed ⟨[2, 0, 0, 1, 5, 6], 0⟩ (optionsTy.decode ⟨[2, 0, 0, 1, 5, 6], 0⟩).2 = 6 ∧
    2 ^ nest optionsTy * parts optionsTy = 6 :=
  ⟨⟨trivial, trivial, trivial⟩, rfl, rfl, rfl⟩

/-- The length 65535, and nothing else. -/
def bomb : Input := ⟨[255, 255], 0⟩

/-- The two octets of the length are consumed. -/
def bomb' : Input := ⟨[255, 255], 2⟩

theorem bomb_len : decUsize bomb = (.ok 65535, bomb') := by decide

theorem bomb_used {I : Input} (h : I = bomb') : consumed bomb I = 2 := by
  rw [h]
  rfl

/-- C101 is false: from two octets, a vector of 65535 `()` is made in as many calls. -/
theorem C101_false_calls :
    ∃ (t : Ty) (I : Input) (v : t.Val), I.WF ∧ (t.decode I).1 = .ok v ∧
      consumed I (t.decode I).2 = 2 ∧ nest t = 1 ∧ parts t = 2 ∧ (t.cost .calls I).2 = 65536 := by
  obtain ⟨l, e⟩ := costVec_idle .calls (m := (Ty.unit .unit).cost .calls) (fun _ => rfl) bomb_len
  have e' := (C101_decodes .calls (.seq .vec (.unit .unit)) bomb).symm.trans (congrArg Prod.fst e)
  exact ⟨.seq .vec (.unit .unit), bomb, l, Nat.zero_le _, congrArg Prod.fst e',
    bomb_used (congrArg Prod.snd e'), rfl, rfl, congrArg Prod.snd e⟩

/-- C102. The number of allocations, whatever the outcome, is at most the rate for each octet consumed, and
once more. The account is that of C81. -/
theorem C102_allocations (t : Ty) (I : Input) (n : Nat) (hI : I.WF) :
    (t.track I n).next ≤ n + rate .allocs t * (1 + consumed I (t.decode I).2) := by
  have h := cost_le .allocs t I hI
  have h0 : pending .allocs t = 0 := by
    have := pending_le .allocs t
    rw [show 65535 * Weights.allocs.cell * nest t = 0 by show 65535 * 0 * _ = 0; simp] at this
    omega
  rw [h0, ite_self] at h
  rw [(t.track_agrees I n).2.2]
  omega

/-- C102. If each item of a collection has an octet, that is at most two to the depth of nesting of the
collections for each part of the type and octet. Missing: collections whose items have none. -/
theorem C102_allocations_partial (t : Ty) (ht : Frugal t) (I : Input) (n : Nat) (hI : I.WF) :
    (t.track I n).next ≤ n + 2 ^ nest t * parts t * (1 + consumed I (t.decode I).2) := by
  refine Nat.le_trans (C102_allocations t I n hI) (Nat.add_le_add_left (Nat.mul_le_mul_right _ ?_) _)
  have h : rate .allocs t ≤ 1 * (2 ^ nest t * parts t) := rate_le .allocs t ht
  rwa [Nat.one_mul] at h

/-- `LinkedList<Box<u8>>`. -/
abbrev boxesTy : Ty := .seq .linkedList (.wrap .box (.num (.int .u8)))

/-- Two items take four octets, and four allocations. -/
example : Frugal boxesTy ∧ (boxesTy.track ⟨[2, 0, 7, 8], 0⟩ 10).next = 14 ∧
    consumed ⟨[2, 0, 7, 8], 0⟩ (boxesTy.decode ⟨[2, 0, 7, 8], 0⟩).2 = 4 ∧
    2 ^ nest boxesTy * parts boxesTy = 6 :=
  ⟨⟨trivial, trivial, trivial⟩, rfl, rfl, rfl⟩

/-- C102 is false: from two octets, a list of 65535 `()` is made, each in a node of its own. -/
theorem C102_false_allocations :
    ∃ (t : Ty) (I : Input) (v : t.Val), I.WF ∧ (t.decode I).1 = .ok v ∧
      consumed I (t.decode I).2 = 2 ∧ nest t = 1 ∧ parts t = 2 ∧
      ∀ n, (t.track I n).next = n + 65535 := by
  obtain ⟨l, e⟩ := costList_idle .allocs (m := (Ty.unit .unit).cost .allocs) (fun _ => rfl) bomb_len
  have e' := (C101_decodes .allocs (.seq .linkedList (.unit .unit)) bomb).symm.trans
    (congrArg Prod.fst e)
  exact ⟨.seq .linkedList (.unit .unit), bomb, l, Nat.zero_le _, congrArg Prod.fst e',
    bomb_used (congrArg Prod.snd e'), rfl, rfl, fun n =>
      (Ty.track_agrees (.seq .linkedList (.unit .unit)) bomb n).2.2.trans
        (congrArg (n + ·) (congrArg Prod.snd e))⟩

/-- C103. Decoding reserves space in buffers for at most as many items as the rate says for each octet
consumed, and once more; and, if it does not succeed, for 65535 more in each of the buffers that were
inside one another. -/
theorem C103_reserved (t : Ty) (I : Input) (hI : I.WF) :
    (t.cost .cells I).2 ≤ rate .cells t * (1 + consumed I (t.decode I).2)
      + (if came (t.decode I).1 then 0 else 65535 * nest t) := by
  refine Nat.le_trans (cost_le .cells t I hI) (Nat.add_le_add_left ?_ _)
  split
  · exact Nat.le_refl _
  · exact pending_le .cells t

/-- C103. If each item of a collection has an octet and decoding succeeds, space has been reserved for at
most two to the depth of nesting items for each part of the type and octet. Missing: decodings that do not
succeed, and collections whose items have no octets. -/
theorem C103_reserved_partial (t : Ty) (ht : Frugal t) (I : Input) (hI : I.WF) (v : t.Val)
    (hv : (t.decode I).1 = .ok v) :
    (t.cost .cells I).2 ≤ 2 ^ nest t * parts t * (1 + consumed I (t.decode I).2) := by
  have h := C103_reserved t I hI
  rw [hv, show came (Res.ok v : Res DecErr t.Val) = true from rfl, if_pos rfl, Nat.add_zero] at h
  refine Nat.le_trans h (Nat.mul_le_mul_right _ ?_)
  have h : rate .cells t ≤ 1 * (2 ^ nest t * parts t) := rate_le .cells t ht
  rwa [Nat.one_mul] at h

/-- Space is reserved for two items. -/
example : (optionsTy.cost .cells ⟨[2, 0, 0, 1, 5, 6], 0⟩).2 = 2 := rfl

/-- C103 is false: from two octets, space for 65535 octets is reserved, none of which is there. -/
theorem C103_false_lacking :
    ∃ (t : Ty) (I : Input), Frugal t ∧ I.WF ∧ (t.decode I).1 = .panic .shortInput ∧
      consumed I (t.decode I).2 = 2 ∧ nest t = 1 ∧ parts t = 2 ∧ (t.cost .cells I).2 = 65535 := by
  have e := costVec_lacking .cells (m := (Ty.num (.int .u8)).cost .cells) (I' := bomb') (len := 65534)
    (c := 0) (show (Ty.num (.int .u8)).cost .cells bomb' = ((.panic .shortInput, bomb'), 0) from rfl)
    bomb_len
  have e' := (C101_decodes .cells (.seq .vec (.num (.int .u8))) bomb).symm.trans (congrArg Prod.fst e)
  exact ⟨.seq .vec (.num (.int .u8)), bomb, ⟨trivial, trivial⟩, Nat.zero_le _, congrArg Prod.fst e',
    bomb_used (congrArg Prod.snd e'), rfl, rfl, congrArg Prod.snd e⟩

/-- C103 is false: from two octets, a vector of 65535 `RefCell<()>` is made, which have a size but no
octets. -/
theorem C103_false_idle :
    ∃ (t : Ty) (I : Input) (v : t.Val), I.WF ∧ (t.decode I).1 = .ok v ∧
      consumed I (t.decode I).2 = 2 ∧ nest t = 1 ∧ parts t = 3 ∧ (t.cost .cells I).2 = 65535 := by
  obtain ⟨l, e⟩ := costVec_idle .cells (m := (Ty.refCell (.unit .unit)).cost .cells) (c := 0)
    (fun _ => rfl) bomb_len
  have e' := (C101_decodes .cells (.seq .vec (.refCell (.unit .unit))) bomb).symm.trans
    (congrArg Prod.fst e)
  exact ⟨.seq .vec (.refCell (.unit .unit)), bomb, l, Nat.zero_le _, congrArg Prod.fst e',
    bomb_used (congrArg Prod.snd e'), rfl, rfl, congrArg Prod.snd e⟩

end Oct.Props
