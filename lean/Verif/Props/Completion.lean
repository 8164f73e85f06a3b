import Verif.Proofs.Completes
import Verif.Props.ExactTypes
import Verif.Props.Slots
/-
C130: running out of input; C20 and C23, exactly.
-/
namespace Oct.Props
open Oct Spec

/-- C130. Decoding runs out of input exactly where the outcome depends on what follows: otherwise, no
continuation changes the outcome, and where it does run out, there is a continuation with which it does not. -/
theorem C130_runs_out (t : Ty) (bs : List Byte) :
    ((t.decode (Input.new bs)).1 = .panic .shortInput ↔
      ∃ more, (t.decode (Input.new (bs ++ more))).1 ≠ (t.decode (Input.new bs)).1) ∧
    ∃ more, (t.decode (Input.new (bs ++ more))).1 ≠ .panic .shortInput := by
  refine ⟨⟨fun h => ?_, fun ⟨more, h⟩ => ?_⟩, t.decode_completes.2 bs⟩
  · rw [h]
    exact t.decode_completes.2 bs
  · apply Classical.byContradiction
    intro hn
    obtain ⟨r, n, hl, h1, h2⟩ := t.decode_local bs
    have e1 : t.decode (Input.new bs) = (r, ⟨bs, 0 + n⟩) := h1 []
    rw [e1] at h hn
    have e2 := h2 hn [] (bs.drop n ++ more)
    rw [← List.append_assoc (bs.take n), List.take_append_drop] at e2
    have e3 : t.decode (Input.new (bs ++ more)) = (r, ⟨bs ++ more, 0 + n⟩) := e2
    rw [e3] at h
    exact h rfl

example : ((Ty.seq .vec .bool).decode (Input.new [2, 0, 1])).1 = .panic .shortInput ∧
    ((Ty.seq .vec .bool).decode (Input.new ([2, 0, 1] ++ [0]))).1 = .ok [true, false] := ⟨rfl, rfl⟩

/-- C23, exactly. Whether reading a slot gives what decoding its contents gives is up to the contents: it
does for every slot with these contents, whatever its history, just if decoding them does not run out of
input. Otherwise what earlier writes have left decides. -/
theorem C23_exactly (t : Ty) (l : List Byte) :
    (t.decode (Input.new l)).1 ≠ .panic .shortInput ↔
      ∀ (cap : Nat) (ops : List SlotOp), ((Slot.withCapacity cap).run ops).asSlice = .ok l →
        ((Slot.withCapacity cap).run ops).read t = (t.decode (Input.new l)).1 := by
  constructor
  · intro h cap ops hl
    exact C23_read_contents_partial _ t l hl h
  · intro h hs
    obtain ⟨more, hm⟩ := (C130_runs_out t l).2
    have h1 : (Slot.withCapacity (l ++ more).length).run [.copyFromSlice (l ++ more), .setLen l.length]
        = ⟨l ++ more, l.length⟩ := by
      have hc : (Slot.withCapacity (l ++ more).length).copyFromSlice (l ++ more)
          = (.ok (), ⟨l ++ more, (l ++ more).length⟩) := by
        unfold Slot.copyFromSlice Slot.withCapacity Slot.capacity
        simp
      have hs : (⟨l ++ more, (l ++ more).length⟩ : Slot).setLen l.length
          = (.ok (), ⟨l ++ more, l.length⟩) := by
        unfold Slot.setLen Slot.capacity
        simp
      show ((Slot.setLen ((Slot.copyFromSlice _ _).2) _).2) = _
      rw [hc, hs]
    have h2 := h (l ++ more).length [.copyFromSlice (l ++ more), .setLen l.length] (by
      rw [h1]
      unfold Slot.asSlice
      simp)
    rw [h1, hs] at h2
    exact hm h2

example : (Ty.bool.decode (Input.new [1])).1 ≠ .panic .shortInput ∧
    (Ty.char.decode (Input.new [1])).1 = .panic .shortInput := ⟨by decide, rfl⟩

/-- C20, exactly, of writing. Writing succeeds for all encodable values and whatever has been done with
the slot, just if the longest encoding is no longer than `MAX_ENCODED_SIZE`. -/
theorem C20_writes_exactly (sizeOf : Ty → Nat) (t : Ty) (ht : t.HasSized) :
    (∀ n, longest t = some n → n ≤ t.maxSize sizeOf) ↔
      ∀ v : t.Val, Encodable t v → ∀ ops : List SlotOp,
        (((Slot.new sizeOf t).run ops).write t v).1 = .ok () := by
  rw [C18_exactly sizeOf t ht]
  have hobs : ∀ v : t.Val, Encodable t v → t.encode v (Output.new (List.replicate (wire t v).length 0))
      = (.ok (), (Output.new (List.replicate (wire t v).length 0)).put (wire t v)) := fun v hv =>
    ((Ty.encode_encodes t v).emits hv _ (Nat.zero_le _)).1 (by
      show (wire t v).length ≤ (List.replicate _ (0 : Byte)).length - 0
      rw [List.length_replicate]; omega)
  constructor
  · intro h v hv ops
    have hc : ((Slot.new sizeOf t).run ops).buf.length = t.maxSize sizeOf := by
      have := (Slot.run_inv ops (Slot.new sizeOf t) (Nat.zero_le _)).1
      have h2 : (Slot.new sizeOf t).capacity = t.maxSize sizeOf := List.length_replicate
      exact this.trans h2
    have hl : (wire t v).length ≤ t.maxSize sizeOf := by
      have := h v _ _ (Nat.zero_le _) (hobs v hv)
      simpa [Output.put, Output.new, Output.position] using this
    generalize (Slot.new sizeOf t).run ops = s at hc
    have hroom : (wire t v).length ≤ (Output.new s.buf).remaining := by
      show (wire t v).length ≤ s.buf.length - 0
      omega
    have he := ((Ty.encode_encodes t v).emits hv (Output.new s.buf) (Nat.zero_le _)).1 hroom
    rw [Slot.write_eq, he]
  · intro h v o o' ho he
    obtain ⟨hv, hl, rfl⟩ := Ty.encode_ok t v ho he
    have hw := h v hv []
    have hle : (wire t v).length ≤ t.maxSize sizeOf := by
      have hw : ((Slot.new sizeOf t).write t v).1 = .ok () := hw
      rw [Slot.write_eq] at hw
      generalize hq : t.encode v (Output.new (Slot.new sizeOf t).buf) = q at hw
      obtain ⟨r, o1⟩ := q
      cases r with
      | ok u =>
        obtain ⟨_, h2, _⟩ := Ty.encode_ok t v (Nat.zero_le _) hq
        have h3 : (wire t v).length ≤ (List.replicate (t.maxSize sizeOf) (0 : Byte)).length - 0 := h2
        rw [List.length_replicate] at h3
        omega
      | err e => cases hw
      | panic p => cases hw
      | ub u => cases hw
    rw [(Output.put_obs ho hl).1]
    show o.pos + _ ≤ o.pos + _
    omega

example (sizeOf : Ty → Nat) : (Ty.option .usize).HasSized ∧ longest (.option .usize) = some 3 ∧
    (Ty.option .usize).maxSize sizeOf = 3 := ⟨trivial, rfl, rfl⟩

end Oct.Props
