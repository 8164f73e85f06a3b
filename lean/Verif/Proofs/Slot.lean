import Verif.Model.Slot
import Verif.Proofs.Outcome
/- Slots: histories of operations and their invariant. -/
namespace Oct
open Spec

/-- Encoding leaves the stream's capacity alone and its position within, whatever the outcome. -/
theorem Ty.encode_wf (t : Ty) (v : t.Val) {o : Output} (ho : o.position ≤ o.capacity) :
    (t.encode v o).2.capacity = o.capacity ∧
      (t.encode v o).2.position ≤ (t.encode v o).2.capacity := by
  obtain ⟨w, r, he, _, _⟩ := Ty.encode_encodes t v
  by_cases hl : w.length ≤ o.remaining
  · rw [(he o ho).1 hl]
    exact ⟨Output.capacity_put ho hl, Output.WF.put ho hl⟩
  · obtain ⟨w', _, hl', h1⟩ := (he o ho).2 (by omega)
    rw [h1]
    exact ⟨Output.capacity_put ho hl', Output.WF.put ho hl'⟩

/-- Safe operations of a slot that may change it. -/
inductive SlotOp where
  | write (t : Ty) (v : t.Val)
  | copyFromSlice (data : List Byte)
  | setLen (len : Nat)
  | setByte (i : Nat) (b : Byte)

/-- The slot after an operation, whatever its outcome. -/
def Slot.step (s : Slot) : SlotOp → Slot
  | .write t v => (s.write t v).2
  | .copyFromSlice data => (s.copyFromSlice data).2
  | .setLen len => (s.setLen len).2
  | .setByte i b => (s.setByte i b).2

/-- The slot after a history of operations. -/
def Slot.run (s : Slot) (ops : List SlotOp) : Slot := ops.foldl Slot.step s

theorem Slot.write_eq (s : Slot) (t : Ty) (v : t.Val) :
    s.write t v = match t.encode v (Output.new s.buf) with
      | (.ok (), o) => (.ok (), { buf := o.buf, len := o.position })
      | (.err e, o) => (.err e, { s with buf := o.buf })
      | (.panic p, o) => (.panic p, { s with buf := o.buf })
      | (.ub u, o) => (.ub u, { s with buf := o.buf }) := by
  unfold Slot.write
  have h := (Ty.encode_wf t v (o := Output.new s.buf) (Nat.zero_le _)).2
  generalize t.encode v (Output.new s.buf) = r at h
  obtain ⟨r, o⟩ := r
  cases r with
  | ok u =>
    simp only
    have h' : o.position ≤ ({ s with buf := o.buf } : Slot).capacity := h
    unfold Slot.setLen
    rw [if_pos h']
  | err e => rfl
  | panic p => rfl
  | ub u => rfl

theorem Slot.step_inv (s : Slot) (op : SlotOp) (h : s.len ≤ s.capacity) :
    (s.step op).capacity = s.capacity ∧ (s.step op).len ≤ (s.step op).capacity := by
  cases op with
  | write t v =>
    have hw := Ty.encode_wf t v (o := Output.new s.buf) (Nat.zero_le _)
    unfold Slot.step
    simp only
    rw [Slot.write_eq]
    generalize t.encode v (Output.new s.buf) = r at hw
    obtain ⟨r, o⟩ := r
    have hc : o.buf.length = s.buf.length := hw.1
    have hp : o.position ≤ o.buf.length := hw.2
    have h' : s.len ≤ s.buf.length := h
    cases r with
    | ok u => exact ⟨hc, hp⟩
    | err e => exact ⟨hc, by show s.len ≤ o.buf.length; omega⟩
    | panic p => exact ⟨hc, by show s.len ≤ o.buf.length; omega⟩
    | ub u => exact ⟨hc, by show s.len ≤ o.buf.length; omega⟩
  | copyFromSlice data =>
    unfold Slot.step Slot.copyFromSlice
    simp only
    split
    · rename_i hd
      have hd' : data.length ≤ s.buf.length := hd
      have : (data ++ s.buf.drop data.length).length = s.buf.length := by
        rw [List.length_append, List.length_drop]; omega
      exact ⟨this, by show data.length ≤ (data ++ s.buf.drop data.length).length; omega⟩
    · exact ⟨rfl, h⟩
  | setLen len =>
    unfold Slot.step Slot.setLen
    simp only
    split
    · rename_i hl; exact ⟨rfl, hl⟩
    · exact ⟨rfl, h⟩
  | setByte i b =>
    unfold Slot.step Slot.setByte
    simp only
    split
    · have : (s.buf.set i b).length = s.buf.length := List.length_set
      exact ⟨this, by show s.len ≤ (s.buf.set i b).length; rw [this]; exact h⟩
    · exact ⟨rfl, h⟩

theorem Slot.run_inv (ops : List SlotOp) : ∀ (s : Slot), s.len ≤ s.capacity →
    (s.run ops).capacity = s.capacity ∧ (s.run ops).len ≤ (s.run ops).capacity := by
  induction ops with
  | nil => intro s h; exact ⟨rfl, h⟩
  | cons op ops ih =>
    intro s h
    have h1 := s.step_inv op h
    have h2 := ih (s.step op) h1.2
    exact ⟨h2.1.trans h1.1, h2.2⟩

end Oct
