import Verif.Proofs.Quiet
import Verif.Proofs.RoundTrip
/-
What `Emits` says about one run, in terms of the observable parts of the stream.
-/
namespace Oct
open Spec

theorem Output.put_obs {o : Output} (h : o.position ≤ o.capacity) {w : List Byte}
    (hw : w.length ≤ o.remaining) :
    (o.put w).position = o.position + w.length ∧ (o.put w).capacity = o.capacity ∧
    (o.put w).asSlice = o.asSlice ++ w ∧
    (o.put w).buf.drop (o.put w).position = o.buf.drop (o.put w).position := by
  have h' : o.pos ≤ o.buf.length := h
  have hw' : w.length ≤ o.buf.length - o.pos := hw
  have hl : (o.buf.take o.pos ++ w).length = o.pos + w.length := by
    rw [List.length_append, List.length_take]; omega
  refine ⟨rfl, Output.capacity_put h hw, ?_, ?_⟩
  · show (o.buf.take o.pos ++ w ++ o.buf.drop (o.pos + w.length)).take (o.pos + w.length) = _
    rw [← hl, List.take_left']
    · rfl
    · rfl
  · show (o.buf.take o.pos ++ w ++ o.buf.drop (o.pos + w.length)).drop (o.pos + w.length) = _
    rw [← hl, List.drop_left']
    · rw [hl]; rfl
    · rfl

/-- A successful run: the value is encodable, there was room, and its encoding was appended. -/
theorem Ty.encode_ok (t : Ty) (v : t.Val) {o o' : Output} (ho : o.position ≤ o.capacity)
    (h : t.encode v o = (.ok (), o')) :
    Encodable t v ∧ (wire t v).length ≤ o.remaining ∧ o' = o.put (wire t v) := by
  obtain ⟨w, r, he, hr, hw⟩ := Ty.encode_encodes t v
  by_cases hl : w.length ≤ o.remaining
  · have h1 := (he o ho).1 hl
    rw [h] at h1
    have hv := hr.1 (Prod.mk.inj h1).1.symm
    rw [hw hv] at hl h1
    exact ⟨hv, hl, (Prod.mk.inj h1).2⟩
  · obtain ⟨w', _, _, h1⟩ := (he o ho).2 (by omega)
    rw [h] at h1
    cases (Prod.mk.inj h1).1

/-- What a successful run appended. -/
theorem Ty.encode_ok_drop (t : Ty) (v : t.Val) {o o' : Output} (ho : o.position ≤ o.capacity)
    (h : t.encode v o = (.ok (), o')) : o'.asSlice.drop o.position = wire t v := by
  obtain ⟨_, hl, rfl⟩ := Ty.encode_ok t v ho h
  rw [(Output.put_obs ho hl).2.2.1]
  apply List.drop_left'
  show (o.buf.take o.pos).length = o.pos
  rw [List.length_take]
  exact Nat.min_eq_left ho

theorem encItems_err {α : Type} (enc : α → Enc Unit) (wrap : Nat → EncErr → EncErr) (l : List α) :
    ∀ (i : Nat) (o : Output) (e : EncErr), (encItems enc wrap i l o).1 = .err e →
      ∃ j e', e = wrap j e' := by
  induction l with
  | nil => intro i o e h; cases h
  | cons a l ih =>
    intro i o e h
    have hb : encItems enc wrap i (a :: l) o
        = Enc.bind ((enc a).mapErr (wrap i)) (fun _ => encItems enc wrap (i + 1) l) o := rfl
    rw [hb] at h
    unfold Enc.bind Enc.mapErr at h
    generalize enc a o = r at h
    obtain ⟨r, o1⟩ := r
    cases r with
    | ok u => exact ih _ _ _ h
    | err e' => simp at h; exact ⟨i, e', h.symm⟩
    | panic p => simp at h
    | ub u => simp at h

/-- Encoding the items before an item, and then that item. -/
theorem encItems_append {α : Type} (enc : α → Enc Unit) (wrap : Nat → EncErr → EncErr)
    (w : α → List Byte) (pre post : List α) (x : α) :
    ∀ (i : Nat) (o : Output), o.WF → (∀ y ∈ pre, Emits (enc y) (w y) (.ok ())) →
      (pre.flatMap w).length ≤ o.remaining →
      ∀ e o2, enc x (o.put (pre.flatMap w)) = (.err e, o2) →
        encItems enc wrap i (pre ++ x :: post) o = (.err (wrap (i + pre.length) e), o2) := by
  induction pre with
  | nil =>
    intro i o hwf _ _ e o2 hx
    simp only [List.flatMap_nil, Output.put_nil hwf] at hx
    show Enc.bind ((enc x).mapErr (wrap i)) (fun _ => encItems enc wrap (i + 1) post) o = _
    unfold Enc.bind Enc.mapErr
    rw [hx]
    rfl
  | cons a pre ih =>
    intro i o hwf hpre hroom e o2 hx
    have hroom' : (w a).length + (pre.flatMap w).length ≤ o.remaining := by
      simpa [List.flatMap_cons] using hroom
    have ha := ((hpre a (by simp)) o hwf).1 (by omega)
    have hwf' : (o.put (w a)).WF := hwf.put (by omega)
    have hrem' : (o.put (w a)).remaining = o.remaining - (w a).length :=
      Output.remaining_put hwf (by omega)
    show Enc.bind ((enc a).mapErr (wrap i))
      (fun _ => encItems enc wrap (i + 1) (pre ++ x :: post)) o = _
    unfold Enc.bind Enc.mapErr
    rw [ha]
    simp only [Res.mapErr_ok]
    rw [ih (i + 1) (o.put (w a)) hwf' (fun y hy => hpre y (by simp [hy])) (by omega) e o2]
    · simp only [List.length_cons]
      congr 3
      omega
    · rw [Output.put_put hwf (by omega), ← List.flatMap_cons]
      exact hx

end Oct
