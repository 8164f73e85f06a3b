import Verif.Proofs.Prim
/-
The behaviour of an encoder in one predicate: it writes a fixed octet string and ends with a fixed
outcome, unless the stream is too small.
-/
set_option linter.unusedVariables false
namespace Oct

namespace Output

theorem WF.put {o : Output} (h : o.WF) {w : List Byte} (hw : w.length ≤ o.remaining) :
    (o.put w).WF := by
  unfold WF Output.put remaining capacity position at *
  simp only [List.length_append, List.length_take, List.length_drop]
  omega

theorem remaining_put {o : Output} (h : o.WF) {w : List Byte} (hw : w.length ≤ o.remaining) :
    (o.put w).remaining = o.remaining - w.length := by
  unfold WF remaining capacity position Output.put at *
  simp only [List.length_append, List.length_take, List.length_drop]
  omega

theorem put_nil {o : Output} (h : o.WF) : o.put [] = o := by
  unfold Output.put
  simp [List.take_append_drop]

theorem put_put {o : Output} (h : o.WF) {w w' : List Byte} (hw : w.length ≤ o.remaining) :
    (o.put w).put w' = o.put (w ++ w') := by
  unfold WF remaining capacity position at *
  have hlen : (o.buf.take o.pos ++ w).length = o.pos + w.length := by
    simp only [List.length_append, List.length_take]; omega
  unfold Output.put
  simp only [List.length_append, Output.mk.injEq]
  refine ⟨?_, by omega⟩
  rw [List.take_append_of_le_length (by omega), List.take_of_length_le (by omega)]
  rw [List.drop_append, List.drop_eq_nil_of_le (by omega), List.nil_append, List.drop_drop]
  rw [hlen]
  have : o.pos + w.length + (o.pos + w.length + w'.length - (o.pos + w.length))
      = o.pos + (w.length + w'.length) := by omega
  rw [this]
  simp only [List.append_assoc]

theorem capacity_put {o : Output} (h : o.WF) {w : List Byte} (hw : w.length ≤ o.remaining) :
    (o.put w).buf.length = o.buf.length := by
  unfold WF remaining capacity position at *
  unfold Output.put
  simp only [List.length_append, List.length_take, List.length_drop]
  omega

end Output

/-- `m` writes `w` and ends with `r`; if `w` does not fit, `m` panics after writing a prefix of `w`
that does. -/
def Emits (m : Enc Unit) (w : List Byte) (r : Res EncErr Unit) : Prop :=
  ∀ o : Output, o.WF →
    (w.length ≤ o.remaining → m o = (r, o.put w)) ∧
    (o.remaining < w.length →
      ∃ w', w' <+: w ∧ w'.length ≤ o.remaining ∧ m o = (.panic .shortOutput, o.put w'))

theorem Emits.pure : Emits (Enc.pure ()) [] (.ok ()) := by
  intro o h
  refine ⟨fun _ => ?_, fun h' => ?_⟩
  · rw [Output.put_nil h]; rfl
  · simp at h'

theorem Emits.fail (e : EncErr) : Emits (Enc.fail e) [] (.err e) := by
  intro o h
  refine ⟨fun _ => ?_, fun h' => ?_⟩
  · rw [Output.put_nil h]; rfl
  · simp at h'

theorem Emits.panic (p : Panic) : Emits (Enc.panic p) [] (.panic p) := by
  intro o h
  refine ⟨fun _ => ?_, fun h' => ?_⟩
  · rw [Output.put_nil h]; rfl
  · simp at h'

theorem Emits.write (data : List Byte) : Emits (Enc.write data) data (.ok ()) := by
  intro o h
  unfold Enc.write Output.write
  unfold Output.remaining Output.capacity Output.position
  refine ⟨fun h' => ?_, fun h' => ?_⟩
  · simp only [Nat.not_lt.mpr h', if_false]
  · refine ⟨[], List.nil_prefix, by simp, ?_⟩
    simp only [h', if_true, Output.put_nil h]

theorem Emits.bind_ok {m : Enc Unit} {f : Unit → Enc Unit} {w w' : List Byte}
    {r : Res EncErr Unit} (hm : Emits m w (.ok ())) (hf : Emits (f ()) w' r) :
    Emits (m.bind f) (w ++ w') r := by
  intro o h
  refine ⟨fun hl => ?_, fun hl => ?_⟩
  · rw [List.length_append] at hl
    have h1 := (hm o h).1 (by omega)
    have h2 := (hf _ (h.put (w := w) (by omega))).1
      (by rw [Output.remaining_put h (by omega)]; omega)
    unfold Enc.bind
    rw [h1]
    simp only
    rw [h2, Output.put_put h (by omega)]
  · rw [List.length_append] at hl
    by_cases hw : w.length ≤ o.remaining
    · have h1 := (hm o h).1 hw
      obtain ⟨w2, hp, hlen, h2⟩ := (hf _ (h.put (w := w) hw)).2
        (by rw [Output.remaining_put h hw]; omega)
      rw [Output.remaining_put h hw] at hlen
      refine ⟨w ++ w2, (List.prefix_append_right_inj w).2 hp,
        by rw [List.length_append]; omega, ?_⟩
      unfold Enc.bind
      rw [h1]
      simp only
      rw [h2, Output.put_put h hw]
    · obtain ⟨w1, hp, hlen, h1⟩ := (hm o h).2 (by omega)
      refine ⟨w1, hp.trans (List.prefix_append _ _), hlen, ?_⟩
      unfold Enc.bind
      rw [h1]

theorem Emits.bind_stop {m : Enc Unit} {f : Unit → Enc Unit} {w : List Byte}
    {r : Res EncErr Unit} (hm : Emits m w r) (hr : r ≠ .ok ()) : Emits (m.bind f) w r := by
  intro o h
  refine ⟨fun hl => ?_, fun hl => ?_⟩
  · have h1 := (hm o h).1 hl
    unfold Enc.bind
    rw [h1]
    cases r <;> first | rfl | (exact absurd rfl hr)
  · obtain ⟨w1, hp, hlen, h1⟩ := (hm o h).2 hl
    refine ⟨w1, hp, hlen, ?_⟩
    unfold Enc.bind
    rw [h1]

theorem Emits.mapErr {m : Enc Unit} {w : List Byte} {r : Res EncErr Unit} (g : EncErr → EncErr)
    (hm : Emits m w r) : Emits (m.mapErr g) w (r.mapErr g) := by
  intro o h
  refine ⟨fun hl => ?_, fun hl => ?_⟩
  · have h1 := (hm o h).1 hl
    unfold Enc.mapErr
    rw [h1]
  · obtain ⟨w1, hp, hlen, h1⟩ := (hm o h).2 hl
    refine ⟨w1, hp, hlen, ?_⟩
    unfold Enc.mapErr
    rw [h1]
    rfl

/-- `m` writes `w` and succeeds if `E`; otherwise it writes something and does not succeed. -/
def Encodes (m : Enc Unit) (w : List Byte) (E : Prop) : Prop :=
  ∃ w' r, Emits m w' r ∧ (r = .ok () ↔ E) ∧ (E → w' = w)

theorem Encodes.emits {m : Enc Unit} {w : List Byte} {E : Prop} (h : Encodes m w E) (hE : E) :
    Emits m w (.ok ()) := by
  obtain ⟨w', r, h1, h2, h3⟩ := h
  rw [h2.2 hE, h3 hE] at h1
  exact h1

theorem Emits.encodes {m : Enc Unit} {w : List Byte} (h : Emits m w (.ok ())) {E : Prop} (hE : E) :
    Encodes m w E :=
  ⟨w, .ok (), h, by simp [hE], fun _ => rfl⟩

theorem Emits.not_encodes {m : Enc Unit} {w' w : List Byte} {r : Res EncErr Unit}
    (h : Emits m w' r) (hr : r ≠ .ok ()) {E : Prop} (hE : ¬ E) : Encodes m w E :=
  ⟨w', r, h, by simp [hE, hr], fun h => absurd h hE⟩

theorem Encodes.congr {m : Enc Unit} {w w' : List Byte} {E E' : Prop} (h : Encodes m w E)
    (hE : E ↔ E') (hw : E' → w = w') : Encodes m w' E' := by
  obtain ⟨x, r, h1, h2, h3⟩ := h
  exact ⟨x, r, h1, h2.trans hE, fun e => (h3 (hE.2 e)).trans (hw e)⟩

theorem Encodes.mapErr {m : Enc Unit} {w : List Byte} {E : Prop} (g : EncErr → EncErr)
    (h : Encodes m w E) : Encodes (m.mapErr g) w E := by
  obtain ⟨x, r, h1, h2, h3⟩ := h
  refine ⟨x, _, h1.mapErr g, ?_, h3⟩
  rw [← h2]
  cases r <;> simp

theorem Encodes.bind {m : Enc Unit} {f : Unit → Enc Unit} {w w' : List Byte} {E E' : Prop}
    (hm : Encodes m w E) (hf : Encodes (f ()) w' E') : Encodes (m.bind f) (w ++ w') (E ∧ E') := by
  obtain ⟨x, r, h1, h2, h3⟩ := hm
  obtain ⟨x', r', h1', h2', h3'⟩ := hf
  by_cases hr : r = .ok ()
  · have hE : E := h2.1 hr
    subst hr
    refine ⟨_, _, h1.bind_ok h1', ?_, ?_⟩
    · rw [h2']; simp [hE]
    · intro e
      rw [h3 e.1, h3' e.2]
  · refine ⟨_, _, h1.bind_stop hr, ?_, ?_⟩
    · simp only [hr, false_iff]; intro e; exact hr (h2.2 e.1)
    · intro e; exact absurd (h2.2 e.1) hr

end Oct
