import Verif.Proofs.Custom
import Verif.Proofs.Slot
/- What collections, derives and slots do with impls that do as they please. -/
namespace Oct
open Spec
set_option linter.unusedVariables false

theorem bind_stop_of {m : Enc Unit} {f : Unit → Enc Unit} {o o' : Output} {r r' : Res EncErr Unit}
    (g : EncErr → EncErr) (h : m o = (r, o')) (hr : reported g r = some r') :
    (m.mapErr g >>= f) o = (r', o') := by
  show Enc.bind _ _ o = _
  unfold Enc.bind Enc.mapErr
  rw [h]
  cases r <;> cases hr <;> rfl

theorem bind_ok_of {m : Enc Unit} {f : Unit → Enc Unit} {o o' : Output} (g : EncErr → EncErr)
    (h : m o = (.ok (), o')) : (m.mapErr g >>= f) o = f () o' := by
  show Enc.bind _ _ o = _
  unfold Enc.bind Enc.mapErr
  rw [h]
  rfl

theorem reported_some {ε α β : Type} (g : ε → ε) (r : Res ε α) (h : ∀ a, r ≠ .ok a) :
    ∃ r' : Res ε β, reported g r = some r' := by
  cases r with
  | ok a => exact absurd rfl (h a)
  | err e => exact ⟨_, rfl⟩
  | panic p => exact ⟨_, rfl⟩
  | ub u => exact ⟨_, rfl⟩

theorem encItems_calls {α : Type} (enc : α → Enc Unit) (wrap : Nat → EncErr → EncErr) (l : List α)
    (i : Nat) (o : Output) :
    (∃ o', Calls enc l o o' ∧ encItems enc wrap i l o = (.ok (), o')) ∨
    ∃ before x after o1 r o2, l = before ++ x :: after ∧ Calls enc before o o1 ∧
      enc x o1 = (r, o2) ∧ ∃ r', reported (wrap (i + before.length)) r = some r' ∧
        encItems enc wrap i l o = (r', o2) := by
  induction l generalizing i o with
  | nil => exact .inl ⟨o, .nil o, rfl⟩
  | cons a l ih =>
    obtain ⟨⟨r, o1⟩, h⟩ : ∃ x, enc a o = x := ⟨_, rfl⟩
    by_cases hr : r = .ok ()
    · subst hr
      have e : encItems enc wrap i (a :: l) o = encItems enc wrap (i + 1) l o1 := bind_ok_of _ h
      rw [e]
      rcases ih (i + 1) o1 with ⟨o', h1, h2⟩ | ⟨b, x, c, o2, r, o3, h1, h2, h3, r', h4, h5⟩
      · exact .inl ⟨o', .cons h h1, h2⟩
      · refine .inr ⟨a :: b, x, c, o2, r, o3, by rw [h1]; rfl, .cons h h2, h3, r', ?_, h5⟩
        rw [List.length_cons, show i + (b.length + 1) = i + 1 + b.length by omega]
        exact h4
    · obtain ⟨r', hr'⟩ := reported_some (β := Unit) (wrap i) r (fun _ e => hr e)
      exact .inr ⟨[], a, l, o, r, o1, rfl, .nil o, h, r', hr', bind_stop_of _ h hr'⟩

theorem decItems_gets {α : Type} (dec : Dec α) (n j : Nat) (i : Input) :
    (∃ (l : Items α n) (i' : Input), l.val.length = n ∧ Gets dec l.val i i' ∧
      decItems dec n j i = (.ok l, i')) ∨
    ∃ before i1 r i2, before.length < n ∧ Gets dec before i i1 ∧ dec i1 = (r, i2) ∧
      ∃ r', reported (fun e => .badItem (.item (j + before.length) e)) r = some r' ∧
        decItems dec n j i = (r', i2) := by
  induction n generalizing j i with
  | zero => exact .inl ⟨⟨[], rfl⟩, i, rfl, .nil i, rfl⟩
  | succ n ih =>
    obtain ⟨⟨r, i1⟩, h⟩ : ∃ x, dec i = x := ⟨_, rfl⟩
    have e : decItems dec (n + 1) j i = Dec.bind (dec.mapErr (fun e => .badItem (.item j e)))
        (fun v => Dec.bind (decItems dec n (j + 1))
          (fun vs => Pure.pure ⟨v :: vs.val, by simp [vs.property]⟩)) i := rfl
    rw [e]
    unfold Dec.bind Dec.mapErr
    rw [h]
    cases r with
    | ok a =>
      simp only [Res.mapErr_ok]
      rcases ih (j + 1) i1 with ⟨l, i', h0, h1, h2⟩ | ⟨b, i2, r, i3, h0, h2, h3, r', h4, h5⟩
      · rw [h2]
        exact .inl ⟨⟨a :: l.val, by simp [l.property]⟩, i', by simp [l.property], .cons h h1, rfl⟩
      · rw [h5]
        have h4' : reported (β := Items α (n + 1))
            (fun e => DecErr.badItem (.item (j + (a :: b).length) e)) r
            = some (match r' with | .ok _ => .panic .unreachable | .err e => .err e | .panic p => .panic p | .ub u => .ub u) := by
          rw [List.length_cons, show j + (b.length + 1) = j + 1 + b.length by omega]
          cases r <;> cases h4 <;> rfl
        refine .inr ⟨a :: b, i2, r, i3, by simp; omega, .cons h h2, h3, _, h4', ?_⟩
        cases r <;> cases h4 <;> rfl
    | err e => exact .inr ⟨[], i, _, i1, by simp, .nil i, h, _, rfl, rfl⟩
    | panic e => exact .inr ⟨[], i, _, i1, by simp, .nil i, h, _, rfl, rfl⟩
    | ub e => exact .inr ⟨[], i, _, i1, by simp, .nil i, h, _, rfl, rfl⟩

theorem fields_calls (g : (EncErr → EncErr) → EncErr → EncErr) : (fs : OpenFields) → (v : fs.Val) →
    (o : Output) →
    (∃ o', Calls (fun c : Enc Unit × (EncErr → EncErr) => c.1) (fieldCalls fs v) o o' ∧
      fs.encode g v o = (.ok (), o')) ∨
    ∃ before c after o1 r o2, fieldCalls fs v = before ++ c :: after ∧
      Calls (fun c : Enc Unit × (EncErr → EncErr) => c.1) before o o1 ∧
      c.1 o1 = (r, o2) ∧ ∃ r', reported (g c.2) r = some r' ∧ fs.encode g v o = (r', o2)
  | .nil, _, o => .inl ⟨o, .nil o, rfl⟩
  | .cons t fs, v, o => by
    obtain ⟨⟨r, o1⟩, h⟩ : ∃ x, t.encode v.1 o = x := ⟨_, rfl⟩
    by_cases hr : r = .ok ()
    · subst hr
      have e : OpenFields.encode (.cons t fs) g v o = fs.encode g v.2 o1 :=
        bind_ok_of _ h
      rw [e]
      rcases fields_calls g fs v.2 o1 with ⟨o', h1, h2⟩ | ⟨b, x, c, o2, r, o3, h1, h2, h3, r', h4, h5⟩
      · exact .inl ⟨o', .cons h h1, h2⟩
      · exact .inr ⟨(t.encode v.1, t.encInto) :: b, x, c, o2, r, o3,
          congrArg (List.cons _) h1, .cons h h2, h3, r', h4, h5⟩
    · obtain ⟨r', hr'⟩ := reported_some (β := Unit) (g t.encInto) r (fun _ e => hr e)
      exact .inr ⟨[], (t.encode v.1, t.encInto), fieldCalls fs v.2, o, r, o1, rfl, .nil o, h, r', hr',
        bind_stop_of _ h hr'⟩

theorem fields_decode_stop (g : (DecErr → DecErr) → DecErr → DecErr) (t : Open) (fs : OpenFields)
    (i i1 : Input) (r : Res DecErr t.Val) (h : t.decode i = (r, i1))
    (r' : Res DecErr (t.Val × fs.Val)) (hr : reported (g t.decInto) r = some r') :
    OpenFields.decode (.cons t fs) g i = (r', i1) := by
  show Dec.bind _ _ i = _
  unfold Dec.bind Dec.mapErr
  rw [h]
  cases r <;> cases hr <;> rfl

theorem fields_decode_next (g : (DecErr → DecErr) → DecErr → DecErr) (t : Open) (fs : OpenFields)
    (i i1 : Input) (a : t.Val) (h : t.decode i = (.ok a, i1)) :
    OpenFields.decode (.cons t fs) g i
      = (((fs.decode g i1).1.map fun vs => (a, vs)), (fs.decode g i1).2) := by
  show Dec.bind _ _ i = _
  unfold Dec.bind Dec.mapErr
  rw [h]
  simp only [Res.mapErr_ok]
  show Dec.bind _ _ i1 = _
  unfold Dec.bind
  generalize fs.decode g i1 = x
  obtain ⟨r, i2⟩ := x
  cases r <;> rfl

theorem AnyOp.step_inv (s : Slot) (h : s.len ≤ s.capacity) (op : AnyOp) :
    (op.step s).capacity = s.capacity ∧ (op.step s).len ≤ s.capacity := by
  cases op with
  | write f =>
    have hl := f.length_eq s.buf
    show (s.writeAny f).2.capacity = s.capacity ∧ (s.writeAny f).2.len ≤ s.capacity
    unfold Slot.writeAny
    generalize f.run s.buf = x at hl ⊢
    obtain ⟨r, buf, pos⟩ := x
    have hl' : buf.length = s.capacity := hl
    cases r with
    | ok u =>
      by_cases hp : pos ≤ buf.length
      · have e : ({ s with buf := buf } : Slot).setLen pos = (.ok (), ⟨buf, pos⟩) := if_pos hp
        simp only [e]
        exact ⟨hl, by rw [← hl']; exact hp⟩
      · have e : ({ s with buf := buf } : Slot).setLen pos = (.panic .assertion, ⟨buf, s.len⟩) :=
          if_neg hp
        simp only [e]
        exact ⟨hl, h⟩
    | err e => exact ⟨hl, h⟩
    | panic e => exact ⟨hl, h⟩
    | ub e => exact ⟨hl, h⟩
  | copy d =>
    unfold AnyOp.step Slot.copyFromSlice
    simp only
    split
    · rename_i hd
      refine ⟨?_, hd⟩
      have hd' : d.length ≤ s.buf.length := hd
      show (d ++ s.buf.drop d.length).length = s.buf.length
      rw [List.length_append, List.length_drop]
      omega
    · exact ⟨rfl, h⟩
  | setLen n =>
    unfold AnyOp.step Slot.setLen
    simp only
    split
    · rename_i hd
      exact ⟨rfl, hd⟩
    · exact ⟨rfl, h⟩
  | setByte i b =>
    unfold AnyOp.step Slot.setByte
    simp only
    split
    · exact ⟨List.length_set, h⟩
    · exact ⟨rfl, h⟩

theorem AnyOp.invariant (cap : Nat) (ops : List AnyOp) :
    (ops.foldl AnyOp.step (Slot.withCapacity cap)).capacity = cap ∧
    (ops.foldl AnyOp.step (Slot.withCapacity cap)).len ≤ cap ∧
    ∃ l, (ops.foldl AnyOp.step (Slot.withCapacity cap)).asSlice = .ok l := by
  have h0 : (Slot.withCapacity cap).capacity = cap := List.length_replicate
  suffices H : ∀ s : Slot, s.capacity = cap → s.len ≤ cap →
      (ops.foldl AnyOp.step s).capacity = cap ∧ (ops.foldl AnyOp.step s).len ≤ cap by
    obtain ⟨h1, h2⟩ := H _ h0 (Nat.zero_le _)
    have h3 : (ops.foldl AnyOp.step (Slot.withCapacity cap)).buf.length = cap := h1
    exact ⟨h1, h2, _, if_neg (by omega)⟩
  induction ops with
  | nil => exact fun s h1 h2 => ⟨h1, h2⟩
  | cons op ops ih =>
    intro s h1 h2
    obtain ⟨h3, h4⟩ := AnyOp.step_inv s (by omega) op
    exact ih (op.step s) (by omega) (by omega)

theorem Slot.writeAny_decent (s : Slot) (f : Foreign) (m : Enc Unit) (hf : f.Decent m)
    (w : List Byte) (hm : Writes m w) (hl : w.length ≤ s.capacity) :
    (s.writeAny f).1 = .ok () ∧ (s.writeAny f).2.asSlice = .ok w := by
  have hl' : w.length ≤ s.buf.length := hl
  have h1 := hf s.buf
  have h2 := hm (Output.new s.buf) (by show 0 + w.length ≤ s.buf.length; omega)
  rw [h2] at h1
  have h3 : f.run s.buf = (.ok (), w ++ s.buf.drop w.length, w.length) := by
    rw [h1]
    show (_, s.buf.take 0 ++ w ++ s.buf.drop (0 + w.length), 0 + w.length) = _
    simp
  have hlen : (w ++ s.buf.drop w.length).length = s.buf.length := by
    rw [List.length_append, List.length_drop]
    omega
  unfold Slot.writeAny
  rw [h3]
  simp only [Slot.setLen, Slot.capacity, hlen, if_pos hl']
  refine ⟨trivial, ?_⟩
  unfold Slot.asSlice
  simp only [hlen]
  rw [if_neg (by omega)]
  simp

/-- No variant has the discriminant. -/
theorem variants_decode_none : (vs : OpenVariants) → (prev : Option Nat) → (x : Int) → (i : Input) →
    (∀ d ∈ vs.discs prev, x ≠ (d : Int)) → vs.decode prev x i = (.err (.unassigned x), i)
  | .nil, _, _, _, _ => rfl
  | .cons d fs vs, prev, x, i, h => by
    unfold OpenVariants.decode
    unfold OpenVariants.discs at h
    rw [if_neg (h _ List.mem_cons_self)]
    have := variants_decode_none vs (some (nextDisc prev d)) x i (fun d' hd => h d' (List.mem_cons_of_mem _ hd))
    show Dec.bind _ _ i = _
    unfold Dec.bind
    rw [this]

theorem Slot.writeAny_reported (s : Slot) (f : Foreign) :
    ((s.writeAny f).1 = .ok () ↔ (f.run s.buf).1 = .ok () ∧ (f.run s.buf).2.2 ≤ s.capacity) ∧
    (∀ e, (s.writeAny f).1 = .err e ↔ (f.run s.buf).1 = .err e) ∧
    ((f.run s.buf).1 = .ok () → s.capacity < (f.run s.buf).2.2 → (s.writeAny f).1 = .panic .assertion) := by
  have hl := f.length_eq s.buf
  unfold Slot.writeAny
  generalize f.run s.buf = y at hl
  obtain ⟨r, buf, pos⟩ := y
  simp only at hl
  cases r with
  | ok u =>
    by_cases hp : pos ≤ s.capacity
    · have : ({ s with buf := buf } : Slot).setLen pos = (.ok (), { s with buf := buf, len := pos }) := by
        unfold Slot.setLen Slot.capacity
        rw [if_pos (by show pos ≤ buf.length; rw [hl]; exact hp)]
      simp only [this]
      simp [hp]
    · have : ({ s with buf := buf } : Slot).setLen pos = (.panic .assertion, { s with buf := buf }) := by
        unfold Slot.setLen Slot.capacity
        rw [if_neg (by show ¬ pos ≤ buf.length; rw [hl]; exact hp)]
      simp only [this]
      simp [hp]
  | err e => simp
  | panic p => simp
  | ub u => simp

end Oct
