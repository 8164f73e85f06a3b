import Verif.Proofs.GraphExact
/-
C125, exactly: for which objects encoding ends, and for which a number of nested calls is enough whatever the
buffer.
-/
namespace Oct.Props
open Oct Spec

/-- `struct Labelled { labels: HashMap<u8, ()>, next: &'static Labelled }` -/
abbrev labelled : Decls := fun _ =>
  .struct (.cons (.hashMap (.num (.int .u8)) (.plain (.unit .unit))) (.cons (.named 0) .nil))

/-- Object `0` has a label and object `1` has none; each refers to itself. -/
abbrev labels : Heap labelled := fun _ a =>
  match a with
  | 0 => (⟨[(7#8, ())], by decide⟩, (0 : Nat), ())
  | a + 1 => (⟨[], by decide⟩, a + 1, ())

private theorem labels_first {y : Nat × Nat} : ¬ RefersFirst labels y (0, 0) := by
  rintro ⟨pre, post, h1, h2, _⟩
  change [Step.put [7] True, Step.put [] True, Step.call (0, 0)] = _ at h1
  cases pre with
  | nil => cases h1
  | cons s pre =>
    have hs : Step.put [7] True = s := (List.cons.inj h1).1
    subst hs
    exact nomatch (h2 _ _ (.head _)).2

private theorem labels_next {y : Nat × Nat} (h : RefersNext labels y (0, 0)) : y = (0, 0) := by
  have h := h.mem
  change Step.call y ∈ [Step.put [7] True, Step.put [] True, Step.call (0, 0)] at h
  simpa using h

private theorem labels_reach {y : Nat × Nat} (h : y = (0, 0) ∨ Relation.TransGen (RefersNext labels) y (0, 0)) :
    y = (0, 0) := by
  rcases h with h | h
  · exact h
  · suffices ∀ x, Relation.TransGen (RefersNext labels) y x → x = (0, 0) → y = (0, 0) from this _ h rfl
    intro x hx
    induction hx with
    | single h => exact fun hx => labels_next (hx ▸ h)
    | tail _ h ih => exact fun hx => ih (labels_next (hx ▸ h))

private theorem labels_forever (a : Nat) : Forever (RefersFirst labels) (0, a + 1) :=
  ⟨fun _ => (0, a + 1), rfl, fun _ => ⟨[], [], rfl, fun _ _ h => (nomatch h), fun _ h => (nomatch h)⟩⟩

/-- C125. Exactly: encoding an object ends, whatever the buffer, if and only if no object that it gets to
leads to others without end and without an octet being written on the way. -/
theorem C125_exactly {D : Decls} (H : Heap D) (k a : Nat) :
    (∀ o : Output, o.position ≤ o.capacity → ∃ n, EncodesWithin H n k a o) ↔
      ∀ y, y = (k, a) ∨ Relation.TransGen (RefersNext H) y (k, a) → ¬ Forever (RefersFirst H) y := by
  constructor
  · intro h y hy hf
    obtain ⟨L, hL⟩ := H.encode_long hy (not_acc_of_forever hf)
    have ho : (Output.new (List.replicate L 0)).WF := Nat.zero_le _
    obtain ⟨n, hn⟩ := h _ ho
    refine not_within_of_stops (fun stop => hL n stop _ ho ?_) hn
    simp [Output.new, Output.remaining, Output.capacity, Output.position]
  · intro h o ho
    obtain ⟨n, hn⟩ := H.within_of_first o.remaining (k, a) fun y hy => acc_of_not_forever (h y hy)
    exact ⟨n, hn o ho (Nat.le_refl _)⟩

example (o : Output) (ho : o.position ≤ o.capacity) : ∃ n, EncodesWithin labels n 0 0 o :=
  (C125_exactly labels 0 0).mpr (fun y hy => by
    rw [labels_reach hy]
    rintro ⟨next, h0, hn⟩
    have := hn 0
    rw [h0] at this
    exact labels_first this) o ho

example : ¬ ∀ o : Output, o.position ≤ o.capacity → ∃ n, EncodesWithin labels n 0 1 o := fun h =>
  (C125_exactly labels 0 1).mp h _ (.inl rfl) (labels_forever 0)

/-- C125. Otherwise it ends on no buffer that is long enough: however many nested calls there may be, one
more is made. -/
theorem C125_overflows {D : Decls} (H : Heap D) (k a : Nat) (y : Nat × Nat)
    (hy : y = (k, a) ∨ Relation.TransGen (RefersNext H) y (k, a)) (hf : Forever (RefersFirst H) y) :
    ∃ L, ∀ o : Output, o.position ≤ o.capacity → L ≤ o.remaining → ∀ n,
      ¬ EncodesWithin H n k a o ∧ ∀ stop, ∃ o', H.encode stop n k a o = (.panic stop, o') := by
  obtain ⟨L, hL⟩ := H.encode_long hy (not_acc_of_forever hf)
  exact ⟨L, fun o ho hl n =>
    ⟨not_within_of_stops fun stop => hL n stop o ho hl, fun stop => hL n stop o ho hl⟩⟩

/-- C125. Of an object that itself leads to others so, encoding ends on no buffer at all, and nothing is
written. -/
theorem C125_forever {D : Decls} (H : Heap D) (k a : Nat) (h : Forever (RefersFirst H) (k, a)) (stop : Panic)
    (n : Nat) (o : Output) (ho : o.position ≤ o.capacity) : H.encode stop n k a o = (.panic stop, o) :=
  H.encode_forever stop ho n (k, a) (not_acc_of_forever h)

example (n : Nat) : labels.encode .infallible n 0 5 (Output.new [1, 2]) = (.panic .infallible, Output.new [1, 2]) :=
  C125_forever labels 0 5 (labels_forever 4) _ n _ (by decide)

/-- C125. Exactly: some number of nested calls is enough for all buffers, if and only if the object does not
lead to others without end. -/
theorem C125_bounded {D : Decls} (H : Heap D) (k a : Nat) :
    (∃ n, ∀ o : Output, o.position ≤ o.capacity → EncodesWithin H n k a o) ↔
      ¬ Forever (RefersNext H) (k, a) := by
  constructor
  · rintro ⟨n, hn⟩ hf
    obtain ⟨L, hL⟩ := H.encode_deep n (k, a) (not_acc_of_forever hf)
    have ho : (Output.new (List.replicate L 0)).WF := Nat.zero_le _
    refine not_within_of_stops (fun stop => hL stop _ ho ?_) (hn _ ho)
    simp [Output.new, Output.remaining, Output.capacity, Output.position]
  · intro h
    exact H.within_of_acc (acc_of_not_forever h)

private theorem labels_again : RefersNext labels (0, 0) (0, 0) := by
  refine ⟨[.put [7] True, .put [] True], [], rfl, fun w E h => ?_, fun z h => ?_⟩
  · simp only [List.mem_cons, Step.put.injEq, List.not_mem_nil, or_false] at h
    rcases h with h | h <;> (rw [h.2]; trivial)
  · simp at h

example : ¬ ∃ n, ∀ o : Output, o.position ≤ o.capacity → EncodesWithin labels n 0 0 o := fun h =>
  (C125_bounded labels 0 0).mp h ⟨fun _ => (0, 0), rfl, fun _ => labels_again⟩

/-- C125. Exactly: an object can be encoded into some buffer, if and only if it has an encoding. -/
theorem C125_has_encoding {D : Decls} (H : Heap D) (k a : Nat) :
    (∃ (o o' : Output) (stop : Panic) (n : Nat), o.position ≤ o.capacity ∧ H.encode stop n k a o = (.ok (), o')) ↔
      HasEncoding H (k, a) := by
  constructor
  · rintro ⟨o, o', stop, n, ho, h⟩
    exact H.hasEncoding stop n (k, a) o o' ho h
  · intro h
    have hacc : Acc (RefersNext H) (k, a) := by
      generalize (k, a) = x at h
      induction h with
      | intro x _ _ ih => exact ⟨x, fun y hy => ih y hy.mem⟩
    obtain ⟨n, hn⟩ := H.within_of_acc hacc
    obtain ⟨L, hL⟩ := h.encode
    have ho : (Output.new (List.replicate L 0)).WF := Nat.zero_le _
    have hl : L ≤ (Output.new (List.replicate L 0)).remaining := by
      simp [Output.new, Output.remaining, Output.capacity, Output.position]
    rcases hL (.infallible, n) _ ho hl with ⟨o', _, h1, _⟩ | ⟨o', h1⟩
    · exact ⟨_, o', .infallible, n, ho, h1⟩
    · rcases hL (.shortOutput, n) _ ho hl with ⟨o2, _, h2, _⟩ | ⟨o2, h2⟩
      · exact ⟨_, o2, .shortOutput, n, ho, h2⟩
      · have := hn _ ho .infallible .shortOutput 0
        rw [Nat.add_zero] at this
        rw [show H.encode .infallible n k a _ = _ from h1, show H.encode .shortOutput n k a _ = _ from h2] at this
        cases this

/-- `struct Leaf { value: u8 }` -/
private abbrev leafDecls : Decls := fun _ => .struct (.cons (.plain (.num (.int .u8))) .nil)

private abbrev leafHeap : Heap leafDecls := fun _ a => (BitVec.ofNat 8 a, ())

example : HasEncoding leafHeap (0, 3) := by
  refine ⟨_, fun w E h => ?_, fun y h => ?_⟩
  · change Step.put w E ∈ [Step.put [3] True] at h
    simp only [List.mem_singleton, Step.put.injEq] at h
    rw [h.2]
    trivial
  · change Step.call y ∈ [Step.put [3] True] at h
    simp at h

end Oct.Props
