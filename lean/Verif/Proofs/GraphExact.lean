import Verif.Proofs.GraphSteps
/- Lemmas for C125, exactly: for which objects encoding ends. -/
set_option linter.unusedVariables false
namespace Oct
open Spec

theorem acc_of_not_forever {rel : Nat × Nat → Nat × Nat → Prop} {x : Nat × Nat} (h : ¬ Forever rel x) :
    Acc rel x := by
  refine Classical.byContradiction fun hx => h ?_
  have step : ∀ x : {x // ¬ Acc rel x}, ∃ y : {x // ¬ Acc rel x}, rel y.val x.val := by
    rintro ⟨x, hx⟩
    refine Classical.byContradiction fun hc => hx ⟨x, fun y hy => ?_⟩
    exact Classical.byContradiction fun hy' => hc ⟨⟨y, hy'⟩, hy⟩
  obtain ⟨f, hf⟩ := Classical.axiomOfChoice step
  let chain : Nat → {x // ¬ Acc rel x} := fun n => Nat.rec ⟨x, hx⟩ (fun _ x => f x) n
  exact ⟨fun n => (chain n).val, rfl, fun n => hf (chain n)⟩

theorem not_acc_of_forever {rel : Nat × Nat → Nat × Nat → Prop} {x : Nat × Nat} (h : Forever rel x) :
    ¬ Acc rel x := by
  intro hx
  induction hx with
  | intro x _ ih =>
    obtain ⟨next, h0, hn⟩ := h
    refine ih (next 1) ?_ ⟨fun n => next (n + 1), rfl, fun n => hn (n + 1)⟩
    have := hn 0
    rw [h0] at this
    exact this

theorem acc_iff_not_forever {rel : Nat × Nat → Nat × Nat → Prop} {x : Nat × Nat} :
    Acc rel x ↔ ¬ Forever rel x :=
  ⟨fun h h' => not_acc_of_forever h' h, acc_of_not_forever⟩

theorem Spec.HasEmptyEncoding.hasEncoding {D : Decls} {H : Heap D} {x : Nat × Nat}
    (h : HasEmptyEncoding H x) : HasEncoding H x := by
  induction h with
  | intro x h1 _ ih => exact ⟨x, fun w E hw => (h1 w E hw).1, ih⟩

theorem Spec.RefersFirst.next {D : Decls} {H : Heap D} {x y : Nat × Nat} (h : RefersFirst H y x) :
    RefersNext H y x := by
  obtain ⟨pre, post, h1, h2, h3⟩ := h
  exact ⟨pre, post, h1, fun w E hw => (h2 w E hw).1, fun z hz => (h3 z hz).hasEncoding⟩

/-! What a run tells about the steps. -/

theorem runs_grows {ref : Nat → Nat → Enc Unit} (hr : ∀ k a, Grows (ref k a)) : ∀ (s : List Step)
    (o o' : Output), o.WF → Runs ref s o o' → o'.WF ∧ o'.remaining ≤ o.remaining
  | [], o, o', ho, h => by
    cases h
    exact ⟨ho, Nat.le_refl _⟩
  | .put w E :: s, o, o', ho, ⟨_, h2, h3⟩ => by
    have := runs_grows hr s _ _ (ho.put h2) h3
    rw [Output.remaining_put ho h2] at this
    exact ⟨this.1, by omega⟩
  | .call y :: s, o, o', ho, ⟨o1, h1, h2⟩ => by
    have h3 := hr y.1 y.2 o o1 ho h1
    have h4 := runs_grows hr s _ _ h3.1 h2
    exact ⟨h4.1, by omega⟩

theorem runs_parts {ref : Nat → Nat → Enc Unit} (hr : ∀ k a, Grows (ref k a)) : ∀ (s : List Step)
    (o o' : Output), o.WF → Runs ref s o o' →
    (∀ w E, Step.put w E ∈ s → E ∧ (o'.remaining = o.remaining → w = [])) ∧
    ∀ y, Step.call y ∈ s → ∃ o1 o2, o1.WF ∧ ref y.1 y.2 o1 = (.ok (), o2) ∧
      (o'.remaining = o.remaining → o2.remaining = o1.remaining)
  | [], o, o', ho, h => ⟨fun _ _ h => (nomatch h), fun _ h => (nomatch h)⟩
  | .put w E :: s, o, o', ho, ⟨h1, h2, h3⟩ => by
    have hg := runs_grows hr s _ _ (ho.put h2) h3
    have ih := runs_parts hr s _ _ (ho.put h2) h3
    rw [Output.remaining_put ho h2] at hg ih
    refine ⟨fun w' E' hw => ?_, fun y hy => ?_⟩
    · cases hw with
      | head => exact ⟨h1, fun he => List.length_eq_zero_iff.mp (by omega)⟩
      | tail _ hw =>
        refine ⟨(ih.1 w' E' hw).1, fun he => (ih.1 w' E' hw).2 (by omega)⟩
    · cases hy with
      | tail _ hy =>
        obtain ⟨o1, o2, h4, h5, h6⟩ := ih.2 y hy
        exact ⟨o1, o2, h4, h5, fun he => h6 (by omega)⟩
  | .call y :: s, o, o', ho, ⟨o1, h1, h2⟩ => by
    have h3 := hr y.1 y.2 o o1 ho h1
    have hg := runs_grows hr s _ _ h3.1 h2
    have ih := runs_parts hr s _ _ h3.1 h2
    refine ⟨fun w' E' hw => ?_, fun z hz => ?_⟩
    · cases hw with
      | tail _ hw => exact ⟨(ih.1 w' E' hw).1, fun he => (ih.1 w' E' hw).2 (by omega)⟩
    · cases hz with
      | head => exact ⟨o, o1, ho, h1, fun he => by omega⟩
      | tail _ hz =>
        obtain ⟨o1, o2, h4, h5, h6⟩ := ih.2 z hz
        exact ⟨o1, o2, h4, h5, fun he => h6 (by omega)⟩

theorem Heap.hasEncoding {D : Decls} (H : Heap D) (stop : Panic) : ∀ (n : Nat) (x : Nat × Nat) (o o' : Output),
    o.WF → H.encode stop n x.1 x.2 o = (.ok (), o') → HasEncoding H x
  | 0, _, _, _, _, h => nomatch h
  | n + 1, x, o, o', ho, h => by
    have hp := runs_parts (H.encode_grows stop n) _ _ _ ho (((H.encode_sim stop stop n n x).ok o o' ho).mp h)
    refine ⟨x, fun w E hw => (hp.1 w E hw).1, fun y hy => ?_⟩
    obtain ⟨o1, o2, h1, h2, _⟩ := hp.2 y hy
    exact hasEncoding H stop n y o1 o2 h1 h2

theorem Heap.hasEmptyEncoding {D : Decls} (H : Heap D) (stop : Panic) : ∀ (n : Nat) (x : Nat × Nat)
    (o o' : Output), o.WF → H.encode stop n x.1 x.2 o = (.ok (), o') → o'.remaining = o.remaining →
    HasEmptyEncoding H x
  | 0, _, _, _, _, h, _ => nomatch h
  | n + 1, x, o, o', ho, h, he => by
    have hp := runs_parts (H.encode_grows stop n) _ _ _ ho (((H.encode_sim stop stop n n x).ok o o' ho).mp h)
    refine ⟨x, fun w E hw => ⟨(hp.1 w E hw).1, (hp.1 w E hw).2 he⟩, fun y hy => ?_⟩
    obtain ⟨o1, o2, h1, h2, h3⟩ := hp.2 y hy
    exact hasEmptyEncoding H stop n y o1 o2 h1 h2 (h3 he)

/-! What the steps tell about a run. -/

theorem runs_empty {ref : Nat → Nat → Enc Unit} {p : Panic} {o : Output} (ho : o.WF) : ∀ (s : List Step),
    (∀ w E, Step.put w E ∈ s → E ∧ w = []) →
    (∀ y, Step.call y ∈ s → ref y.1 y.2 o = (.ok (), o) ∨ ref y.1 y.2 o = (.panic p, o)) →
    Runs ref s o o ∨ ∃ z, Called ref z s o o ∧ ref z.1 z.2 o = (.panic p, o)
  | [], _, _ => .inl rfl
  | .put w E :: s, h1, h2 => by
    obtain ⟨hE, hw⟩ := h1 w E (.head _)
    subst hw
    have hn := Output.put_nil ho
    rcases runs_empty ho s (fun w E hw => h1 w E (.tail _ hw)) fun y hy => h2 y (.tail _ hy) with h | ⟨z, h3, h4⟩
    · exact .inl ⟨hE, Nat.zero_le _, by rw [hn]; exact h⟩
    · exact .inr ⟨z, ⟨hE, Nat.zero_le _, by rw [hn]; exact h3⟩, h4⟩
  | .call y :: s, h1, h2 => by
    rcases h2 y (.head _) with h | h
    · rcases runs_empty ho s (fun w E hw => h1 w E (.tail _ hw)) fun y hy => h2 y (.tail _ hy) with h' | ⟨z, h3, h4⟩
      · exact .inl ⟨o, h, h'⟩
      · exact .inr ⟨z, .inr ⟨o, h, h3⟩, h4⟩
    · exact .inr ⟨y, .inl ⟨rfl, rfl⟩, h⟩

theorem Spec.HasEmptyEncoding.encode {D : Decls} {H : Heap D} {x : Nat × Nat} (h : HasEmptyEncoding H x)
    (stop : Panic) {o : Output} (ho : o.WF) : ∀ n,
    H.encode stop n x.1 x.2 o = (.ok (), o) ∨ H.encode stop n x.1 x.2 o = (.panic stop, o) := by
  induction h with
  | intro x h1 _ ih =>
    intro n
    cases n with
    | zero => exact .inr rfl
    | succ n =>
      have hs := H.encode_sim stop stop n n x
      rcases runs_empty (ref := H.encode stop n) (p := stop) ho _ h1 (fun y hy => ih y hy n) with h | ⟨z, h3, h4⟩
      · exact .inl ((hs.ok o o ho).mpr h)
      · exact .inr (hs.hit o o o z stop ho h3 h4)

/-- Where nothing is in front, stopping carries over. -/
theorem Spec.RefersFirst.stops {D : Decls} {H : Heap D} {x y : Nat × Nat} (h : RefersFirst H y x)
    (stop : Panic) {o : Output} (ho : o.WF) (n : Nat) (hy : H.encode stop n y.1 y.2 o = (.panic stop, o)) :
    H.encode stop (n + 1) x.1 x.2 o = (.panic stop, o) := by
  obtain ⟨pre, post, h1, h2, h3⟩ := h
  have hs := H.encode_sim stop stop n n x
  rw [h1] at hs
  rcases runs_empty (ref := H.encode stop n) (p := stop) ho pre h2 (fun y hy => (h3 y hy).encode stop ho n)
    with h | ⟨z, h3, h4⟩
  · exact hs.hit o o o y stop ho ((called_append _ pre o o).mpr (.inr ⟨o, h, .inl ⟨rfl, rfl⟩⟩)) hy
  · exact hs.hit o o o z stop ho ((called_append _ pre o o).mpr (.inl h3)) h4

theorem Heap.encode_forever {D : Decls} (H : Heap D) (stop : Panic) {o : Output} (ho : o.WF) :
    ∀ (n : Nat) (x : Nat × Nat), ¬ Acc (RefersFirst H) x → H.encode stop n x.1 x.2 o = (.panic stop, o)
  | 0, _, _ => rfl
  | n + 1, x, h => by
    refine Classical.byContradiction fun hc => h ⟨x, fun y hy => Classical.byContradiction fun hy' => hc ?_⟩
    exact hy.stops stop ho n (Heap.encode_forever H stop ho n y hy')

/-- Either the steps succeed, leaving all but `L` octets, or some object stops. -/
theorem runs_long {ι : Type} {ref : ι → Nat → Nat → Enc Unit} {p : ι → Panic} : ∀ (s : List Step),
    (∀ w E, Step.put w E ∈ s → E) →
    (∀ y, Step.call y ∈ s → ∃ L, ∀ i o, o.WF → L ≤ o.remaining →
      (∃ o', o'.WF ∧ ref i y.1 y.2 o = (.ok (), o') ∧ o.remaining ≤ o'.remaining + L) ∨
      ∃ o', ref i y.1 y.2 o = (.panic (p i), o')) →
    ∃ L, ∀ i o, o.WF → L ≤ o.remaining →
      (∃ o', o'.WF ∧ Runs (ref i) s o o' ∧ o.remaining ≤ o'.remaining + L) ∨
      ∃ z o' o'', Called (ref i) z s o o' ∧ ref i z.1 z.2 o' = (.panic (p i), o'')
  | [], _, _ => ⟨0, fun i o ho _ => .inl ⟨o, ho, rfl, Nat.le_refl _⟩⟩
  | .put w E :: s, h1, h2 => by
    obtain ⟨L, hL⟩ := runs_long (ref := ref) (p := p) s (fun w E hw => h1 w E (.tail _ hw))
      fun y hy => h2 y (.tail _ hy)
    have hE := h1 w E (.head _)
    refine ⟨w.length + L, fun i o ho hl => ?_⟩
    have hw : w.length ≤ o.remaining := by omega
    have hrem := Output.remaining_put ho hw
    rcases hL i (o.put w) (ho.put hw) (by omega) with ⟨o', h3, h4, h5⟩ | ⟨z, o', o'', h3, h4⟩
    · exact .inl ⟨o', h3, ⟨hE, hw, h4⟩, by omega⟩
    · exact .inr ⟨z, o', o'', ⟨hE, hw, h3⟩, h4⟩
  | .call y :: s, h1, h2 => by
    obtain ⟨L, hL⟩ := runs_long (ref := ref) (p := p) s (fun w E hw => h1 w E (.tail _ hw))
      fun y hy => h2 y (.tail _ hy)
    obtain ⟨M, hM⟩ := h2 y (.head _)
    refine ⟨M + L, fun i o ho hl => ?_⟩
    rcases hM i o ho (by omega) with ⟨o1, h3, h4, h5⟩ | ⟨o', h3⟩
    · rcases hL i o1 h3 (by omega) with ⟨o', h6, h7, h8⟩ | ⟨z, o', o'', h6, h7⟩
      · exact .inl ⟨o', h6, ⟨o1, h4, h7⟩, by omega⟩
      · exact .inr ⟨z, o', o'', .inr ⟨o1, h4, h6⟩, h7⟩
    · exact .inr ⟨y, o, o', .inl ⟨rfl, rfl⟩, h3⟩

theorem Spec.HasEncoding.encode {D : Decls} {H : Heap D} {x : Nat × Nat} (h : HasEncoding H x) :
    ∃ L, ∀ (i : Panic × Nat) o, o.WF → L ≤ o.remaining →
      (∃ o', o'.WF ∧ H.encode i.1 i.2 x.1 x.2 o = (.ok (), o') ∧ o.remaining ≤ o'.remaining + L) ∨
      ∃ o', H.encode i.1 i.2 x.1 x.2 o = (.panic i.1, o') := by
  induction h with
  | intro x h1 _ ih =>
    obtain ⟨L, hL⟩ := runs_long (ref := fun i : Panic × Nat => H.encode i.1 i.2) (p := fun i => i.1) _ h1 ih
    refine ⟨L, fun ⟨stop, n⟩ o ho hl => ?_⟩
    cases n with
    | zero => exact .inr ⟨o, rfl⟩
    | succ n =>
      have hs := H.encode_sim stop stop n n x
      rcases hL (stop, n) o ho hl with ⟨o', h3, h4, h5⟩ | ⟨z, o', o'', h3, h4⟩
      · exact .inl ⟨o', h3, (hs.ok o o' ho).mpr h4, h5⟩
      · exact .inr ⟨o'', hs.hit o o' o'' z stop ho h3 h4⟩

/-- On buffers that are long enough, stopping carries over. -/
theorem Spec.RefersNext.stops {D : Decls} {H : Heap D} {x y : Nat × Nat} (h : RefersNext H y x) :
    ∃ M, ∀ (n L : Nat), (∀ stop o, o.WF → L ≤ o.remaining → ∃ o', H.encode stop n y.1 y.2 o = (.panic stop, o')) →
      ∀ stop o, o.WF → M + L ≤ o.remaining → ∃ o', H.encode stop (n + 1) x.1 x.2 o = (.panic stop, o') := by
  obtain ⟨pre, post, h1, h2, h3⟩ := h
  obtain ⟨M, hM⟩ := runs_long (ref := fun i : Panic × Nat => H.encode i.1 i.2) (p := fun i => i.1) pre h2
    fun y hy => (h3 y hy).encode
  refine ⟨M, fun n L hy stop o ho hl => ?_⟩
  have hs := H.encode_sim stop stop n n x
  rw [h1] at hs
  rcases hM (stop, n) o ho (by omega) with ⟨o1, h4, h5, h6⟩ | ⟨z, o', o'', h4, h5⟩
  · obtain ⟨o', ho'⟩ := hy stop o1 h4 (by omega)
    exact ⟨o', hs.hit o o1 o' y stop ho ((called_append _ pre o o1).mpr (.inr ⟨o1, h5, .inl ⟨rfl, rfl⟩⟩)) ho'⟩
  · exact ⟨o'', hs.hit o o' o'' z stop ho ((called_append _ pre o o').mpr (.inl h4)) h5⟩

theorem Heap.encode_deep {D : Decls} (H : Heap D) : ∀ (n : Nat) (x : Nat × Nat), ¬ Acc (RefersNext H) x →
    ∃ L, ∀ stop o, o.WF → L ≤ o.remaining → ∃ o', H.encode stop n x.1 x.2 o = (.panic stop, o')
  | 0, _, _ => ⟨0, fun _ o _ _ => ⟨o, rfl⟩⟩
  | n + 1, x, h => by
    refine Classical.byContradiction fun hc => h ⟨x, fun y hy => Classical.byContradiction fun hy' => hc ?_⟩
    obtain ⟨L, hL⟩ := Heap.encode_deep H n y hy'
    obtain ⟨M, hM⟩ := hy.stops
    exact ⟨M + L, hM n L hL⟩

theorem Heap.encode_long {D : Decls} (H : Heap D) {x y : Nat × Nat} (h : y = x ∨ Relation.TransGen (RefersNext H) y x)
    (hy : ¬ Acc (RefersFirst H) y) : ∃ L, ∀ n stop o, o.WF → L ≤ o.remaining →
      ∃ o', H.encode stop n x.1 x.2 o = (.panic stop, o') := by
  have step : ∀ {x z : Nat × Nat}, RefersNext H z x →
      (∃ L, ∀ n stop o, o.WF → L ≤ o.remaining → ∃ o', H.encode stop n z.1 z.2 o = (.panic stop, o')) →
      ∃ L, ∀ n stop o, o.WF → L ≤ o.remaining → ∃ o', H.encode stop n x.1 x.2 o = (.panic stop, o') := by
    rintro x z h ⟨L, hL⟩
    obtain ⟨M, hM⟩ := h.stops
    refine ⟨M + L, fun n => ?_⟩
    cases n with
    | zero => exact fun _ o _ _ => ⟨o, rfl⟩
    | succ n => exact hM n L (hL n)
  have base : ∃ L, ∀ n stop o, o.WF → L ≤ o.remaining → ∃ o', H.encode stop n y.1 y.2 o = (.panic stop, o') :=
    ⟨0, fun n stop o ho _ => ⟨o, H.encode_forever stop ho n y hy⟩⟩
  rcases h with rfl | h
  · exact base
  · induction h with
    | single h => exact step h base
    | tail _ h ih => exact step h ih

/-! Depths that are enough. -/

theorem Spec.EncodesWithin.mono {D : Decls} {H : Heap D} {n m k a : Nat} {o : Output}
    (h : EncodesWithin H n k a o) (hm : n ≤ m) : EncodesWithin H m k a o := fun stop stop' j => by
  have h1 := h stop' stop (m - n)
  have h2 := h stop' stop' (m - n + j)
  rw [show n + (m - n) = m by omega] at h1
  rw [show n + (m - n + j) = m + j by omega] at h2
  exact h1.symm.trans h2

theorem not_within_of_stops {D : Decls} {H : Heap D} {n k a : Nat} {o : Output}
    (h : ∀ stop, ∃ o', H.encode stop n k a o = (.panic stop, o')) : ¬ EncodesWithin H n k a o := by
  intro hw
  obtain ⟨o1, h1⟩ := h .infallible
  obtain ⟨o2, h2⟩ := h .shortOutput
  have := hw .infallible .shortOutput 0
  rw [Nat.add_zero, h1, h2] at this
  cases this

/-- Enough for the objects that are called is enough for the object. -/
theorem Heap.within_of_calls {D : Decls} (H : Heap D) (x : Nat × Nat) (n : Nat) (o : Output) (ho : o.WF)
    (h : ∀ z o', o'.WF → RefersNext H z x → o'.remaining ≤ o.remaining →
      (o'.remaining = o.remaining → RefersFirst H z x) → EncodesWithin H n z.1 z.2 o') :
    EncodesWithin H (n + 1) x.1 x.2 o := fun stop stop' j => by
  rw [show n + 1 + j = n + j + 1 by omega]
  refine (H.encode_sim stop stop' n (n + j) x).same o ho fun z o' hz => ?_
  obtain ⟨pre, post, h1, h2⟩ := called_split _ _ _ _ hz
  have hg := runs_grows (H.encode_grows stop n) _ _ _ ho h2
  have hp := runs_parts (H.encode_grows stop n) _ _ _ ho h2
  refine h z o' hg.1 ⟨pre, post, h1, fun w E hw => (hp.1 w E hw).1, fun y hy => ?_⟩ hg.2
    (fun he => ⟨pre, post, h1, fun w E hw => ⟨(hp.1 w E hw).1, (hp.1 w E hw).2 he⟩, fun y hy => ?_⟩) stop stop' j
  · obtain ⟨o1, o2, h3, h4, _⟩ := hp.2 y hy
    exact H.hasEncoding stop n y o1 o2 h3 h4
  · obtain ⟨o1, o2, h3, h4, h5⟩ := hp.2 y hy
    exact H.hasEmptyEncoding stop n y o1 o2 h3 h4 (h5 he)

theorem Spec.RefersNext.mem {D : Decls} {H : Heap D} {x y : Nat × Nat} (h : RefersNext H y x) :
    Step.call y ∈ objSteps H x := by
  obtain ⟨pre, post, h, _⟩ := h
  rw [h]
  exact List.mem_append_right _ (.head _)

theorem Heap.within_of_acc {D : Decls} (H : Heap D) {x : Nat × Nat} (h : Acc (RefersNext H) x) :
    ∃ n, ∀ o, o.WF → EncodesWithin H n x.1 x.2 o := by
  induction h with
  | intro x _ ih =>
    obtain ⟨n, hn⟩ := exists_bound
      (p := fun n s => ∀ y, s = Step.call y → RefersNext H y x → ∀ o, o.WF → EncodesWithin H n y.1 y.2 o)
      (fun hm h y he hy o ho => (h y he hy o ho).mono hm) (objSteps H x) fun s _ => by
        cases s with
        | put => exact ⟨0, fun y he => nomatch he⟩
        | call z =>
          by_cases hz : RefersNext H z x
          · obtain ⟨n, hn⟩ := ih z hz
            refine ⟨n, fun y he _ => ?_⟩
            cases he
            exact hn
          · refine ⟨0, fun y he hy => ?_⟩
            cases he
            exact absurd hy hz
    exact ⟨n + 1, fun o ho => H.within_of_calls x n o ho fun z o' ho' hz _ _ => hn _ hz.mem z rfl hz o' ho'⟩

theorem Heap.within_of_first {D : Decls} (H : Heap D) : ∀ (r : Nat) (x : Nat × Nat),
    (∀ y, y = x ∨ Relation.TransGen (RefersNext H) y x → Acc (RefersFirst H) y) →
    ∃ n, ∀ o, o.WF → o.remaining ≤ r → EncodesWithin H n x.1 x.2 o := by
  intro r
  induction r using Nat.strongRecOn with
  | _ r ihr =>
    intro x hx
    have hacc := hx x (.inl rfl)
    induction hacc with
    | intro x _ ih =>
      have below : ∀ y, RefersNext H y x →
          ∀ z, z = y ∨ Relation.TransGen (RefersNext H) z y → Acc (RefersFirst H) z := by
        intro y hy z hz
        rcases hz with rfl | hz
        · exact hx z (.inr (.single hy))
        · exact hx z (.inr (.tail hz hy))
      obtain ⟨n, hn⟩ := exists_bound
        (p := fun n s => ∀ y, s = Step.call y → RefersNext H y x → ∀ o : Output, o.WF → o.remaining ≤ r →
          (o.remaining = r → RefersFirst H y x) → EncodesWithin H n y.1 y.2 o)
        (by intro n m s hm h y he hy o ho h1 h2; exact (h y he hy o ho h1 h2).mono hm) (objSteps H x) fun s _ => by
          cases s with
          | put => exact ⟨0, fun y he => nomatch he⟩
          | call z =>
            by_cases hz : RefersFirst H z x
            · obtain ⟨n, hn⟩ := ih z hz (below z hz.next)
              refine ⟨n, fun y he _ o ho h1 _ => ?_⟩
              cases he
              exact hn o ho h1
            · by_cases hz' : RefersNext H z x ∧ r ≠ 0
              · obtain ⟨n, hn⟩ := ihr (r - 1) (by omega) z (below z hz'.1)
                refine ⟨n, fun y he _ o ho h1 h2 => ?_⟩
                cases he
                refine hn o ho ?_
                have : o.remaining ≠ r := fun h => hz (h2 h)
                omega
              · refine ⟨0, fun y he hy o ho h1 h2 => ?_⟩
                cases he
                have hr : r = 0 := Classical.byContradiction fun h => hz' ⟨hy, h⟩
                exact absurd (h2 (by omega)) hz
      refine ⟨n + 1, fun o ho hr => H.within_of_calls x n o ho fun z o' ho' hz h1 h2 =>
        hn _ hz.mem z rfl hz o' ho' (by omega) fun he => h2 (by omega)⟩

end Oct
