import Verif.Proofs.SlotWritten
import Verif.Spec.StreamBorrows
/-
That programs that have a stream and compile are defined.
-/
namespace Oct.Alias
open Spec Sound

variable {p : Place} {l : Nat}

theorem streamRead_fit {pos k h n : Nat} (hf : pos + k ≤ p.cap) : p.streamRead pos k h n =
    (n + 3, n + 4, [.retag .excl h n p.head, .read n p.head, .retag .shared 0 (n + 1) p.buf,
      .retag .shared 0 (n + 2) p.buf, .retag .shared (n + 2) (n + 3) ⟨p.at_ + pos, k⟩, .write n p.head]) := by
  simp only [Place.streamRead, if_pos hf]
  rfl

theorem streamRead_refused {pos k h n : Nat} (hf : ¬ pos + k ≤ p.cap) : p.streamRead pos k h n =
    (0, n + 2, [.retag .excl h n p.head, .read n p.head, .retag .shared 0 (n + 1) p.buf]) := by
  simp only [Place.streamRead, if_neg hf]
  rfl

theorem streamReadInto_fit {d pos k h n : Nat} (hf : pos + k ≤ p.cap) : p.streamReadInto d pos k h n =
    ((), n + 7, [.retag .excl h n p.head, .retag .excl 1 (n + 1) ⟨d, k⟩, .retag .shared n (n + 2) p.head,
      .read (n + 2) p.head, .retag .shared 0 (n + 3) p.buf, .retag .shared n (n + 4) p.head, .read (n + 4) p.head,
      .retag .shared 0 (n + 5) p.buf, .retag .raw (n + 1) (n + 6) ⟨d, k⟩, .read (n + 5) ⟨p.at_ + pos, k⟩,
      .write (n + 6) ⟨d, k⟩, .write n p.head]) := by
  simp only [Place.streamReadInto, if_pos hf]
  rfl

theorem streamReadInto_refused {d pos k h n : Nat} (hf : ¬ pos + k ≤ p.cap) : p.streamReadInto d pos k h n =
    ((), n + 5, [.retag .excl h n p.head, .retag .excl 1 (n + 1) ⟨d, k⟩, .retag .shared n (n + 2) p.head,
      .read (n + 2) p.head, .retag .shared 0 (n + 3) p.buf, .retag .shared n (n + 4) p.head, .read (n + 4) p.head]) := by
  simp only [Place.streamReadInto, if_neg hf]
  rfl

theorem streamWrite_fit {d pos k h n : Nat} (hf : pos + k ≤ p.cap) : p.streamWrite d pos k h n =
    ((), n + 5, [.retag .excl h n p.head, .retag .shared 1 (n + 1) ⟨d, k⟩, .read n p.head, .retag .shared 0 (n + 2) p.buf,
      .retag .excl 0 (n + 3) p.buf, .retag .raw (n + 3) (n + 4) p.buf, .read (n + 1) ⟨d, k⟩,
      .write (n + 4) ⟨p.at_ + pos, k⟩, .write n p.head]) := by
  simp only [Place.streamWrite, if_pos hf]
  rfl

theorem streamWrite_refused {d pos k h n : Nat} (hf : ¬ pos + k ≤ p.cap) : p.streamWrite d pos k h n =
    ((), n + 3, [.retag .excl h n p.head, .retag .shared 1 (n + 1) ⟨d, k⟩, .read n p.head,
      .retag .shared 0 (n + 2) p.buf]) := by
  simp only [Place.streamWrite, if_neg hf]
  rfl

/-- What holds of the stream and the borrow checker everywhere. -/
structure Flow (p : Place) (o : Owner) (loans : List (Nat × Bool)) : Prop where
  pos : o.len ≤ p.cap
  next : 2 ≤ o.next
  same : o.held.length = loans.length
  each : ∀ x ∈ o.held.zip loans, x.1.r.size = x.2.1 ∧ x.1.tag < o.next ∧ p.at_ ≤ x.1.r.lo ∧
    x.1.r.lo + x.1.r.size ≤ p.at_ + p.cap
  tags : ∀ x ∈ o.held, 2 ≤ x.tag

theorem Flow.keep {o : Owner} {loans : List (Nat × Bool)} (h : Flow p o loans) {n len : Nat} (hn : o.next ≤ n)
    (hl : len ≤ p.cap) : Flow p ⟨len, n, o.held⟩ loans :=
  ⟨hl, Nat.le_trans h.next hn, h.same, fun x hx => ⟨(h.each x hx).1, Nat.lt_of_lt_of_le (h.each x hx).2.1 hn,
    (h.each x hx).2.2⟩, h.tags⟩

theorem Flow.grow {o : Owner} {loans : List (Nat × Bool)} (h : Flow p o loans) {n len t : Nat} {r : Region}
    (hn : o.next ≤ t) (ht : t < n) (hl : len ≤ p.cap) (h1 : p.at_ ≤ r.lo) (h2 : r.lo + r.size ≤ p.at_ + p.cap) :
    Flow p ⟨len, n, o.held ++ [⟨t, r⟩]⟩ (loans ++ [(r.size, true)]) := by
  have hk := h.keep (n := n) (len := len) (by omega) hl
  refine ⟨hk.pos, hk.next, by simp [h.same], fun x hx => ?_, fun x hx => ?_⟩
  · rw [List.zip_append h.same] at hx
    rcases List.mem_append.mp hx with hx | hx
    · exact hk.each x hx
    · rw [List.mem_singleton.mp hx]
      exact ⟨rfl, ht, h1, h2⟩
  · rcases List.mem_append.mp hx with hx | hx
    · exact h.tags x hx
    · rw [List.mem_singleton.mp hx]
      exact Nat.le_trans h.next hn

theorem Flow.over {o : Owner} {loans : List (Nat × Bool)} (h : Flow p o loans) :
    Flow p o (loans.map fun x => (x.1, false)) := by
  refine ⟨h.pos, h.next, by simp [h.same], fun x hx => ?_, h.tags⟩
  rw [List.zip_map_right] at hx
  obtain ⟨y, hy, rfl⟩ := List.mem_map.mp hx
  exact h.each y hy

theorem stream_get (p : Place) (d : Nat) (o : Owner) (k i : Nat) : (StreamCall.go p d o (.get k i)).1 = o := by
  show (match o.held[k]? with | some x => (o, _) | none => (o, _)).1 = o
  cases o.held[k]? <;> rfl

theorem Flow.step {d : Nat} {o : Owner} {loans : List (Nat × Bool)} (h : Flow p o loans) (c : StreamCall) :
    Flow p (c.go p d o).1 (streamLoansAfter p.cap o.len loans c) ∧ (c.go p d o).1.len = streamPosAfter p.cap o.len c := by
  have hl := h.pos
  cases c with
  | read k =>
    by_cases hf : o.len + k ≤ p.cap
    · simp only [StreamCall.go, streamLoansAfter, streamPosAfter, if_pos hf, streamRead_fit hf]
      exact ⟨h.grow (r := ⟨p.at_ + o.len, k⟩) (by omega) (by omega) hf (by simp only; omega) (by simp only; omega), trivial⟩
    · simp only [StreamCall.go, streamLoansAfter, streamPosAfter, if_neg hf, streamRead_refused hf]
      exact ⟨h.keep (by omega) hl, trivial⟩
  | readInto k =>
    by_cases hf : o.len + k ≤ p.cap
    · simp only [StreamCall.go, streamLoansAfter, streamPosAfter, if_pos hf, streamReadInto_fit hf]
      exact ⟨h.keep (by omega) hf, trivial⟩
    · simp only [StreamCall.go, streamLoansAfter, streamPosAfter, if_neg hf, streamReadInto_refused hf]
      exact ⟨h.keep (by omega) hl, trivial⟩
  | write k =>
    by_cases hf : o.len + k ≤ p.cap
    · simp only [StreamCall.go, streamLoansAfter, streamPosAfter, if_pos hf, streamWrite_fit hf]
      exact ⟨(h.keep (by omega) hf).over, trivial⟩
    · simp only [StreamCall.go, streamLoansAfter, streamPosAfter, if_neg hf, streamWrite_refused hf]
      exact ⟨(h.keep (by omega) hl).over, trivial⟩
  | asPtr => exact ⟨h.grow (t := o.next + 2) (n := o.next + 3) (r := p.buf) (by omega) (by omega) hl (Nat.le_refl _)
      (Nat.le_refl _), rfl⟩
  | asSlice => exact ⟨h.grow (t := o.next + 5) (n := o.next + 6) (r := p.items o.len) (by omega) (by omega) hl
      (Nat.le_refl _) (by simp only [Place.items]; omega), rfl⟩
  | capacity => exact ⟨h.keep (n := o.next + 2) (by omega) hl, rfl⟩
  | position => exact ⟨h.keep (n := o.next + 1) (by omega) hl, rfl⟩
  | remaining => exact ⟨h.keep (n := o.next + 3) (by omega) hl, rfl⟩
  | get k i =>
    rw [stream_get]
    exact ⟨h, rfl⟩

namespace Sound
variable {σ : Type} {R : Rules σ} {rule : Loan → Prop} (S : Sound R rule)

/-- What was returned and may be used may be read at `l`. -/
def Seen (l : Nat) (s : σ) (xs : List (Held × (Nat × Bool))) : Prop :=
  ∀ x ∈ xs, x.2.2 = true → x.1.r.has l = true → S.See x.1.tag s

theorem seen_on {xs : List (Held × (Nat × Bool))} {s s' : σ} (h : S.Seen l s xs) (hs : ∀ g, S.See g s → S.See g s') :
    S.Seen l s' xs := fun x hx ha hr => hs _ (h x hx ha hr)

theorem seen_over {xs : List Held} {loans : List (Nat × Bool)} {s : σ} :
    S.Seen l s (xs.zip (loans.map fun x => (x.1, false))) := fun x hx ha => by
  rw [List.zip_map_right] at hx
  obtain ⟨y, _, rfl⟩ := List.mem_map.mp hx
  cases ha

theorem seen_add {xs : List Held} {loans : List (Nat × Bool)} {s : σ} {t n : Nat} {r : Region}
    (hs : xs.length = loans.length) (h : S.Seen l s (xs.zip loans)) (ht : r.has l = true → S.See t s) :
    S.Seen l s ((xs ++ [(⟨t, r⟩ : Held)]).zip (loans ++ [(n, true)])) := fun x hx ha hr => by
  rw [List.zip_append hs] at hx
  rcases List.mem_append.mp hx with hx | hx
  · exact h x hx ha hr
  · rw [List.mem_singleton.mp hx] at hr ⊢
    exact ht hr

/-- There is nothing of what was returned outside the buffer. -/
theorem seen_outside {o : Owner} {loans : List (Nat × Bool)} (h : Flow p o loans) (hl : ¬ p.buf.has l = true) (s : σ) :
    S.Seen l s (o.held.zip loans) := fun x hx _ hr => by
  have := h.each x hx
  rw [has_iff] at hr hl
  simp only [Place.buf] at hl
  omega

/-- What holds at a location. -/
def Flows (p : Place) (o : Owner) (loans : List (Nat × Bool)) (l : Nat) (s : σ) : Prop :=
  S.W (rootAt p l) o.next s ∧ S.Seen l s (o.held.zip loans)

end Sound

namespace Nest
variable {σ : Type} {R : Rules σ} {rule : Loan → Prop} {S : Sound R rule} (N : Nest S)

include N in
theorem streamRead_at {o : Owner} {loans : List (Nat × Bool)} (hF : Flow p o loans) (d k : Nat) (s : σ)
    (hH : S.Flows p o loans l s) : ∃ s', runAt R l (StreamCall.go p d o (.read k)).2 s = some s' ∧
      S.Flows p (StreamCall.go p d o (.read k)).1 (streamLoansAfter p.cap o.len loans (.read k)) l s' := by
  obtain ⟨hw, hs⟩ := hH
  have hF' := (hF.step (d := d) (.read k)).1
  by_cases hh : p.head.has l = true
  · have hb := head_not_buf hh
    have hroot : rootAt p l = 0 := (root_head hh).symm
    rw [hroot] at hw
    obtain ⟨s1, h1, t1⟩ := N.excl (N.ofW hw)
    obtain ⟨s2, h2, t2⟩ := N.read t1
    obtain ⟨s3, h3, t3⟩ := N.write t2
    by_cases hf : o.len + k ≤ p.cap
    · refine ⟨s3, ?_, ?_, S.seen_outside hF' hb _⟩
      · simp only [StreamCall.go, if_pos hf, streamRead_fit hf]
        rw [runAt_cons ((hit_retag hh).trans h1), runAt_cons ((hit_read hh).trans h2), runAt_cons (miss_retag hb),
          runAt_cons (miss_retag hb), runAt_cons (miss_retag fun h => hb (piece_buf hf h)),
          runAt_cons ((hit_write hh).trans h3)]
        rfl
      · simp only [StreamCall.go, if_pos hf, streamRead_fit hf, hroot]
        exact N.toW (N.mono (show o.next + 1 ≤ o.next + 4 by omega) (N.pop t3))
    · refine ⟨s2, ?_, ?_, S.seen_outside hF' hb _⟩
      · simp only [StreamCall.go, if_neg hf, streamRead_refused hf]
        rw [runAt_cons ((hit_retag hh).trans h1), runAt_cons ((hit_read hh).trans h2), runAt_cons (miss_retag hb)]
        rfl
      · simp only [StreamCall.go, if_neg hf, streamRead_refused hf, hroot]
        exact N.toW (N.mono (show o.next + 1 ≤ o.next + 2 by omega) (N.pop t2))
  · obtain ⟨s1, h1, c1, _⟩ := S.shared_any (g := p.buf) (l := l) (S.mono (Nat.le_succ _) hw) fun h => .inl (root_buf h)
    by_cases hf : o.len + k ≤ p.cap
    · obtain ⟨s2, h2, c2, e2⟩ := S.shared_any (g := p.buf) (l := l) c1.2.1 fun h => .inl (root_buf h)
      obtain ⟨s3, h3, c3, e3⟩ := S.shared_any (g := ⟨p.at_ + o.len, k⟩) (l := l) c2.2.1
        fun h => .inr (e2 (piece_buf hf h))
      have c := (c1.trans S c2).trans S c3
      refine ⟨s3, ?_, ?_⟩
      · simp only [StreamCall.go, if_pos hf, streamRead_fit hf]
        rw [runAt_cons (miss_retag hh), runAt_cons (miss_read hh), runAt_cons h1, runAt_cons h2, runAt_cons h3,
          runAt_cons (miss_write hh)]
        rfl
      · simp only [StreamCall.go, if_pos hf, streamRead_fit hf, streamLoansAfter]
        exact ⟨c.2.1, S.seen_add hF.same (S.seen_on hs c.2.2.1) e3⟩
    · refine ⟨s1, ?_, ?_⟩
      · simp only [StreamCall.go, if_neg hf, streamRead_refused hf]
        rw [runAt_cons (miss_retag hh), runAt_cons (miss_read hh), runAt_cons h1]
        rfl
      · simp only [StreamCall.go, if_neg hf, streamRead_refused hf, streamLoansAfter]
        exact ⟨c1.2.1, S.seen_on hs c1.2.2.1⟩

include N in
theorem streamReadInto_at {o : Owner} {loans : List (Nat × Bool)} (hF : Flow p o loans) {d : Nat} (hd : Behind p d)
    (k : Nat) (s : σ) (hH : S.Flows p o loans l s) :
    ∃ s', runAt R l (StreamCall.go p d o (.readInto k)).2 s = some s' ∧
      S.Flows p (StreamCall.go p d o (.readInto k)).1 loans l s' := by
  obtain ⟨hw, hs⟩ := hH
  have hF' := (hF.step (d := d) (.readInto k)).1
  by_cases hl : p.whole.has l = true
  · have hm := behind_miss (k := k) hl hd
    by_cases hh : p.head.has l = true
    · have hb := head_not_buf hh
      have hroot : rootAt p l = 0 := (root_head hh).symm
      rw [hroot] at hw
      obtain ⟨s1, h1, t1⟩ := N.excl (N.ofW hw)
      obtain ⟨s2, h2, _, s3, h3, t3⟩ := N.look (N.mono (Nat.le_succ _) t1)
      obtain ⟨s4, h4, _, s5, h5, t5⟩ := N.look (N.mono (Nat.le_succ _) t3)
      obtain ⟨s6, h6, t6⟩ := N.write t5
      by_cases hf : o.len + k ≤ p.cap
      · refine ⟨s6, ?_, ?_, S.seen_outside hF' hb _⟩
        · simp only [StreamCall.go, streamReadInto_fit hf]
          rw [runAt_cons ((hit_retag hh).trans h1), runAt_cons (miss_retag hm), runAt_cons ((hit_retag hh).trans h2),
            runAt_cons ((hit_read hh).trans h3), runAt_cons (miss_retag hb), runAt_cons ((hit_retag hh).trans h4),
            runAt_cons ((hit_read hh).trans h5), runAt_cons (miss_retag hb), runAt_cons (miss_retag hm),
            runAt_cons (miss_read fun h => hb (piece_buf hf h)), runAt_cons (miss_write hm),
            runAt_cons ((hit_write hh).trans h6)]
          rfl
        · simp only [StreamCall.go, streamReadInto_fit hf, hroot]
          exact N.toW (N.mono (show o.next + 5 ≤ o.next + 7 by omega) (N.pop t6))
      · refine ⟨s5, ?_, ?_, S.seen_outside hF' hb _⟩
        · simp only [StreamCall.go, streamReadInto_refused hf]
          rw [runAt_cons ((hit_retag hh).trans h1), runAt_cons (miss_retag hm), runAt_cons ((hit_retag hh).trans h2),
            runAt_cons ((hit_read hh).trans h3), runAt_cons (miss_retag hb), runAt_cons ((hit_retag hh).trans h4),
            runAt_cons ((hit_read hh).trans h5)]
          rfl
        · simp only [StreamCall.go, streamReadInto_refused hf, hroot]
          exact N.toW (N.mono (show o.next + 5 ≤ o.next + 5 by omega) (N.pop t5))
    · have hw' : S.W (rootAt p l) (o.next + 3) s := S.mono (by omega) hw
      obtain ⟨s1, h1, c1, _⟩ := S.shared_any (g := p.buf) (l := l) hw' fun h => .inl (root_buf h)
      by_cases hf : o.len + k ≤ p.cap
      · obtain ⟨s2, h2, c2, e2⟩ := S.shared_any (g := p.buf) (l := l) (S.mono (Nat.le_succ _) c1.2.1)
          fun h => .inl (root_buf h)
        obtain ⟨s3, h3, c3⟩ := S.read_any (g := ⟨p.at_ + o.len, k⟩) (l := l) c2.2.1 fun h => e2 (piece_buf hf h)
        refine ⟨s3, ?_, ?_, S.seen_on hs fun g hg => c3.2.2.1 g (c2.2.2.1 g (c1.2.2.1 g hg))⟩
        · simp only [StreamCall.go, streamReadInto_fit hf]
          rw [runAt_cons (miss_retag hh), runAt_cons (miss_retag hm), runAt_cons (miss_retag hh), runAt_cons (miss_read hh),
            runAt_cons h1, runAt_cons (miss_retag hh), runAt_cons (miss_read hh), runAt_cons h2,
            runAt_cons (miss_retag hm), runAt_cons h3, runAt_cons (miss_write hm), runAt_cons (miss_write hh)]
          rfl
        · simp only [StreamCall.go, streamReadInto_fit hf]
          exact S.mono (show o.next + 6 ≤ o.next + 7 by omega) c3.2.1
      · refine ⟨s1, ?_, ?_, S.seen_on hs c1.2.2.1⟩
        · simp only [StreamCall.go, streamReadInto_refused hf]
          rw [runAt_cons (miss_retag hh), runAt_cons (miss_retag hm), runAt_cons (miss_retag hh), runAt_cons (miss_read hh),
            runAt_cons h1, runAt_cons (miss_retag hh), runAt_cons (miss_read hh)]
          rfl
        · simp only [StreamCall.go, streamReadInto_refused hf]
          exact S.mono (show o.next + 4 ≤ o.next + 5 by omega) c1.2.1
  · obtain ⟨hh, hb, _, hp⟩ := miss_all hl
    have hroot : rootAt p l = 1 := if_neg hl
    rw [hroot] at hw
    by_cases hg : (⟨d, k⟩ : Region).has l = true
    · obtain ⟨s1, h1, t1⟩ := N.excl (N.mono (Nat.le_succ _) (N.ofW hw))
      by_cases hf : o.len + k ≤ p.cap
      · obtain ⟨s2, h2, t2⟩ := N.raw (N.mono (show o.next + 2 ≤ o.next + 6 by omega) t1)
        obtain ⟨s3, h3, t3⟩ := N.write t2
        refine ⟨s3, ?_, ?_, S.seen_outside hF' hb _⟩
        · simp only [StreamCall.go, streamReadInto_fit hf]
          rw [runAt_cons (miss_retag hh), runAt_cons ((hit_retag hg).trans h1), runAt_cons (miss_retag hh),
            runAt_cons (miss_read hh), runAt_cons (miss_retag hb), runAt_cons (miss_retag hh), runAt_cons (miss_read hh),
            runAt_cons (miss_retag hb), runAt_cons ((hit_retag hg).trans h2), runAt_cons (miss_read (hp _ _ hf)),
            runAt_cons ((hit_write hg).trans h3), runAt_cons (miss_write hh)]
          rfl
        · simp only [StreamCall.go, streamReadInto_fit hf, hroot]
          exact N.toW (N.pop (N.pop t3))
      · refine ⟨s1, ?_, ?_, S.seen_outside hF' hb _⟩
        · simp only [StreamCall.go, streamReadInto_refused hf]
          rw [runAt_cons (miss_retag hh), runAt_cons ((hit_retag hg).trans h1), runAt_cons (miss_retag hh),
            runAt_cons (miss_read hh), runAt_cons (miss_retag hb), runAt_cons (miss_retag hh), runAt_cons (miss_read hh)]
          rfl
        · simp only [StreamCall.go, streamReadInto_refused hf, hroot]
          exact N.toW (N.mono (show o.next + 2 ≤ o.next + 5 by omega) (N.pop t1))
    · by_cases hf : o.len + k ≤ p.cap
      · refine ⟨s, ?_, ?_, S.seen_outside hF' hb _⟩
        · simp only [StreamCall.go, streamReadInto_fit hf]
          rw [runAt_cons (miss_retag hh), runAt_cons (miss_retag hg), runAt_cons (miss_retag hh),
            runAt_cons (miss_read hh), runAt_cons (miss_retag hb), runAt_cons (miss_retag hh), runAt_cons (miss_read hh),
            runAt_cons (miss_retag hb), runAt_cons (miss_retag hg), runAt_cons (miss_read (hp _ _ hf)),
            runAt_cons (miss_write hg), runAt_cons (miss_write hh)]
          rfl
        · simp only [StreamCall.go, streamReadInto_fit hf, hroot]
          exact S.mono (by omega) hw
      · refine ⟨s, ?_, ?_, S.seen_outside hF' hb _⟩
        · simp only [StreamCall.go, streamReadInto_refused hf]
          rw [runAt_cons (miss_retag hh), runAt_cons (miss_retag hg), runAt_cons (miss_retag hh),
            runAt_cons (miss_read hh), runAt_cons (miss_retag hb), runAt_cons (miss_retag hh), runAt_cons (miss_read hh)]
          rfl
        · simp only [StreamCall.go, streamReadInto_refused hf, hroot]
          exact S.mono (by omega) hw

include N in
theorem streamWrite_at {o : Owner} {loans : List (Nat × Bool)} {d : Nat} (hd : Behind p d)
    (k : Nat) (s : σ) (hH : S.Flows p o loans l s) :
    ∃ s', runAt R l (StreamCall.go p d o (.write k)).2 s = some s' ∧
      S.Flows p (StreamCall.go p d o (.write k)).1 (streamLoansAfter p.cap o.len loans (.write k)) l s' := by
  obtain ⟨hw, _⟩ := hH
  by_cases hl : p.whole.has l = true
  · have hm := behind_miss (k := k) hl hd
    by_cases hh : p.head.has l = true
    · have hb := head_not_buf hh
      have hroot : rootAt p l = 0 := (root_head hh).symm
      rw [hroot] at hw
      obtain ⟨s1, h1, t1⟩ := N.excl (N.ofW hw)
      obtain ⟨s2, h2, t2⟩ := N.read t1
      obtain ⟨s3, h3, t3⟩ := N.write t2
      by_cases hf : o.len + k ≤ p.cap
      · refine ⟨s3, ?_, ?_, S.seen_over⟩
        · simp only [StreamCall.go, streamWrite_fit hf]
          rw [runAt_cons ((hit_retag hh).trans h1), runAt_cons (miss_retag hm), runAt_cons ((hit_read hh).trans h2),
            runAt_cons (miss_retag hb), runAt_cons (miss_retag hb), runAt_cons (miss_retag hb), runAt_cons (miss_read hm),
            runAt_cons (miss_write fun h => hb (piece_buf hf h)), runAt_cons ((hit_write hh).trans h3)]
          rfl
        · simp only [StreamCall.go, streamWrite_fit hf, hroot]
          exact N.toW (N.mono (show o.next + 1 ≤ o.next + 5 by omega) (N.pop t3))
      · refine ⟨s2, ?_, ?_, S.seen_over⟩
        · simp only [StreamCall.go, streamWrite_refused hf]
          rw [runAt_cons ((hit_retag hh).trans h1), runAt_cons (miss_retag hm), runAt_cons ((hit_read hh).trans h2),
            runAt_cons (miss_retag hb)]
          rfl
        · simp only [StreamCall.go, streamWrite_refused hf, hroot]
          exact N.toW (N.mono (show o.next + 1 ≤ o.next + 3 by omega) (N.pop t2))
    · have hb := buf_of_not_head hl hh
      have hroot : rootAt p l = 0 := (root_buf hb).symm
      rw [hroot] at hw
      obtain ⟨s1, h1, t1, _⟩ := N.look (N.mono (show o.next ≤ o.next + 2 by omega) (N.ofW hw))
      by_cases hf : o.len + k ≤ p.cap
      · obtain ⟨s2, h2, t2⟩ := N.excl t1
        obtain ⟨s3, h3, t3⟩ := N.raw t2
        have : ∃ s4, (Event.write (o.next + 4) ⟨p.at_ + o.len, k⟩).act R l s3 = some s4 ∧
            N.Tip [o.next + 4, o.next + 3, 0] (o.next + 5) s4 := by
          by_cases hg : (⟨p.at_ + o.len, k⟩ : Region).has l = true
          · obtain ⟨s4, h4, t4⟩ := N.write t3
            exact ⟨s4, (hit_write hg).trans h4, t4⟩
          · exact ⟨s3, miss_write hg, t3⟩
        obtain ⟨s4, h4, t4⟩ := this
        refine ⟨s4, ?_, ?_, S.seen_over⟩
        · simp only [StreamCall.go, streamWrite_fit hf]
          rw [runAt_cons (miss_retag hh), runAt_cons (miss_retag hm), runAt_cons (miss_read hh),
            runAt_cons ((hit_retag hb).trans h1), runAt_cons ((hit_retag hb).trans h2), runAt_cons ((hit_retag hb).trans h3),
            runAt_cons (miss_read hm), runAt_cons h4, runAt_cons (miss_write hh)]
          rfl
        · simp only [StreamCall.go, streamWrite_fit hf, hroot]
          exact N.toW (N.pop (N.pop t4))
      · refine ⟨s1, ?_, ?_, S.seen_over⟩
        · simp only [StreamCall.go, streamWrite_refused hf]
          rw [runAt_cons (miss_retag hh), runAt_cons (miss_retag hm), runAt_cons (miss_read hh),
            runAt_cons ((hit_retag hb).trans h1)]
          rfl
        · simp only [StreamCall.go, streamWrite_refused hf, hroot]
          exact N.toW t1
  · obtain ⟨hh, hb, _, hp⟩ := miss_all hl
    have hroot : rootAt p l = 1 := if_neg hl
    rw [hroot] at hw
    obtain ⟨s1, h1, c1, e1⟩ := S.shared_any (g := ⟨d, k⟩) (l := l) (h := 1) (S.mono (Nat.le_succ _) hw) fun _ => .inl rfl
    obtain ⟨s2, h2, c2⟩ := S.read_any c1.2.1 e1
    by_cases hf : o.len + k ≤ p.cap
    · refine ⟨s2, ?_, ?_, S.seen_over⟩
      · simp only [StreamCall.go, streamWrite_fit hf]
        rw [runAt_cons (miss_retag hh), runAt_cons h1, runAt_cons (miss_read hh), runAt_cons (miss_retag hb),
          runAt_cons (miss_retag hb), runAt_cons (miss_retag hb), runAt_cons h2, runAt_cons (miss_write (hp _ _ hf)),
          runAt_cons (miss_write hh)]
        rfl
      · simp only [StreamCall.go, streamWrite_fit hf, hroot]
        exact S.mono (show o.next + 2 ≤ o.next + 5 by omega) c2.2.1
    · refine ⟨s1, ?_, ?_, S.seen_over⟩
      · simp only [StreamCall.go, streamWrite_refused hf]
        rw [runAt_cons (miss_retag hh), runAt_cons h1, runAt_cons (miss_read hh), runAt_cons (miss_retag hb)]
        rfl
      · simp only [StreamCall.go, streamWrite_refused hf, hroot]
        exact S.mono (show o.next + 2 ≤ o.next + 3 by omega) c1.2.1

include N in
theorem stream_step {o : Owner} {loans : List (Nat × Bool)} (hF : Flow p o loans) {d : Nat} (hd : Behind p d)
    (c : StreamCall) (hc : StreamPermits loans c) (s : σ) (hH : S.Flows p o loans l s) :
    ∃ s', runAt R l (c.go p d o).2 s = some s' ∧ S.Flows p (c.go p d o).1 (streamLoansAfter p.cap o.len loans c) l s' := by
  cases c with
  | read k => exact N.streamRead_at hF d k s hH
  | readInto k => exact N.streamReadInto_at hF hd k s hH
  | write k => exact N.streamWrite_at hd k s hH
  | asPtr =>
    obtain ⟨s', h1, c1, e1⟩ := S.slotPtr_at hH.1
    exact ⟨s', h1, c1.2.1, S.seen_add hF.same (S.seen_on hH.2 c1.2.2.1) e1⟩
  | asSlice =>
    obtain ⟨s', h1, c1, e1⟩ := S.slotSlice_at o.len hF.pos hH.1
    exact ⟨s', h1, c1.2.1, S.seen_add hF.same (S.seen_on hH.2 c1.2.2.1) e1⟩
  | capacity =>
    obtain ⟨s', h1, c1⟩ := S.slotCapacity_at hH.1
    exact ⟨s', h1, c1.2.1, S.seen_on hH.2 c1.2.2.1⟩
  | position =>
    obtain ⟨s', h1, c1⟩ := S.slotLen_at (h := 0) hH.1 fun h => .inl (root_head h)
    exact ⟨s', h1, c1.2.1, S.seen_on hH.2 c1.2.2.1⟩
  | remaining =>
    obtain ⟨s1, h1, c1⟩ := S.slotCapacity_at hH.1
    obtain ⟨s2, h2, c2⟩ := S.slotLen_at (h := 0) c1.2.1 fun h => .inl (root_head h)
    refine ⟨s2, ?_, c2.2.1, S.seen_on hH.2 (c1.trans S c2).2.2.1⟩
    show runAt R l ((p.slotCapacity 0 o.next).2.2 ++ (p.slotLen 0 (o.next + 2)).2.2) s = _
    rw [runAt_append, h1, Option.bind_some, h2]
  | get k i =>
    obtain ⟨n, hx, hi⟩ := hc
    obtain ⟨y, hy⟩ : ∃ y, o.held[k]? = some y := by
      have := (List.getElem?_eq_some_iff.mp hx).1
      rw [← hF.same] at this
      exact ⟨_, List.getElem?_eq_getElem this⟩
    have hz : (y, (n, true)) ∈ o.held.zip loans := by
      refine List.mem_of_getElem? (i := k) ?_
      rw [List.getElem?_zip_eq_some]
      exact ⟨hy, hx⟩
    have hgo : StreamCall.go p d o (.get k i) = (o, [.read y.tag ⟨y.r.lo + i, 1⟩]) := by
      simp only [StreamCall.go, hy]
    rw [hgo]
    obtain ⟨s', h1, c1⟩ := S.read_any (h := y.tag) (g := ⟨y.r.lo + i, 1⟩) (l := l) hH.1 fun h => hH.2 _ hz rfl (by
      have := (hF.each _ hz).1
      simp only at this
      rw [has_iff] at *
      simp only at *
      omega)
    refine ⟨s', ?_, c1.2.1, S.seen_on hH.2 c1.2.2.1⟩
    show runAt R l [.read y.tag ⟨y.r.lo + i, 1⟩] s = _
    rw [runAt_cons h1]
    rfl

theorem streamEvents_append (p : Place) (d : Nat) : (cs ds : List StreamCall) → (o : Owner) →
    streamEvents p d o (cs ++ ds) = streamEvents p d o cs ++ streamEvents p d (streamAfter p d o cs) ds
  | [], _, _ => rfl
  | c :: cs, ds, o => by
    show (c.go p d o).2 ++ streamEvents p d (c.go p d o).1 (cs ++ ds)
      = ((c.go p d o).2 ++ streamEvents p d (c.go p d o).1 cs) ++ _
    rw [streamEvents_append p d cs ds, List.append_assoc]
    rfl

include N in
theorem stream_run {d : Nat} (hd : Behind p d) : (cs : List StreamCall) → (o : Owner) → (loans : List (Nat × Bool)) →
    Flow p o loans → StreamChecked p.cap o.len loans cs →
    ∃ loans', Flow p (streamAfter p d o cs) loans' ∧ ∀ (l : Nat) (s : σ), S.Flows p o loans l s →
        ∃ s', runAt R l (streamEvents p d o cs) s = some s' ∧ S.Flows p (streamAfter p d o cs) loans' l s'
  | [], _, loans, hF, _ => ⟨loans, hF, fun _ s h => ⟨s, rfl, h⟩⟩
  | c :: cs, o, loans, hF, hC => by
    obtain ⟨hF', hlen⟩ := hF.step (d := d) c
    have hC2 := hC.2
    rw [← hlen] at hC2
    obtain ⟨loans', h1, h3⟩ := stream_run hd cs _ _ hF' hC2
    refine ⟨loans', h1, fun l s hs => ?_⟩
    obtain ⟨s1, h4, h5⟩ := N.stream_step hF hd c hC.1 s hs
    obtain ⟨s2, h6, h7⟩ := h3 l s1 h5
    refine ⟨s2, ?_, h7⟩
    show runAt R l ((c.go p d o).2 ++ streamEvents p d (c.go p d o).1 cs) s = _
    rw [runAt_append, h4]
    exact h6

theorem flow_new (p : Place) : Flow p (Owner.new 0) [] :=
  ⟨Nat.zero_le _, Nat.le_refl 2, rfl, (fun _ hx => nomatch hx), fun _ hx => nomatch hx⟩

theorem flows_new (S : Sound R rule) (p : Place) (l : Nat) : S.Flows p (Owner.new 0) [] l (R.start (rootAt p l)) := by
  refine ⟨S.start ?_, fun _ hx => nomatch hx⟩
  show rootAt p l < 2
  unfold rootAt
  split <;> decide

include N in
theorem stream_defined {d : Nat} (hd : Behind p d) (cs : List StreamCall) (hC : StreamChecked p.cap 0 [] cs) :
    Defined R p (streamEvents p d (Owner.new 0) cs) := fun l => by
  obtain ⟨_, _, h⟩ := N.stream_run hd cs (Owner.new 0) [] (flow_new p) hC
  obtain ⟨s', h1, _⟩ := h l _ (flows_new S p l)
  exact ⟨s', h1⟩

include N in
/-- Where programs end, if there is no way to go on from a state that is reached. -/
theorem stream_stuck {d : Nat} (hd : Behind p d) {cs ds : List StreamCall} (hc : StreamChecked p.cap 0 [] cs) {j : Nat}
    (hj : j < p.cap)
    (h : ∀ s, runAt R (p.at_ + j) (streamEvents p d (Owner.new 0) cs) (R.start ownerTag) = some s →
      S.W ownerTag (streamAfter p d (Owner.new 0) cs).next s →
      (∀ x ∈ (streamAfter p d (Owner.new 0) cs).held, 2 ≤ x.tag ∧ x.tag < (streamAfter p d (Owner.new 0) cs).next) →
      runAt R (p.at_ + j) (streamEvents p d (streamAfter p d (Owner.new 0) cs) ds) s = none) :
    ¬ Defined R p (streamEvents p d (Owner.new 0) (cs ++ ds)) := by
  intro hdef
  rw [streamEvents_append] at hdef
  obtain ⟨loans', h1, h3⟩ := N.stream_run hd cs (Owner.new 0) [] (flow_new p) hc
  have hroot : p.whole.has (p.at_ + j) = true := by
    rw [has_iff]
    simp only [Place.whole]
    omega
  obtain ⟨s', h4, h5⟩ := h3 (p.at_ + j) _ (flows_new S p (p.at_ + j))
  rw [show rootAt p (p.at_ + j) = ownerTag from if_pos hroot] at h4
  have hw := h5.1
  rw [show rootAt p (p.at_ + j) = ownerTag from if_pos hroot] at hw
  obtain ⟨s'', h6⟩ := hdef (p.at_ + j)
  rw [if_pos hroot, runAt_append, h4, Option.bind_some, h s' h4 hw fun x hx => ⟨h1.tags x hx, ?_⟩] at h6
  · cases h6
  · obtain ⟨i, hi⟩ := List.getElem?_of_mem hx
    have hil : i < loans'.length := by
      rw [← h1.same]
      exact (List.getElem?_eq_some_iff.mp hi).1
    have hz : (x, loans'[i]) ∈ (streamAfter p d (Owner.new 0) cs).held.zip loans' := by
      refine List.mem_of_getElem? (i := i) ?_
      rw [List.getElem?_zip_eq_some]
      exact ⟨hi, List.getElem?_eq_getElem hil⟩
    exact (h1.each _ hz).2.1

end Nest

end Oct.Alias
