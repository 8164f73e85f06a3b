import Verif.Spec.LocksExact
import Verif.Proofs.LocksEnd
import Verif.Proofs.Reach
/-
Locks that contain themselves, and the encoders of these.
-/
namespace Oct
open Spec

variable {content : Nat → List Piece} {joins : Locks → Nat → Bool}

/-- What has been passed through has no locks in it that go on without end. -/
theorem Passes.acc {c : List Piece} {o o' : Output} {r : Res EncErr Unit} (h : Passes content c o r o')
    (hr : r = .ok ()) : ∀ l g, Piece.lock l g ∈ c → Acc (fun r q => Contains content q r) l := by
  induction h with
  | nil => exact fun _ _ h => nomatch h
  | plain _ _ ih =>
    intro l g h
    rcases List.mem_cons.mp h with h | h
    · cases h
    · exact ih hr l g h
  | plainFails _ h => exact absurd hr h
  | lock _ _ ih1 ih2 =>
    intro l g h
    rcases List.mem_cons.mp h with h | h
    · cases h
      exact ⟨_, fun r ⟨g, hg⟩ => ih1 rfl r g hg⟩
    · exact ih2 hr l g h
  | lockFails _ h => exact absurd hr (mapErr_ne_ok h)

theorem not_itself_of_acc {r : Nat} (h : Acc (fun r q => Contains content q r) r) : ¬ ContainsItself content r := by
  induction h with
  | intro r _ ih =>
    intro h
    have : ∃ q, Contains content r q ∧ ContainsItself content q := by
      suffices ∀ b, Relation.TransGen (Contains content) r b → b = r → ∃ q, Contains content r q ∧ ContainsItself content q from
        this r h rfl
      intro b hb
      have hd : ∃ q, Contains content r q ∧ (q = b ∨ Relation.TransGen (Contains content) q b) := by
        induction hb with
        | single h => exact ⟨_, h, .inl rfl⟩
        | tail _ h ih =>
          obtain ⟨q, h1, h2⟩ := ih
          refine ⟨q, h1, .inr ?_⟩
          rcases h2 with rfl | h2
          · exact .single h
          · exact .tail h2 h
      rintro rfl
      obtain ⟨q, h1, rfl | h2⟩ := hd
      · exact ⟨_, h1, .single h1⟩
      · exact ⟨q, h1, .tail h2 h1⟩
    obtain ⟨q, h1, h2⟩ := this
    exact ih q h1 h2

theorem countP_lt {p q : Nat → Bool} {a : Nat} (h : ∀ x, p x = true → q x = true) (hp : p a = false) (hq : q a = true) :
    ∀ l : List Nat, a ∈ l → l.countP p < l.countP q := by
  intro l
  induction l with
  | nil => exact fun h => nomatch h
  | cons b l ih =>
    intro hm
    rw [List.countP_cons, List.countP_cons]
    rcases List.mem_cons.mp hm with rfl | hm
    · have := List.countP_mono_left (l := l) fun x _ => h x
      rw [hp, hq]
      simp only [Bool.false_eq_true, if_false, if_true]
      omega
    · have := ih hm
      cases hb : p b
      · simp only [Bool.false_eq_true, if_false]; omega
      · rw [h b hb]; simp only [if_true]; omega

/-- Locks without cycles can be numbered. -/
theorem exists_rank {N : Nat} (hN : OnlyLocks N content) (h : ∀ r, ¬ ContainsItself content r) :
    ∃ rank : Nat → Nat, ∀ r, Below rank (rank r) (content r) := by
  classical
  refine ⟨fun q => (List.range N).countP fun x => decide (Relation.TransGen (Contains content) q x), ?_⟩
  intro q r g hg
  have hc : Contains content q r := ⟨g, hg⟩
  refine countP_lt (a := r) (fun x hx => ?_) ?_ ?_ _ (List.mem_range.mpr (hN.2 q r hc))
  · have hx := of_decide_eq_true hx
    refine decide_eq_true ?_
    have : ∀ y, Relation.TransGen (Contains content) r y → Relation.TransGen (Contains content) q y := by
      intro y hy
      induction hy with
      | single h => exact .tail (.single hc) h
      | tail _ h ih => exact .tail ih h
    exact this x hx
  · exact decide_eq_false (h r)
  · exact decide_eq_true (.single hc)

theorem length_bound {N : Nat} (hN : OnlyLocks N content) : ∃ b, ∀ r, (content r).length ≤ b := by
  suffices ∀ n, ∃ b, ∀ r, r < n → (content r).length ≤ b by
    obtain ⟨b, hb⟩ := this N
    refine ⟨b, fun r => ?_⟩
    by_cases hr : r < N
    · exact hb r hr
    · rw [hN.1 r (by omega)]; exact Nat.zero_le _
  intro n
  induction n with
  | zero => exact ⟨0, fun r h => nomatch h⟩
  | succ n ih =>
    obtain ⟨b, hb⟩ := ih
    refine ⟨max b (content n).length, fun r hr => ?_⟩
    by_cases e : r = n
    · subst e; omega
    · have := hb r (by omega); omega

/-- What has no end in it can be passed through. -/
theorem exists_passes (hf : ∀ r, ∀ p ∈ content r, PieceFits p) (rank : Nat → Nat)
    (hr : ∀ r, Below rank (rank r) (content r)) : ∀ (n : Nat) (c : List Piece), Below rank n c →
      (∀ p ∈ c, PieceFits p) → ∃ L, ∀ o : Output, o.position ≤ o.capacity → L ≤ o.remaining →
      ∃ o' : Output, Passes content c o (.ok ()) o' ∧ o'.position ≤ o'.capacity ∧ o.remaining ≤ o'.remaining + L := by
  intro n
  induction n with
  | zero =>
    intro c
    induction c with
    | nil => exact fun _ _ => ⟨0, fun o ho _ => ⟨o, .nil, ho, Nat.le_refl _⟩⟩
    | cons p c ih =>
      intro hb hc
      obtain ⟨L, hL⟩ := ih (Below.tail hb) fun p h => hc p (.tail _ h)
      cases p with
      | lock r g => exact absurd (hb r g (.head _)) (Nat.not_lt_zero _)
      | plain m =>
        obtain ⟨w, hw⟩ := hc _ (.head _)
        refine ⟨w + L, fun o ho hl => ?_⟩
        obtain ⟨o1, h1, h2, h3⟩ := hw o ho (by omega)
        obtain ⟨o2, h4, h5, h6⟩ := hL o1 h2 (by omega)
        exact ⟨o2, .plain h1 h4, h5, by omega⟩
  | succ n ihn =>
    intro c
    induction c with
    | nil => exact fun _ _ => ⟨0, fun o ho _ => ⟨o, .nil, ho, Nat.le_refl _⟩⟩
    | cons p c ih =>
      intro hb hc
      obtain ⟨L, hL⟩ := ih (Below.tail hb) fun p h => hc p (.tail _ h)
      cases p with
      | lock r g =>
        obtain ⟨w, hw⟩ := ihn (content r) (Below.mono (hr r) (Nat.le_of_lt_succ (hb r g (.head _)))) (hf r)
        refine ⟨w + L, fun o ho hl => ?_⟩
        obtain ⟨o1, h1, h2, h3⟩ := hw o ho (by omega)
        obtain ⟨o2, h4, h5, h6⟩ := hL o1 h2 (by omega)
        exact ⟨o2, .lock h1 h4, h5, by omega⟩
      | plain m =>
        obtain ⟨w, hw⟩ := hc _ (.head _)
        refine ⟨w + L, fun o ho hl => ?_⟩
        obtain ⟨o1, h1, h2, h3⟩ := hw o ho (by omega)
        obtain ⟨o2, h4, h5, h6⟩ := hL o1 h2 (by omega)
        exact ⟨o2, .plain h1 h4, h5, by omega⟩

theorem Passes.unique {c : List Piece} {o o' : Output} {r : Res EncErr Unit} (h : Passes content c o r o') :
    ∀ {r2 : Res EncErr Unit} {o2 : Output}, Passes content c o r2 o2 → r = r2 ∧ o' = o2 := by
  induction h with
  | nil => intro r2 o2 h; cases h; exact ⟨rfl, rfl⟩
  | plain h1 _ ih =>
    intro r2 o2 h
    cases h with
    | plain g1 g2 => rw [h1] at g1; cases g1; exact ih g2
    | plainFails g1 g2 => rw [h1] at g1; cases g1; exact absurd rfl g2
  | plainFails h1 h2 =>
    intro r2 o2 h
    cases h with
    | plain g1 g2 => rw [h1] at g1; cases g1; exact absurd rfl h2
    | plainFails g1 g2 => rw [h1] at g1; cases g1; exact ⟨rfl, rfl⟩
  | lock _ _ ih1 ih2 =>
    intro r2 o2 h
    cases h with
    | lock g1 g2 => obtain ⟨_, rfl⟩ := ih1 g1; exact ih2 g2
    | lockFails g1 g2 => exact absurd (ih1 g1).1.symm g2
  | lockFails _ h2 ih1 =>
    intro r2 o2 h
    cases h with
    | lock g1 g2 => exact absurd (ih1 g1).1 h2
    | lockFails g1 g2 => obtain ⟨rfl, rfl⟩ := ih1 g1; exact ⟨rfl, rfl⟩

/-- The thread `0` is encoding `c` into `o` within `held`, and nobody else does anything. -/
structure Locks.Alone (content : Nat → List Piece) (c : List Piece) (held : List Frame) (o : Output) (s : Locks) :
    Prop where
  kind : s.kind = fun _ => .mutex
  content : s.content = content
  writer : s.writer = fun _ => none
  readers : ∀ r, s.readers r = if r ∈ held.map Frame.lock then [0] else []
  thread : s.thread 0 = .encoding c held
  idle : ∀ k, s.thread (k + 1) = .updating false []
  output : s.output 0 = o

theorem Locks.Alone.plain {m : Enc Unit} {c : List Piece} {held : List Frame} {o o' : Output} {s : Locks}
    (h : s.Alone content (.plain m :: c) held o) (hm : m o = (.ok (), o')) :
    (s.run joins [0]).Alone content c held o' := by
  have hs : s.step joins 0 = some ({ s with output := fun k' => if k' = 0 then o' else s.output k' }.goto 0
      (.encoding c held)) := by
    unfold Locks.step
    rw [h.thread]
    simp only [h.output, hm]
  show ((s.step joins 0).getD s).Alone content c held o'
  rw [hs]
  exact ⟨h.kind, h.content, h.writer, h.readers, rfl, h.idle, rfl⟩

theorem Locks.Alone.enter {r : Nat} {g : EncErr → EncErr} {c : List Piece} {held : List Frame} {o : Output}
    {s : Locks} (h : s.Alone content (.lock r g :: c) held o) (hr : r ∉ held.map Frame.lock) :
    (s.run joins [0]).Alone content (content r) (⟨r, g, c⟩ :: held) o := by
  have hl : s.lets joins r = true := by
    unfold Locks.lets
    rw [h.kind, h.writer, h.readers r, if_neg hr]
    rfl
  have hs : s.step joins 0 = some ((s.take 0 r).goto 0 (.encoding (s.content r) (⟨r, g, c⟩ :: held))) := by
    unfold Locks.step
    rw [h.thread]
    simp only [hl, if_true]
  show ((s.step joins 0).getD s).Alone content _ _ o
  rw [hs]
  refine ⟨h.kind, h.content, h.writer, fun r' => ?_, ?_, h.idle, h.output⟩
  · show (if r' = r then 0 :: s.readers r else s.readers r') = _
    by_cases e : r' = r
    · subst e
      rw [if_pos rfl, h.readers, if_neg hr, List.map_cons, if_pos (.head _)]
    · rw [if_neg e, h.readers]
      simp only [List.map_cons, List.mem_cons, e, false_or]
  · show Thread.encoding (s.content r) _ = _
    rw [h.content]

theorem Locks.Alone.leave {f : Frame} {held : List Frame} {o : Output}
    {s : Locks} (h : s.Alone content [] (f :: held) o) (hf : f.lock ∉ held.map Frame.lock) :
    (s.run joins [0]).Alone content f.rest held o := by
  have hs : s.step joins 0 = some ((s.give 0 f.lock).goto 0 (.encoding f.rest held)) := by
    unfold Locks.step
    rw [h.thread]
  show ((s.step joins 0).getD s).Alone content _ _ o
  rw [hs]
  refine ⟨h.kind, h.content, h.writer, fun r' => ?_, rfl, h.idle, h.output⟩
  show (if r' = f.lock then (s.readers f.lock).erase 0 else s.readers r') = _
  by_cases e : r' = f.lock
  · subst e
    rw [if_pos rfl, h.readers, List.map_cons, if_pos (.head _), if_neg hf]
    rfl
  · rw [if_neg e, h.readers]
    simp only [List.map_cons, List.mem_cons, e, false_or]

theorem Locks.Alone.stuck {r : Nat} {g : EncErr → EncErr} {c : List Piece} {held : List Frame} {o : Output}
    {s : Locks} (h : s.Alone content (.lock r g :: c) held o) (hr : r ∈ held.map Frame.lock) : Deadlock joins s := by
  have hl : s.lets joins r = false := by
    unfold Locks.lets
    rw [h.kind, h.writer, h.readers r, if_pos hr]
    rfl
  refine ⟨⟨0, by rw [h.thread]; exact id⟩, fun k => ?_⟩
  cases k with
  | zero =>
    unfold Locks.step
    rw [h.thread]
    simp only [hl]
    rfl
  | succ k =>
    unfold Locks.step
    rw [h.idle]

/-- An encoder of mutexes that is alone comes to an end of what it does, or waits for itself. -/
theorem Locks.Alone.progress {N : Nat} (hN : OnlyLocks N content) (hf : ∀ r, ∀ p ∈ content r, PieceFits p) :
    ∀ (free : Nat) (held : List Frame), (held.map Frame.lock).Nodup → (∀ r ∈ held.map Frame.lock, r < N) →
      N ≤ held.length + free → ∀ c : List Piece, (∀ r g, Piece.lock r g ∈ c → r < N) → (∀ p ∈ c, PieceFits p) →
      ∃ L, ∀ (s : Locks) (o : Output), s.Alone content c held o → o.position ≤ o.capacity → L ≤ o.remaining →
        ∃ ks, Deadlock joins (s.run joins ks) ∨ ∃ o' : Output, (s.run joins ks).Alone content [] held o' ∧
          o'.position ≤ o'.capacity ∧ o.remaining ≤ o'.remaining + L := by
  intro free
  induction free with
  | zero =>
    intro held hn hh hfree c
    induction c with
    | nil => exact fun _ _ => ⟨0, fun s o h ho _ => ⟨[], .inr ⟨o, h, ho, Nat.le_refl _⟩⟩⟩
    | cons p c ih =>
      intro hl hc
      obtain ⟨L, hL⟩ := ih (fun r g h => hl r g (.tail _ h)) fun p h => hc p (.tail _ h)
      cases p with
      | plain m =>
        obtain ⟨w, hw⟩ := hc _ (.head _)
        refine ⟨w + L, fun s o h ho hl => ?_⟩
        obtain ⟨o1, h1, h2, h3⟩ := hw o ho (by omega)
        obtain ⟨ks, h4⟩ := hL _ o1 (h.plain h1) h2 (by omega)
        refine ⟨0 :: ks, h4.imp id ?_⟩
        rintro ⟨o', h5, h6, h7⟩
        exact ⟨o', h5, h6, by omega⟩
      | lock r g =>
        refine ⟨0, fun s o h ho _ => ⟨[], .inl (h.stuck ?_)⟩⟩
        apply Classical.byContradiction
        intro hr
        have := length_le_of_subset (r :: held.map Frame.lock) (List.range N) (List.nodup_cons.mpr ⟨hr, hn⟩)
          (fun x hx => List.mem_range.mpr ((List.mem_cons.mp hx).elim (fun e => e ▸ hl r g (.head _)) (hh x)))
        rw [List.length_cons, List.length_map, List.length_range] at this
        omega
  | succ free ihf =>
    intro held hn hh hfree c
    induction c with
    | nil => exact fun _ _ => ⟨0, fun s o h ho _ => ⟨[], .inr ⟨o, h, ho, Nat.le_refl _⟩⟩⟩
    | cons p c ih =>
      intro hl hc
      obtain ⟨L, hL⟩ := ih (fun r g h => hl r g (.tail _ h)) fun p h => hc p (.tail _ h)
      cases p with
      | plain m =>
        obtain ⟨w, hw⟩ := hc _ (.head _)
        refine ⟨w + L, fun s o h ho hl => ?_⟩
        obtain ⟨o1, h1, h2, h3⟩ := hw o ho (by omega)
        obtain ⟨ks, h4⟩ := hL _ o1 (h.plain h1) h2 (by omega)
        refine ⟨0 :: ks, h4.imp id ?_⟩
        rintro ⟨o', h5, h6, h7⟩
        exact ⟨o', h5, h6, by omega⟩
      | lock r g =>
        by_cases hr : r ∈ held.map Frame.lock
        · exact ⟨0, fun s o h ho _ => ⟨[], .inl (h.stuck hr)⟩⟩
        obtain ⟨w, hw⟩ := ihf (⟨r, g, c⟩ :: held) (List.nodup_cons.mpr ⟨hr, hn⟩)
          (fun x hx => (List.mem_cons.mp hx).elim (fun e => e ▸ hl r g (.head _)) (hh x))
          (by rw [List.length_cons]; omega) (content r) (fun r' g' h' => hN.2 r r' ⟨g', h'⟩) (hf r)
        refine ⟨w + L, fun s o h ho hl => ?_⟩
        obtain ⟨ks, h1⟩ := hw _ o (h.enter (joins := joins) hr) ho (by omega)
        rcases h1 with h1 | ⟨o1, h1, h2, h3⟩
        · exact ⟨0 :: ks, .inl h1⟩
        · obtain ⟨ks', h4⟩ := hL _ o1 (h1.leave (joins := joins) hr) h2 (by omega)
          refine ⟨0 :: (ks ++ 0 :: ks'), ?_⟩
          have e : s.run joins (0 :: (ks ++ 0 :: ks')) = (((s.run joins [0]).run joins ks).run joins [0]).run joins ks' := by
            rw [show (0 :: (ks ++ 0 :: ks')) = [0] ++ (ks ++ ([0] ++ ks')) from rfl, Locks.run_append, Locks.run_append,
              Locks.run_append]
          rw [e]
          refine h4.imp id ?_
          rintro ⟨o', h5, h6, h7⟩
          exact ⟨o', h5, h6, by omega⟩

end Oct
