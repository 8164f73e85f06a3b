import Verif.Proofs.SlotWritten
import Verif.Spec.IterBorrows
/-
That iterators keep what the borrow checker promises.
-/
namespace Oct.Alias
open Spec Sound

/-- What else aliasing rules promise of references made of one another. -/
structure Glance {σ : Type} {R : Rules σ} {rule : Loan → Prop} {S : Sound R rule} (N : Nest S) : Prop where
  /-- A shared reference to a shared reference may be read by. -/
  twice : ∀ {h hs n s}, N.Tip (h :: hs) n s → ∃ s1 s2 s3, R.retag .shared h n s = some s1 ∧
    R.retag .shared n (n + 1) s1 = some s2 ∧ R.read (n + 1) s2 = some s3 ∧ N.Tip (h :: hs) (n + 2) s3
  /-- A new `&mut` may be used. -/
  own : ∀ {h hs n s}, N.Tip (h :: hs) n s → ∃ s', R.retag .excl h n s = some s' ∧ N.Tip (n :: h :: hs) (n + 1) s' ∧
    S.Own n s'

theorem stackedGlance : Glance stackedNest where
  twice := by
    rintro h hs n s ⟨⟨xs, he, hl, ht⟩, hb⟩
    match xs, he with
    | x :: xs, he =>
      have hm := tower_mem ht
      obtain ⟨hp, hx, A, rest, rfl, hA, ht⟩ := ht
      cases he
      have hfresh : ∀ m, n ≤ m → m ∉ (x :: xs).map Item.tag := by
        intro m hm' h
        obtain ⟨z, hz, e⟩ := List.mem_map.mp h
        have := hb z (hm z hz)
        omega
      have h1 := hfresh n (Nat.le_refl n)
      have h2 := hfresh (n + 1) (Nat.le_succ n)
      simp only [List.map_cons, List.mem_cons, not_or] at h1 h2
      refine ⟨(⟨n, .sharedRO⟩ :: A.map Item.disable) ++ x :: rest,
        (⟨n + 1, .sharedRO⟩ :: ⟨n, .sharedRO⟩ :: A.map Item.disable) ++ x :: rest, _, ?_, ?_, ?_,
        stackTip.above hl hp hx ht hb (show n ≤ n + 2 by omega)
          (B := ⟨n + 1, .sharedRO⟩ :: ⟨n, .sharedRO⟩ :: A.map Item.disable) fun i hi => ?_⟩
      · show (stackRead x.tag _).map _ = _
        rw [stackRead_at hp fun i hi => (hA i hi).1]
        rfl
      · show (stackRead n _).map _ = _
        rw [List.cons_append, stackRead_cons, if_pos (by simp [Item.reads])]
        rfl
      · show stackRead (n + 1) _ = _
        rw [List.cons_append, stackRead_cons, if_pos (by simp [Item.reads])]
      · rcases List.mem_cons.mp hi with rfl | hi
        · exact ⟨h2.1, h2.2, by show n + 1 < n + 2; omega⟩
        · rcases List.mem_cons.mp hi with rfl | hi
          · exact ⟨h1.1, h1.2, by show n < n + 2; omega⟩
          · obtain ⟨j, hj, e⟩ := map_disable_mem hi
            rw [← e]
            have := hb j (List.mem_append_left _ hj)
            exact ⟨(hA j hj).1, (hA j hj).2, by omega⟩
  own := by
    intro h hs n s ht
    obtain ⟨s', h1, h2⟩ := stackedNest.excl ht
    refine ⟨s', h1, h2, ?_⟩
    obtain ⟨⟨xs, he, hl, ht⟩, hb⟩ := ht
    match xs, he with
    | x :: xs, he =>
      obtain ⟨hp, hx, A, rest, rfl, hA, ht⟩ := ht
      cases he
      have e : Stacked.retag .excl x.tag n (A ++ x :: rest) = some (⟨n, .unique⟩ :: (peers x A ++ x :: rest)) := by
        show (stackWrite x.tag _).map _ = _
        rw [stackWrite_at hp fun i hi => (hA i hi).1]
        rfl
      rw [show Stacked.retag .excl x.tag n (A ++ x :: rest) = some s' from h1] at e
      cases e
      exact ⟨.unique, _, rfl, .inl rfl⟩

theorem treeGlance : Glance treeNest where
  twice := by
    rintro h hs n s ⟨r, h1, h2, h3, h4⟩
    obtain ⟨x, s1, a1, a2, a3, a4, _, a6, a7, a8⟩ := h2.node_around (h3 h (.head _)).see .frozen
    have own : ∀ g ∈ h :: hs, treeOwn g _ := fun g hg => a7 g (treeTip.below h4 (h3 h (.head _)) hg) (h3 g hg)
    have bel : ∀ g ∈ h :: hs, Below g n _ := fun g hg => (a8 _ _ (treeTip.below h4 (h3 h (.head _)) hg)).trans a6
    obtain ⟨y, s2, b1, b2, b3, b4, _, b6, b7, b8⟩ := a3.node_around (a4 rfl) .frozen
    obtain ⟨s3, c1, c2, c3, c4⟩ := b3.read_around (b4 rfl)
    refine ⟨⟨n, [n], n :: x.line, .frozen⟩ :: s1, ⟨n + 1, [n + 1], (n + 1) :: y.line, .frozen⟩ :: s2, s3, ?_, ?_, c1, r, h1, c2, fun g hg => ?_, h4.imp fun hab => ⟨c4 _ _ (b8 _ _ (a8 _ _ hab.1)), hab.2⟩⟩
    · show (match find h s with
        | none => none
        | some x => (treeRead h s).map ((⟨n, [n], n :: x.line, .frozen⟩ : Node) :: ·)) = _
      rw [a1, a2]
      rfl
    · show (match find n _ with
        | none => none
        | some x => (treeRead n _).map ((⟨n + 1, [n + 1], (n + 1) :: x.line, .frozen⟩ : Node) :: ·)) = _
      rw [b1, b2]
      rfl
    · exact c3 g ((b8 _ _ (bel g hg)).trans b6) (b7 g (bel g hg) (own g hg))
  own := by
    intro h hs n s ht
    obtain ⟨s', h1, h2⟩ := treeNest.excl ht
    obtain ⟨r, a1, a2, a3, a4⟩ := h2
    exact ⟨s', h1, ⟨r, a1, a2, a3, a4⟩, a3 n (.head _)⟩

/-! Where iterators are. -/

/-- All events are in the iterator. -/
def Confined (p : Place) (es : List Event) : Prop := ∀ e ∈ es, ∀ l, e.region.has l = true → p.whole.has l = true

theorem Confined.append {p : Place} {es fs : List Event} (h : Confined p es) (h' : Confined p fs) : Confined p (es ++ fs) :=
  fun e he => (List.mem_append.mp he).elim (h e) (h' e)

theorem Confined.cons {p : Place} {e : Event} {es : List Event} (h : ∀ l, e.region.has l = true → p.whole.has l = true)
    (h' : Confined p es) : Confined p (e :: es) := fun f hf => by
  rcases List.mem_cons.mp hf with rfl | hf
  · exact h
  · exact h' f hf

theorem Confined.nil {p : Place} : Confined p [] := fun _ h => nomatch h

theorem Confined.miss {p : Place} {es : List Event} (h : Confined p es) {l : Nat} (hl : ¬ p.whole.has l = true) {σ : Type}
    {R : Rules σ} (s : σ) : runAt R l es s = some s := runAt_miss es s fun e he hr => hl (h e he l hr)

theorem part_whole {p : Place} {pos n : Nat} (hf : pos + n ≤ p.cap) (l : Nat)
    (h : (⟨p.at_ + pos, n⟩ : Region).has l = true) : p.whole.has l = true := buf_whole (piece_buf hf h)

/-! The events of calls. -/

theorem iterTake_list (p : Place) (i h n : Nat) : p.iterTake i h n = ((), n + 2, [.retag .shared h n p.buf,
    .retag .shared n (n + 1) ⟨p.at_ + i, 1⟩, .read (n + 1) ⟨p.at_ + i, 1⟩]) := rfl

theorem iterNext_none (p : Place) (i h n : Nat) : p.iterNext 0 i h n =
    ((), n + 1, [.retag .excl h n p.whole, .read n p.head]) := rfl

theorem iterNext_some (p : Place) {len : Nat} (hl : len ≠ 0) (i h n : Nat) : p.iterNext len i h n =
    ((), n + 3, [.retag .excl h n p.whole, .read n p.head, .retag .shared n (n + 1) p.buf,
      .retag .shared (n + 1) (n + 2) ⟨p.at_ + i, 1⟩, .read (n + 2) ⟨p.at_ + i, 1⟩, .write n p.head]) := by
  simp only [Place.iterNext, if_neg hl]
  rfl

theorem iterDrops_next (p : Place) (h : Nat) : (k pos n : Nat) → (p.iterDrops h pos k n).2.1 = n + k
  | 0, _, _ => rfl
  | k + 1, pos, n => by
    show (p.iterDrops h (pos + 1) k (n + 1)).2.1 = _
    rw [iterDrops_next]
    omega

theorem iterDrops_succ (p : Place) (h pos k n : Nat) : (p.iterDrops h pos (k + 1) n).2.2 =
    .retag .excl h n ⟨p.at_ + pos, 1⟩ :: .write n ⟨p.at_ + pos, 1⟩ :: (p.iterDrops h (pos + 1) k (n + 1)).2.2 := rfl

theorem iterNth_none (p : Place) {len i : Nat} (hi : i > len) (pos h n : Nat) : p.iterNth pos len i h n =
    ((), n + 1, [.retag .excl h n p.whole, .read n p.head]) := by
  simp only [Place.iterNth, if_pos hi]
  rfl

theorem iterNth_some (p : Place) {len i : Nat} (hi : ¬ i > len) (pos h n : Nat) : p.iterNth pos len i h n =
    ((), n + 4 + (i - 1) + 2, [.retag .excl h n p.whole, .read n p.head, .retag .excl n (n + 1) p.buf,
      .retag .excl (n + 1) (n + 2) ⟨p.at_ + pos, i - 1⟩, .retag .raw (n + 2) (n + 3) ⟨p.at_ + pos, i - 1⟩] ++
      ((p.iterDrops (n + 3) pos (i - 1) (n + 4)).2.2 ++ [.retag .shared n (n + 4 + (i - 1)) p.buf,
      .retag .shared (n + 4 + (i - 1)) (n + 4 + (i - 1) + 1) ⟨p.at_ + i, 1⟩,
      .read (n + 4 + (i - 1) + 1) ⟨p.at_ + i, 1⟩, .write n p.head])) := by
  have e := iterDrops_next p (n + 3) (i - 1) pos (n + 4)
  simp only [Place.iterNth, if_neg hi]
  show (_, (p.iterDrops (n + 3) pos (i - 1) (n + 4)).2.1 + 2, _) = _
  rw [e]
  refine Prod.ext rfl (Prod.ext rfl ?_)
  show _ :: _ :: _ :: _ :: _ :: ((p.iterDrops (n + 3) pos (i - 1) (n + 4)).2.2 ++
    [.retag .shared n (p.iterDrops (n + 3) pos (i - 1) (n + 4)).2.1 p.buf,
      .retag .shared (p.iterDrops (n + 3) pos (i - 1) (n + 4)).2.1 ((p.iterDrops (n + 3) pos (i - 1) (n + 4)).2.1 + 1)
        ⟨p.at_ + i, 1⟩,
      .read ((p.iterDrops (n + 3) pos (i - 1) (n + 4)).2.1 + 1) ⟨p.at_ + i, 1⟩, .write n p.head]) = _
  rw [e]
  rfl

theorem iterClones_next (p : Place) (h : Nat) : (k pos n : Nat) → (p.iterClones h pos k n).2.1 = n + 3 * k
  | 0, _, _ => rfl
  | k + 1, pos, n => by
    show (p.iterClones h (pos + 1) k (n + 3)).2.1 = _
    rw [iterClones_next]
    omega

theorem iterClones_succ (p : Place) (h pos k n : Nat) : (p.iterClones h pos (k + 1) n).2.2 =
    .retag .shared h n p.buf :: .retag .shared n (n + 1) ⟨p.at_ + pos, 1⟩ ::
      .retag .shared (n + 1) (n + 2) ⟨p.at_ + pos, 1⟩ :: .read (n + 2) ⟨p.at_ + pos, 1⟩ ::
      (p.iterClones h (pos + 1) k (n + 3)).2.2 := rfl

theorem iterDrops_confined (p : Place) (h : Nat) : (k pos n : Nat) → pos + k ≤ p.cap →
    ∀ e ∈ (p.iterDrops h pos k n).2.2, ∀ l, e.region.has l = true → (⟨p.at_ + pos, k⟩ : Region).has l = true
  | 0, _, _, _ => fun _ h => nomatch h
  | k + 1, pos, n, hk => by
    intro e he l hl
    rw [iterDrops_succ] at he
    have one : (⟨p.at_ + pos, 1⟩ : Region).has l = true → (⟨p.at_ + pos, k + 1⟩ : Region).has l = true := by
      intro h
      rw [has_iff] at *
      simp only at *
      omega
    rcases List.mem_cons.mp he with rfl | he
    · exact one hl
    · rcases List.mem_cons.mp he with rfl | he
      · exact one hl
      · have := iterDrops_confined p h k (pos + 1) (n + 1) (by omega) e he l hl
        rw [has_iff] at *
        simp only at *
        omega

theorem iterNext_confined {p : Place} {len i : Nat} (hi : len ≠ 0 → i < p.cap) (h n : Nat) :
    Confined p (p.iterNext len i h n).2.2 := by
  by_cases hl : len = 0
  · subst hl
    rw [iterNext_none]
    exact .cons (fun _ => id) (.cons (fun _ => head_whole) .nil)
  · rw [iterNext_some p hl]
    have := hi hl
    exact .cons (fun _ => id) (.cons (fun _ => head_whole) (.cons (fun _ => buf_whole)
      (.cons (part_whole (by omega)) (.cons (part_whole (by omega)) (.cons (fun _ => head_whole) .nil)))))

theorem iterNth_confined {p : Place} {pos len i : Nat} (hp : pos + len ≤ p.cap) (hi : i ≤ len → i < p.cap) (h n : Nat) :
    Confined p (p.iterNth pos len i h n).2.2 := by
  by_cases hl : i > len
  · rw [iterNth_none p hl]
    exact .cons (fun _ => id) (.cons (fun _ => head_whole) .nil)
  · rw [iterNth_some p hl]
    have hlt := hi (by omega)
    have hs : pos + (i - 1) ≤ p.cap := by omega
    refine .append (.cons (fun _ => id) (.cons (fun _ => head_whole) (.cons (fun _ => buf_whole)
      (.cons (part_whole hs) (.cons (part_whole hs) .nil))))) (.append (fun e he l hr =>
      part_whole hs l (iterDrops_confined p _ _ _ _ hs e he l hr)) (.cons (fun _ => buf_whole)
      (.cons (part_whole (by omega)) (.cons (part_whole (by omega)) (.cons (fun _ => head_whole) .nil)))))

theorem iterMutSlice_list (p : Place) (pos len h n : Nat) : p.iterMutSlice pos len h n =
    (n + 3, n + 4, [.retag .excl h n p.whole, .retag .excl n (n + 1) p.buf, .retag .raw (n + 1) (n + 2) p.buf,
      .read n p.head, .retag .excl (n + 2) (n + 3) ⟨p.at_ + pos, len⟩]) := rfl

theorem iterMutSlice_confined {p : Place} {pos len : Nat} (hp : pos + len ≤ p.cap) (h n : Nat) :
    Confined p (p.iterMutSlice pos len h n).2.2 := by
  rw [iterMutSlice_list]
  exact .cons (fun _ => id) (.cons (fun _ => buf_whole) (.cons (fun _ => buf_whole) (.cons (fun _ => head_whole)
    (.cons (part_whole hp) .nil))))

/-! Calls by `&mut self`, where the iterator is. -/

namespace Glance
variable {σ : Type} {R : Rules σ} {rule : Loan → Prop} {S : Sound R rule} {N : Nest S} (G : Glance N) {p : Place} {l : Nat}

theorem readAny {h : Nat} {hs : List Nat} {n : Nat} {s : σ} (g : Region) (ht : N.Tip (h :: hs) n s) :
    ∃ s', (Event.read h g).act R l s = some s' ∧ N.Tip (h :: hs) n s' := by
  by_cases hg : g.has l = true
  · obtain ⟨s', h1, h2⟩ := N.read ht
    exact ⟨s', (hit_read hg).trans h1, h2⟩
  · exact ⟨s, miss_read hg, ht⟩

theorem writeAny {h : Nat} {hs : List Nat} {n : Nat} {s : σ} (g : Region) (ht : N.Tip (h :: hs) n s) :
    ∃ s', (Event.write h g).act R l s = some s' ∧ N.Tip (h :: hs) n s' := by
  by_cases hg : g.has l = true
  · obtain ⟨s', h1, h2⟩ := N.write ht
    exact ⟨s', (hit_write hg).trans h1, h2⟩
  · exact ⟨s, miss_write hg, ht⟩

include G in
/-- An item is moved out. -/
theorem take {i h : Nat} {hs : List Nat} {n : Nat} {s : σ} (hi : i < p.cap) (ht : N.Tip (h :: hs) n s) (es : List Event) :
    ∃ s', runAt R l (.retag .shared h n p.buf :: .retag .shared n (n + 1) ⟨p.at_ + i, 1⟩ ::
      .read (n + 1) ⟨p.at_ + i, 1⟩ :: es) s = runAt R l es s' ∧ N.Tip (h :: hs) (n + 2) s' := by
  by_cases hg : (⟨p.at_ + i, 1⟩ : Region).has l = true
  · obtain ⟨s1, s2, s3, h1, h2, h3, t3⟩ := G.twice ht
    refine ⟨s3, ?_, t3⟩
    rw [runAt_cons ((hit_retag (piece_buf (by omega) hg)).trans h1), runAt_cons ((hit_retag hg).trans h2),
      runAt_cons ((hit_read hg).trans h3)]
  · by_cases hb : p.buf.has l = true
    · obtain ⟨s1, h1, t1, _⟩ := N.look ht
      refine ⟨s1, ?_, N.mono (Nat.le_succ _) t1⟩
      rw [runAt_cons ((hit_retag hb).trans h1), runAt_cons (miss_retag hg), runAt_cons (miss_read hg)]
    · refine ⟨s, ?_, N.mono (Nat.le_add_right n 2) ht⟩
      rw [runAt_cons (miss_retag hb), runAt_cons (miss_retag hg), runAt_cons (miss_read hg)]

include G in
theorem iterNext (hl : p.whole.has l = true) {len i : Nat} (hi : len ≠ 0 → i < p.cap) {n : Nat} {s : σ}
    (hw : S.W 0 n s) : ∃ s', runAt R l (p.iterNext len i 0 n).2.2 s = some s' ∧ S.W 0 (p.iterNext len i 0 n).2.1 s' := by
  obtain ⟨s1, h1, t1⟩ := N.excl (N.ofW hw)
  obtain ⟨s2, h2, t2⟩ := readAny (l := l) p.head t1
  by_cases hz : len = 0
  · subst hz
    rw [iterNext_none]
    refine ⟨s2, ?_, N.toW (N.pop t2)⟩
    simp only
    rw [runAt_cons ((hit_retag hl).trans h1), runAt_cons h2]
    rfl
  · rw [iterNext_some p hz]
    obtain ⟨s3, h3, t3⟩ := G.take (l := l) (hi hz) t2 [.write n p.head]
    obtain ⟨s4, h4, t4⟩ := writeAny (l := l) p.head t3
    refine ⟨s4, ?_, N.toW (N.pop t4)⟩
    simp only
    rw [runAt_cons ((hit_retag hl).trans h1), runAt_cons h2, h3, runAt_cons h4]
    rfl

theorem drops {h g : Nat} {hs : List Nat} : (k pos n : Nat) → (s : σ) → N.Tip (h :: g :: hs) n s →
    ∃ s', runAt R l (p.iterDrops h pos k n).2.2 s = some s' ∧ N.Tip (h :: g :: hs) (n + k) s'
  | 0, _, _, s, ht => ⟨s, rfl, ht⟩
  | k + 1, pos, n, s, ht => by
    rw [iterDrops_succ, show n + (k + 1) = n + 1 + k by omega]
    by_cases hg : (⟨p.at_ + pos, 1⟩ : Region).has l = true
    · obtain ⟨s1, h1, t1⟩ := N.excl ht
      obtain ⟨s2, h2, t2⟩ := N.write t1
      obtain ⟨s3, h3, t3⟩ := drops k (pos + 1) (n + 1) s2 (N.pop t2)
      refine ⟨s3, ?_, t3⟩
      rw [runAt_cons ((hit_retag hg).trans h1), runAt_cons ((hit_write hg).trans h2), h3]
    · obtain ⟨s3, h3, t3⟩ := drops k (pos + 1) (n + 1) s (N.mono (Nat.le_succ n) ht)
      refine ⟨s3, ?_, t3⟩
      rw [runAt_cons (miss_retag hg), runAt_cons (miss_write hg), h3]

include G in
theorem iterNth (hl : p.whole.has l = true) {pos len i : Nat} (hp : pos + len ≤ p.cap) (hi : i ≤ len → i < p.cap)
    {n : Nat} {s : σ} (hw : S.W 0 n s) :
    ∃ s', runAt R l (p.iterNth pos len i 0 n).2.2 s = some s' ∧ S.W 0 (p.iterNth pos len i 0 n).2.1 s' := by
  obtain ⟨s1, h1, t1⟩ := N.excl (N.ofW hw)
  obtain ⟨s2, h2, t2⟩ := readAny (l := l) p.head t1
  by_cases hz : i > len
  · rw [iterNth_none p hz]
    refine ⟨s2, ?_, N.toW (N.pop t2)⟩
    simp only
    rw [runAt_cons ((hit_retag hl).trans h1), runAt_cons h2]
    rfl
  · rw [iterNth_some p hz]
    have hlt := hi (by omega)
    have hs : pos + (i - 1) ≤ p.cap := by omega
    have mid : ∃ s', runAt R l ([.retag .excl n (n + 1) p.buf, .retag .excl (n + 1) (n + 2) ⟨p.at_ + pos, i - 1⟩,
        .retag .raw (n + 2) (n + 3) ⟨p.at_ + pos, i - 1⟩] ++ (p.iterDrops (n + 3) pos (i - 1) (n + 4)).2.2) s2 = some s' ∧
        N.Tip [n, 0] (n + 4 + (i - 1)) s' := by
      by_cases hg : (⟨p.at_ + pos, i - 1⟩ : Region).has l = true
      · have hb := piece_buf hs hg
        obtain ⟨s3, h3, t3⟩ := N.excl t2
        obtain ⟨s4, h4, t4⟩ := N.excl t3
        obtain ⟨s5, h5, t5⟩ := N.raw t4
        obtain ⟨s6, h6, t6⟩ := drops (p := p) (l := l) (i - 1) pos (n + 4) s5 t5
        refine ⟨s6, ?_, N.pop (N.pop (N.pop t6))⟩
        rw [runAt_append, runAt_cons ((hit_retag hb).trans h3), runAt_cons ((hit_retag hg).trans h4),
          runAt_cons ((hit_retag hg).trans h5)]
        exact h6
      · have miss : ∀ s, runAt R l (p.iterDrops (n + 3) pos (i - 1) (n + 4)).2.2 s = some s := fun s =>
          runAt_miss _ s fun e he hr => hg (iterDrops_confined p _ _ _ _ hs e he l hr)
        by_cases hb : p.buf.has l = true
        · obtain ⟨s3, h3, t3⟩ := N.excl t2
          refine ⟨s3, ?_, N.mono (show n + 1 + 1 ≤ n + 4 + (i - 1) by omega) (N.pop t3)⟩
          rw [runAt_append, runAt_cons ((hit_retag hb).trans h3), runAt_cons (miss_retag hg), runAt_cons (miss_retag hg)]
          exact miss s3
        · refine ⟨s2, ?_, N.mono (show n + 1 ≤ n + 4 + (i - 1) by omega) t2⟩
          rw [runAt_append, runAt_cons (miss_retag hb), runAt_cons (miss_retag hg), runAt_cons (miss_retag hg)]
          exact miss s2
    obtain ⟨s6, h6, t6⟩ := mid
    obtain ⟨s7, h7, t7⟩ := G.take (l := l) hlt t6 [.write n p.head]
    obtain ⟨s8, h8, t8⟩ := writeAny (l := l) p.head t7
    refine ⟨s8, ?_, N.toW (N.pop t8)⟩
    simp only
    rw [show ∀ (a b c d e : Event) (x y : List Event), [a, b, c, d, e] ++ (x ++ y) = a :: b :: (([c, d, e] ++ x) ++ y) from
      fun _ _ _ _ _ _ _ => by simp, runAt_cons ((hit_retag hl).trans h1), runAt_cons h2, runAt_append, h6,
      Option.bind_some, h7, runAt_cons h8]
    rfl

include G in
theorem iterMutSlice (hl : p.whole.has l = true) {pos len : Nat} (hp : pos + len ≤ p.cap) {n : Nat} {s : σ}
    (hw : S.W 0 n s) : ∃ s', runAt R l (p.iterMutSlice pos len 0 n).2.2 s = some s' ∧ S.W 0 (n + 4) s' ∧
      ((⟨p.at_ + pos, len⟩ : Region).has l = true → S.Own (n + 3) s') := by
  rw [iterMutSlice_list]
  obtain ⟨s1, h1, t1⟩ := N.excl (N.ofW hw)
  by_cases hb : p.buf.has l = true
  · obtain ⟨s2, h2, t2⟩ := N.excl t1
    obtain ⟨s3, h3, t3⟩ := N.raw t2
    have hh := buf_not_head hb
    by_cases hg : (⟨p.at_ + pos, len⟩ : Region).has l = true
    · obtain ⟨s4, h4, t4, o4⟩ := G.own t3
      refine ⟨s4, ?_, N.toW (N.pop (N.pop (N.pop (N.pop t4)))), fun _ => o4⟩
      simp only
      rw [runAt_cons ((hit_retag hl).trans h1), runAt_cons ((hit_retag hb).trans h2),
        runAt_cons ((hit_retag hb).trans h3), runAt_cons (miss_read hh), runAt_cons ((hit_retag hg).trans h4)]
      rfl
    · refine ⟨s3, ?_, N.toW (N.pop (N.pop (N.pop (N.mono (Nat.le_succ _) t3)))), fun h => absurd h hg⟩
      simp only
      rw [runAt_cons ((hit_retag hl).trans h1), runAt_cons ((hit_retag hb).trans h2),
        runAt_cons ((hit_retag hb).trans h3), runAt_cons (miss_read hh), runAt_cons (miss_retag hg)]
      rfl
  · have hg : ¬ (⟨p.at_ + pos, len⟩ : Region).has l = true := fun h => hb (piece_buf hp h)
    obtain ⟨s2, h2, t2⟩ := readAny (l := l) p.head t1
    refine ⟨s2, ?_, N.toW (N.pop (N.mono (show n + 1 ≤ n + 4 by omega) t2)), fun h => absurd h hg⟩
    simp only
    rw [runAt_cons ((hit_retag hl).trans h1), runAt_cons (miss_retag hb), runAt_cons (miss_retag hb), runAt_cons h2,
      runAt_cons (miss_retag hg)]
    rfl

end Glance

/-! Calls by `&self`. -/

namespace Sound
variable {σ : Type} {R : Rules σ} {rule : Loan → Prop} (S : Sound R rule) {p : Place} {l : Nat}

theorem root_whole (h : p.whole.has l = true) : 0 = rootAt p l := (if_pos h).symm

theorem iterSlice_at {pos len n : Nat} {s : σ} (hp : pos + len ≤ p.cap) (hw : S.W (rootAt p l) n s) :
    ∃ s', runAt R l (p.iterSlice pos len 0 n).2.2 s = some s' ∧ S.Calm (rootAt p l) n (n + 4) s s' ∧
      ((⟨p.at_ + pos, len⟩ : Region).has l = true → S.See (n + 3) s') := by
  obtain ⟨s1, h1, c1, e1⟩ := S.shared_any (g := p.whole) (l := l) hw fun h => .inl (root_whole h)
  obtain ⟨s2, h2, c2, e2⟩ := S.shared_any (g := p.buf) (l := l) c1.2.1 fun h => .inr (e1 (buf_whole h))
  obtain ⟨s3, h3, c3, e3⟩ := S.shared_any (g := p.buf) (l := l) c2.2.1 fun h => .inr (e2 h)
  obtain ⟨s4, h4, c4⟩ := S.read_any (g := p.head) (l := l) c3.2.1
    fun h => c3.2.2.1 _ (c2.2.2.1 _ (e1 (head_whole h)))
  obtain ⟨s5, h5, c5, e5⟩ := S.shared_any (g := ⟨p.at_ + pos, len⟩) (l := l) c4.2.1
    fun h => .inr (c4.2.2.1 _ (e3 (piece_buf hp h)))
  refine ⟨s5, ?_, (((c1.trans S c2).trans S c3).trans S c4).trans S c5, e5⟩
  show runAt R l [.retag .shared 0 n p.whole, .retag .shared n (n + 1) p.buf, .retag .shared (n + 1) (n + 2) p.buf,
    .read n p.head, .retag .shared (n + 2) (n + 3) ⟨p.at_ + pos, len⟩] s = _
  rw [runAt_cons h1, runAt_cons h2, runAt_cons h3, runAt_cons h4, runAt_cons h5]
  rfl

theorem iterHint_at {n : Nat} {s : σ} (hw : S.W (rootAt p l) n s) :
    ∃ s', runAt R l (p.iterHint 0 n).2.2 s = some s' ∧ S.Calm (rootAt p l) n (n + 1) s s' ∧
      (p.whole.has l = true → S.See n s') := by
  obtain ⟨s1, h1, c1, e1⟩ := S.shared_any (g := p.whole) (l := l) hw fun h => .inl (root_whole h)
  obtain ⟨s2, h2, c2⟩ := S.read_any (g := p.head) (l := l) c1.2.1 fun h => e1 (head_whole h)
  refine ⟨s2, ?_, c1.trans S c2, fun h => c2.2.2.1 _ (e1 h)⟩
  show runAt R l [.retag .shared 0 n p.whole, .read n p.head] s = _
  rw [runAt_cons h1, runAt_cons h2]
  rfl

theorem iterClones_at {r h : Nat} : (k pos n : Nat) → pos + k ≤ p.cap → (s : σ) → S.W r n s →
    (p.whole.has l = true → S.See h s) →
    ∃ s', runAt R l (p.iterClones h pos k n).2.2 s = some s' ∧ S.Calm r n (n + 3 * k) s s'
  | 0, _, n, _, s, hw, _ => ⟨s, rfl, Calm.skip S (Nat.le_refl n) hw⟩
  | k + 1, pos, n, hk, s, hw, hh => by
    obtain ⟨s1, h1, c1, e1⟩ := S.shared_any (g := p.buf) (l := l) hw fun h => .inr (hh (buf_whole h))
    obtain ⟨s2, h2, c2, e2⟩ := S.shared_any (g := ⟨p.at_ + pos, 1⟩) (l := l) c1.2.1
      fun h => .inr (e1 (piece_buf (by omega) h))
    obtain ⟨s3, h3, c3, e3⟩ := S.shared_any (g := ⟨p.at_ + pos, 1⟩) (l := l) c2.2.1 fun h => .inr (e2 h)
    obtain ⟨s4, h4, c4⟩ := S.read_any (g := ⟨p.at_ + pos, 1⟩) (l := l) c3.2.1 e3
    have c := ((c1.trans S c2).trans S c3).trans S c4
    obtain ⟨s5, h5, c5⟩ := iterClones_at k (pos + 1) (n + 3) (by omega) s4 c4.2.1 fun h => c.2.2.1 _ (hh h)
    refine ⟨s5, ?_, ?_⟩
    · rw [iterClones_succ, runAt_cons h1, runAt_cons h2, runAt_cons h3, runAt_cons h4, h5]
    · rw [show n + 3 * (k + 1) = n + 3 + 3 * k by omega]
      exact c.trans S c5

theorem iterClone_at {pos len n : Nat} {s : σ} (hp : pos + len ≤ p.cap) (hw : S.W (rootAt p l) n s) :
    ∃ s', runAt R l (p.iterClone pos len 0 n).2.2 s = some s' ∧ S.Calm (rootAt p l) n (n + 1 + 3 * len) s s' := by
  obtain ⟨s1, h1, c1, e1⟩ := S.iterHint_at (p := p) (l := l) hw
  obtain ⟨s2, h2, c2⟩ := S.iterClones_at (p := p) (l := l) len pos (n + 1) hp s1 c1.2.1 e1
  refine ⟨s2, ?_, c1.trans S c2⟩
  show runAt R l ((p.iterHint 0 n).2.2 ++ (p.iterClones n pos len (n + 1)).2.2) s = _
  rw [runAt_append, h1, Option.bind_some, h2]

end Sound

end Oct.Alias
