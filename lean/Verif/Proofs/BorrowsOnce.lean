import Verif.Proofs.StackedBorrows
import Verif.Proofs.TreeBorrows
/-
What `each_mut` would return if it made one pointer only.
-/
namespace Oct.Alias
open Spec Sound

/-- A pointer that may be used may be used again and again. -/
theorem Sound.uses {σ : Type} {R : Rules σ} {rule : Loan → Prop} (S : Sound R rule) {r m t : Nat} {p : Place} {n : Nat}
    {l : Nat} : (es : List Event) → (s : σ) → Uses p t n es → S.W r m s → ((p.items n).has l = true → S.Own t s) →
    ∃ s', runAt R l es s = some s'
  | [], s, _, _, _ => ⟨s, rfl⟩
  | e :: es, s, hu, hw, ho => by
    have hes : Uses p t n es := fun e he => hu e (.tail _ he)
    obtain ⟨i, hi, he⟩ := hu e (.head _)
    by_cases hl : (⟨p.at_ + i, 1⟩ : Region).has l = true
    · have hit : (p.items n).has l = true := by
        rw [has_iff] at *
        simp only [Place.items] at *
        omega
      rcases he with rfl | rfl
      · obtain ⟨s1, h1, h2, h3, _⟩ := S.read_own hw (ho hit)
        rw [runAt_cons ((hit_read hl).trans h1)]
        exact S.uses es s1 hes h2 fun _ => h3
      · obtain ⟨s1, h1, h2, h3, _⟩ := S.write_own hw (ho hit)
        rw [runAt_cons ((hit_write hl).trans h1)]
        exact S.uses es s1 hes h2 fun _ => h3
    · rcases he with rfl | rfl
      · rw [runAt_cons (miss_read hl)]
        exact S.uses es s hes hw ho
      · rw [runAt_cons (miss_write hl)]
        exact S.uses es s hes hw ho

theorem once_within (p : Place) (h t : Nat) : Within p (p.eachMutOnce h t).2.2 := by
  show Within p ([.retag .excl h t p.whole, .read t p.head] ++ (p.asMutPtr t (t + 1)).2.2)
  refine Within.append (fun e he => ?_) (asMutPtr_within p t (t + 1))
  simp only [List.mem_cons, List.not_mem_nil, or_false] at he
  rcases he with rfl | rfl
  · exact .inl rfl
  · exact .inr (.inr rfl)

/-- What is enough of `each_mut` with one pointer. -/
theorem Sound.once_defined {σ : Type} {R : Rules σ} {rule : Loan → Prop} (S : Sound R rule) (p : Place) (n : Nat)
    (hn : n ≤ p.cap) (es : List Event) (hu : Uses p 5 n es)
    (h : ∀ l, p.whole.has l = true → ∃ s', runAt R l (p.eachMutOnce ownerTag 2).2.2 (R.start ownerTag) = some s' ∧
      S.W ownerTag 6 s' ∧ (p.buf.has l = true → S.Own 5 s')) :
    Defined R p ((p.eachMutOnce ownerTag 2).2.2 ++ es) := by
  intro l
  rw [runAt_append]
  by_cases hl : p.whole.has l = true
  · rw [if_pos hl]
    obtain ⟨s', h1, h2, h3⟩ := h l hl
    rw [h1]
    exact S.uses es s' hu h2 fun hi => h3 (items_buf hn hi)
  · rw [if_neg hl, runAt_miss _ _ ((once_within p ownerTag 2).miss hl), Option.bind_some]
    exact S.uses es _ hu (S.start (show dataTag < 2 by decide)) fun hi => absurd (buf_whole (items_buf hn hi)) hl

theorem stacked_once (p : Place) (n : Nat) (hn : n ≤ p.cap) (es : List Event) (hu : Uses p 5 n es) :
    Defined Stacked p ((p.eachMutOnce ownerTag 2).2.2 ++ es) := by
  refine stackedSound.once_defined p n hn es hu fun l hl => ?_
  show ∃ s', runAt Stacked l (.retag .excl 0 2 p.whole :: .read 2 p.head :: (p.asMutPtr 2 3).2.2) [⟨0, .unique⟩] = some s' ∧
    stackW 0 6 s' ∧ (p.buf.has l = true → stackOwn 5 s')
  have h1 : (Event.read 2 p.head).act Stacked l [⟨2, .unique⟩, ⟨0, .unique⟩] = some [⟨2, .unique⟩, ⟨0, .unique⟩] := by
    by_cases hh : p.head.has l = true
    · exact (hit_read hh).trans (show stackRead 2 _ = _ from stack_own_read ⟨_, _, rfl, .inl rfl⟩)
    · exact miss_read hh
  have h0 : Stacked.retag .excl 0 2 [⟨0, .unique⟩] = some [⟨2, .unique⟩, ⟨0, .unique⟩] := rfl
  rw [runAt_cons ((hit_retag hl).trans h0), runAt_cons h1, show runAt Stacked l (p.asMutPtr 2 3).2.2 [⟨2, .unique⟩,
    ⟨0, .unique⟩] = _ from stack_asMutPtr hl [] (by simp) ⟨0, .unique⟩]
  by_cases hb : p.buf.has l = true
  · rw [if_pos hb]
    exact ⟨_, rfl, ⟨by decide, [⟨5, .sharedRW⟩, ⟨4, .unique⟩, ⟨3, .unique⟩, ⟨2, .unique⟩], rfl, by simp⟩,
      fun _ => ⟨_, _, rfl, .inr rfl⟩⟩
  · rw [if_neg hb]
    exact ⟨_, rfl, ⟨by decide, [⟨3, .unique⟩, ⟨2, .unique⟩], rfl, by simp⟩, fun h => absurd h hb⟩

theorem tree_once (p : Place) (n : Nat) (hn : n ≤ p.cap) (es : List Event) (hu : Uses p 5 n es) :
    Defined Tree p ((p.eachMutOnce ownerTag 2).2.2 ++ es) := by
  refine treeSound.once_defined p n hn es hu fun l hl => ?_
  show ∃ s', runAt Tree l (.retag .excl 0 2 p.whole :: .read 2 p.head :: (p.asMutPtr 2 3).2.2) (Tree.start 0) = some s' ∧
    treeW 0 6 s' ∧ (p.buf.has l = true → treeOwn 5 s')
  have hw : treeW 0 2 (Tree.start 0) := ⟨by decide, [], rfl, fun _ h => nomatch h⟩
  obtain ⟨s1, a1, a2, _, a3, _⟩ := hw.excl (hw.fresh.own hw)
  have a3 := a3 hw.fresh
  have hread : ∃ s2, (Event.read 2 p.head).act Tree l s1 = some s2 ∧ treeW 0 3 s2 ∧ Fresh 0 2 s2 := by
    by_cases hh : p.head.has l = true
    · obtain ⟨s2, b1, b2, _, b3, _⟩ := a2.reads (a3.own a2).see
      exact ⟨s2, (hit_read hh).trans b1, b2, b3 2 a3⟩
    · exact ⟨s1, miss_read hh, a2, a3⟩
  obtain ⟨s2, b1, b2, b3⟩ := hread
  obtain ⟨s3, c1, c2, _, c3⟩ := tree_asMutPtr hl b2 b3
  refine ⟨s3, ?_, c2, fun h => (c3 h).own c2⟩
  rw [runAt_cons ((hit_retag hl).trans a1), runAt_cons b1]
  exact c1

end Oct.Alias
