import Verif.Proofs.KeptRun
import Verif.Spec.StackKept
/-
What becomes of shared references under Stacked Borrows, in programs of which nothing is known but that new tags are new.
-/
namespace Oct.Alias
open Spec Sound

/-- The item allows no writing. -/
def Item.Inert (i : Item) : Prop := i.perm = .sharedRO ∨ i.perm = .disabled

theorem Item.Inert.not {i : Item} (h : i.Inert) (t : Nat) : i.writes t = false := by
  unfold Item.writes
  rcases h with h | h <;> rw [h] <;> simp

theorem Item.Inert.disable {i : Item} (h : i.Inert) : i.disable.Inert := by
  unfold Item.disable
  split
  · exact .inr rfl
  · exact h

theorem disabled_tag (i : Item) : i.disable.tag = i.tag := by
  unfold Item.disable
  split <;> rfl

theorem cut_eq {p : Item → Bool} : ∀ {s : List Item} {q}, cut p s = some q → s = q.1 ++ q.2.1 :: q.2.2
  | [], _, h => by cases h
  | i :: s, q, h => by
    unfold cut at h
    split at h
    · cases h
      rfl
    · obtain ⟨r, h1, rfl⟩ := Option.map_eq_some_iff.mp h
      show i :: s = i :: (r.1 ++ r.2.1 :: r.2.2)
      rw [← cut_eq h1]

theorem cut_found {p : Item → Bool} : ∀ {s : List Item} {q} (c : List Item), cut p s = some q →
    cut p (s ++ c) = some (q.1, q.2.1, q.2.2 ++ c)
  | [], _, _, h => by cases h
  | i :: s, q, c, h => by
    unfold cut at h
    show cut p (i :: (s ++ c)) = _
    unfold cut
    split at h
    · rename_i hp
      cases h
      rw [if_pos hp]
    · rename_i hp
      obtain ⟨r, h1, rfl⟩ := Option.map_eq_some_iff.mp h
      rw [if_neg hp, cut_found c h1]
      rfl

theorem cut_past {p : Item → Bool} : ∀ {s : List Item} (c : List Item), cut p s = none →
    cut p (s ++ c) = (cut p c).map fun q => (s ++ q.1, q.2)
  | [], c, _ => by
    show cut p c = _
    cases cut p c <;> rfl
  | i :: s, c, h => by
    unfold cut at h
    show cut p (i :: (s ++ c)) = _
    rw [cut]
    split at h
    · cases h
    · rename_i hp
      rw [if_neg hp, cut_past c (Option.map_eq_none_iff.mp h)]
      cases cut p c <;> rfl

theorem cut_none {p : Item → Bool} : ∀ {s : List Item}, (∀ i ∈ s, p i = false) → cut p s = none
  | [], _ => rfl
  | i :: s, h => by
    unfold cut
    rw [if_neg (by rw [h i (.head _)]; exact Bool.false_ne_true), cut_none fun j hj => h j (.tail _ hj)]
    rfl

theorem takeWhile_stop {α : Type} {p : α → Bool} {x : α} (hx : p x = false) (ys : List α) : ∀ xs : List α,
    (xs ++ x :: ys).takeWhile p = xs.takeWhile p
  | [] => by simp [List.takeWhile, hx]
  | y :: xs => by
    simp only [List.cons_append, List.takeWhile]
    split
    · rw [takeWhile_stop hx ys xs]
    · rfl

theorem peers_past (x : Item) {g : Item} (hg : g.Inert) (a c : List Item) : peers x (a ++ g :: c) = peers x c := by
  unfold peers
  split
  · rw [List.reverse_append, List.reverse_cons, List.append_assoc]
    show ((c.reverse ++ g :: a.reverse).takeWhile _).reverse = _
    rw [takeWhile_stop _ a.reverse c.reverse]
    rcases hg with h | h <;> rw [h] <;> decide
  · rfl

theorem peers_in {x i : Item} {a : List Item} (h : i ∈ peers x a) : i ∈ a := by
  unfold peers at h
  split at h
  · exact List.mem_reverse.mp ((List.takeWhile_sublist _).subset (List.mem_reverse.mp h))
  · cases h

theorem peers_length (x : Item) (a : List Item) : (peers x a).length ≤ a.length := by
  unfold peers
  split
  · rw [List.length_reverse]
    exact Nat.le_trans (List.takeWhile_sublist _).length_le (Nat.le_of_eq List.length_reverse)
  · exact Nat.zero_le _

/-- The shared reference `g` may be looked at. -/
def Standing (g : Nat) (s : List Item) : Prop := ∃ a b, s = a ++ ⟨g, .sharedRO⟩ :: b ∧ (∀ i ∈ a, i.Inert ∧ i.tag ≠ g) ∧
  ∀ i ∈ b, i.tag ≠ g

/-- It may not. -/
def Popped (g : Nat) (s : List Item) : Prop := ∀ i ∈ s, i.tag ≠ g

/-- Tags from `t` on are not in use. -/
def Under (t : Nat) (s : List Item) : Prop := ∀ i ∈ s, i.tag < t

theorem Standing.inert {g : Nat} {a : List Item} (ha : ∀ i ∈ a, i.Inert ∧ i.tag ≠ g) : ∀ i ∈ a ++ [(⟨g, .sharedRO⟩ : Item)], i.Inert :=
  fun i hi => by
    rcases List.mem_append.mp hi with hi | hi
    · exact (ha i hi).1
    · rcases List.mem_singleton.mp hi with rfl
      exact .inl rfl

/-- Those that may write are below. -/
theorem cut_below {g : Nat} {a b : List Item} (ha : ∀ i ∈ a, i.Inert ∧ i.tag ≠ g) (t : Nat) :
    cut (Item.writes t) (a ++ ⟨g, .sharedRO⟩ :: b) = (cut (Item.writes t) b).map fun q => (a ++ ⟨g, .sharedRO⟩ :: q.1, q.2) := by
  have := cut_past (p := Item.writes t) b (cut_none fun i hi => (Standing.inert ha i hi).not t)
  simp only [List.append_assoc, List.singleton_append] at this
  exact this

theorem write_below {g : Nat} {a b : List Item} (ha : ∀ i ∈ a, i.Inert ∧ i.tag ≠ g) (t : Nat) :
    stackWrite t (a ++ ⟨g, .sharedRO⟩ :: b) = stackWrite t b := by
  unfold stackWrite
  rw [cut_below ha]
  cases cut (Item.writes t) b with
  | none => rfl
  | some q =>
    show some (peers q.2.1 (a ++ ⟨g, .sharedRO⟩ :: q.1) ++ q.2.1 :: q.2.2) = _
    rw [peers_past _ (.inl rfl)]
    rfl

theorem write_mem {t : Nat} {s s' : List Item} (h : stackWrite t s = some s') : ∀ i ∈ s', i ∈ s := by
  obtain ⟨q, h1, rfl⟩ := Option.map_eq_some_iff.mp h
  intro i hi
  rw [cut_eq h1]
  rcases List.mem_append.mp hi with hi | hi
  · exact List.mem_append_left _ (peers_in hi)
  · exact List.mem_append_right _ hi

theorem read_tags {t : Nat} {s s' : List Item} (h : stackRead t s = some s') : ∀ i ∈ s', ∃ j ∈ s, i.tag = j.tag := by
  obtain ⟨q, h1, rfl⟩ := Option.map_eq_some_iff.mp h
  intro i hi
  rw [cut_eq h1]
  rcases List.mem_append.mp hi with hi | hi
  · obtain ⟨j, hj, rfl⟩ := List.mem_map.mp hi
    exact ⟨j, List.mem_append_left _ hj, disabled_tag j⟩
  · exact ⟨i, List.mem_append_right _ hi, rfl⟩

theorem raw_mem {p q : Nat} {s s' : List Item} (h : stackRetag .raw p q s = some s') : ∀ i ∈ s', i ∈ s ∨ i.tag = q := by
  obtain ⟨c, h1, rfl⟩ := Option.map_eq_some_iff.mp h
  intro i hi
  rw [cut_eq h1]
  rcases List.mem_append.mp hi with hi | hi
  · exact .inl (List.mem_append_left _ (List.mem_of_mem_take hi))
  rcases List.mem_cons.mp hi with rfl | hi
  · exact .inr rfl
  rcases List.mem_append.mp hi with hi | hi
  · exact .inl (List.mem_append_left _ (peers_in hi))
  · exact .inl (List.mem_append_right _ hi)

/-- All tags are old ones or the new one. -/
theorem retag_tags {k : Kind} {p q : Nat} {s s' : List Item} (h : stackRetag k p q s = some s') :
    ∀ i ∈ s', (∃ j ∈ s, i.tag = j.tag) ∨ i.tag = q := by
  intro i hi
  cases k with
  | raw => exact (raw_mem h i hi).imp (fun hi => ⟨i, hi, rfl⟩) id
  | excl =>
    obtain ⟨s1, h1, rfl⟩ := Option.map_eq_some_iff.mp h
    rcases List.mem_cons.mp hi with rfl | hi
    · exact .inr rfl
    · exact .inl ⟨i, write_mem h1 i hi, rfl⟩
  | shared =>
    obtain ⟨s1, h1, rfl⟩ := Option.map_eq_some_iff.mp h
    rcases List.mem_cons.mp hi with rfl | hi
    · exact .inr rfl
    · exact .inl (read_tags h1 i hi)

theorem Standing.read {g t : Nat} {s s' : List Item} (hg : Standing g s) (h : stackRead t s = some s') : Standing g s' := by
  obtain ⟨a, b, rfl, ha, hb⟩ := hg
  unfold stackRead at h
  cases hc : cut (Item.reads t) a with
  | some q =>
    rw [cut_found _ hc] at h
    cases h
    have e := cut_eq hc
    refine ⟨q.1.map Item.disable ++ q.2.1 :: q.2.2, b, by simp, fun i hi => ?_, hb⟩
    rcases List.mem_append.mp hi with hi | hi
    · obtain ⟨j, hj, rfl⟩ := List.mem_map.mp hi
      have := ha j (e ▸ List.mem_append_left _ hj)
      exact ⟨this.1.disable, disabled_tag j ▸ this.2⟩
    · exact ha i (e ▸ List.mem_append_right _ hi)
  | none =>
    rw [cut_past _ hc] at h
    have hm : ∀ i ∈ a.map Item.disable, i.Inert ∧ i.tag ≠ g := fun i hi => by
      obtain ⟨j, hj, rfl⟩ := List.mem_map.mp hi
      exact ⟨(ha j hj).1.disable, disabled_tag j ▸ (ha j hj).2⟩
    unfold cut at h
    split at h
    · cases h
      exact ⟨a.map Item.disable, b, by simp, hm, hb⟩
    · cases hc' : cut (Item.reads t) b with
      | none => rw [hc'] at h; cases h
      | some q =>
        rw [hc'] at h
        cases h
        have e := cut_eq hc'
        refine ⟨a.map Item.disable, q.1.map Item.disable ++ q.2.1 :: q.2.2, by simp [Item.disable], hm, fun i hi => ?_⟩
        rcases List.mem_append.mp hi with hi | hi
        · obtain ⟨j, hj, rfl⟩ := List.mem_map.mp hi
          rw [disabled_tag]
          exact hb j (e ▸ List.mem_append_left _ hj)
        · exact hb i (e ▸ List.mem_append_right _ hi)

theorem Standing.write {g t : Nat} {s s' : List Item} (hg : Standing g s) (h : stackWrite t s = some s') : Popped g s' := by
  obtain ⟨a, b, rfl, ha, hb⟩ := hg
  rw [write_below ha] at h
  exact fun i hi => hb i (write_mem h i hi)

theorem Standing.shared {g p q : Nat} {s s' : List Item} (hq : q ≠ g) (hg : Standing g s) (h : stackRetag .shared p q s = some s') :
    Standing g s' := by
  obtain ⟨s1, h1, rfl⟩ := Option.map_eq_some_iff.mp h
  obtain ⟨a, b, rfl, ha, hb⟩ := hg.read h1
  refine ⟨⟨q, .sharedRO⟩ :: a, b, rfl, fun i hi => ?_, hb⟩
  rcases List.mem_cons.mp hi with rfl | hi
  · exact ⟨.inl rfl, hq⟩
  · exact ha i hi

theorem Standing.excl {g p q : Nat} {s s' : List Item} (hq : q ≠ g) (hg : Standing g s) (h : stackRetag .excl p q s = some s') :
    Popped g s' := by
  obtain ⟨s1, h1, rfl⟩ := Option.map_eq_some_iff.mp h
  intro i hi
  rcases List.mem_cons.mp hi with rfl | hi
  · exact hq
  · exact hg.write h1 i hi

theorem Standing.raw {g p q : Nat} {s s' : List Item} (hq : q ≠ g) (hg : Standing g s) (h : stackRetag .raw p q s = some s') :
    Standing g s' := by
  obtain ⟨a, b, rfl, ha, hb⟩ := hg
  simp only [stackRetag] at h
  rw [cut_below ha] at h
  cases hc : cut (Item.writes p) b with
  | none => rw [hc] at h; cases h
  | some c =>
    rw [hc] at h
    simp only [Option.map_some, Option.some.injEq, peers_past _ (show Item.Inert ⟨g, .sharedRO⟩ from .inl rfl)] at h
    have e := cut_eq hc
    have hl := peers_length c.2.1 c.1
    have et : (a ++ ⟨g, .sharedRO⟩ :: c.1).take ((a ++ ⟨g, .sharedRO⟩ :: c.1).length - (peers c.2.1 c.1).length) =
        a ++ ⟨g, .sharedRO⟩ :: c.1.take (c.1.length - (peers c.2.1 c.1).length) := by
      rw [List.length_append, List.length_cons, List.take_append,
        List.take_of_length_le (by omega : a.length ≤ _),
        show a.length + (c.1.length + 1) - (peers c.2.1 c.1).length - a.length =
          (c.1.length - (peers c.2.1 c.1).length) + 1 by omega, List.take_succ_cons]
    rw [et] at h
    subst h
    refine ⟨a, c.1.take (c.1.length - (peers c.2.1 c.1).length) ++ ⟨q, .sharedRW⟩ :: (peers c.2.1 c.1 ++ c.2.1 :: c.2.2),
      by simp, ha, fun i hi => ?_⟩
    have hb' : ∀ i ∈ c.1 ++ c.2.1 :: c.2.2, i.tag ≠ g := e ▸ hb
    rcases List.mem_append.mp hi with hi | hi
    · exact hb' i (List.mem_append_left _ (List.mem_of_mem_take hi))
    rcases List.mem_cons.mp hi with rfl | hi
    · exact hq
    rcases List.mem_append.mp hi with hi | hi
    · exact hb' i (List.mem_append_left _ (peers_in hi))
    · exact hb' i (List.mem_append_right _ hi)

theorem Standing.reads {g : Nat} {s : List Item} (h : Standing g s) : ∃ s', stackRead g s = some s' := by
  obtain ⟨a, b, rfl, ha, _⟩ := h
  unfold stackRead
  rw [cut_past _ (cut_none fun i hi => by unfold Item.reads; simp [(ha i hi).2])]
  unfold cut
  rw [if_pos (by unfold Item.reads; simp)]
  exact ⟨_, rfl⟩

theorem Popped.reads {g : Nat} {s : List Item} (h : Popped g s) : stackRead g s = none := by
  unfold stackRead
  rw [cut_none fun i hi => by unfold Item.reads; simp [h i hi]]
  rfl

variable {l : Nat}

theorem Counts.under {t t' : Nat} {es : List Event} (hc : Counts t es t') : ∀ {s s' : List Item}, Under t s →
    runAt Stacked l es s = some s' → Under t' s' := by
  induction hc with
  | nil => intro s s' hb e; cases e; exact hb
  | @read t t' u r es _ ih =>
    intro s s' hb e
    obtain ⟨s1, e1, e2⟩ := Option.bind_eq_some_iff.mp e
    refine ih ?_ e2
    by_cases hr : r.has l = true
    · rw [hit_read hr] at e1
      intro i hi
      obtain ⟨j, hj, h⟩ := read_tags e1 i hi
      exact h ▸ hb j hj
    · rw [miss_read hr] at e1
      cases e1
      exact hb
  | @write t t' u r es _ ih =>
    intro s s' hb e
    obtain ⟨s1, e1, e2⟩ := Option.bind_eq_some_iff.mp e
    refine ih ?_ e2
    by_cases hr : r.has l = true
    · rw [hit_write hr] at e1
      exact fun i hi => hb i (write_mem e1 i hi)
    · rw [miss_write hr] at e1
      cases e1
      exact hb
  | @retag t t' k u r es _ ih =>
    intro s s' hb e
    obtain ⟨s1, e1, e2⟩ := Option.bind_eq_some_iff.mp e
    refine ih ?_ e2
    by_cases hr : r.has l = true
    · rw [hit_retag hr] at e1
      intro i hi
      rcases retag_tags e1 i hi with ⟨j, hj, h⟩ | h
      · rw [h]
        exact Nat.lt_succ_of_lt (hb j hj)
      · rw [h]
        exact Nat.lt_succ_self t
    · rw [miss_retag hr] at e1
      cases e1
      exact fun i hi => Nat.lt_succ_of_lt (hb i hi)

/-- What is gone stays so. -/
theorem Counts.gone {t t' g : Nat} {es : List Event} (hc : Counts t es t') : ∀ {s s' : List Item}, g < t →
    runAt Stacked l es s = some s' → Popped g s → Popped g s' := by
  induction hc with
  | nil => intro s s' hb e h; cases e; exact h
  | @read t t' u r es _ ih =>
    intro s s' hb e hg
    obtain ⟨s1, e1, e2⟩ := Option.bind_eq_some_iff.mp e
    refine ih hb e2 ?_
    by_cases hr : r.has l = true
    · rw [hit_read hr] at e1
      intro i hi
      obtain ⟨j, hj, h⟩ := read_tags e1 i hi
      exact h ▸ hg j hj
    · rw [miss_read hr] at e1
      cases e1
      exact hg
  | @write t t' u r es _ ih =>
    intro s s' hb e hg
    obtain ⟨s1, e1, e2⟩ := Option.bind_eq_some_iff.mp e
    refine ih hb e2 ?_
    by_cases hr : r.has l = true
    · rw [hit_write hr] at e1
      exact fun i hi => hg i (write_mem e1 i hi)
    · rw [miss_write hr] at e1
      cases e1
      exact hg
  | @retag t t' k u r es _ ih =>
    intro s s' hb e hg
    obtain ⟨s1, e1, e2⟩ := Option.bind_eq_some_iff.mp e
    refine ih (Nat.lt_succ_of_lt hb) e2 ?_
    by_cases hr : r.has l = true
    · rw [hit_retag hr] at e1
      intro i hi
      rcases retag_tags e1 i hi with ⟨j, hj, h⟩ | h
      · rw [h]
        exact hg j hj
      · rw [h]
        exact Nat.ne_of_gt hb
    · rw [miss_retag hr] at e1
      cases e1
      exact hg

theorem ClaimedAt.cons {e : Event} {es : List Event} (h : ClaimedAt es l) : ClaimedAt (e :: es) l := by
  rcases h with ⟨u, r, h1, h2⟩ | ⟨u, q, r, h1, h2⟩
  · exact .inl ⟨u, r, .tail _ h1, h2⟩
  · exact .inr ⟨u, q, r, .tail _ h1, h2⟩

theorem ClaimedAt.uncons {e : Event} {es : List Event} (h : ClaimedAt (e :: es) l) : ClaimedAt [e] l ∨ ClaimedAt es l := by
  rcases h with ⟨u, r, h1, h2⟩ | ⟨u, q, r, h1, h2⟩
  · rcases List.mem_cons.mp h1 with rfl | h1
    · exact .inl (.inl ⟨u, r, .head _, h2⟩)
    · exact .inr (.inl ⟨u, r, h1, h2⟩)
  · rcases List.mem_cons.mp h1 with rfl | h1
    · exact .inl (.inr ⟨u, q, r, .head _, h2⟩)
    · exact .inr (.inr ⟨u, q, r, h1, h2⟩)

theorem unclaimed_read {u : Nat} {r : Region} : ¬ ClaimedAt [.read u r] l := fun h => by
  rcases h with ⟨_, _, h, _⟩ | ⟨_, _, _, h, _⟩ <;> cases List.mem_singleton.mp h

/-- A shared reference may be looked at until something there is written or borrowed as mutable, and not after. -/
theorem Counts.seen {t t' g : Nat} {es : List Event} (hc : Counts t es t') : ∀ {s s' : List Item}, g < t →
    runAt Stacked l es s = some s' → Standing g s → (¬ ClaimedAt es l → Standing g s') ∧ (ClaimedAt es l → Popped g s') := by
  induction hc with
  | nil =>
    intro s s' _ e h
    cases e
    refine ⟨fun _ => h, fun h' => ?_⟩
    rcases h' with ⟨_, _, h', _⟩ | ⟨_, _, _, h', _⟩ <;> cases h'
  | @read t t' u r es hc ih =>
    intro s s' hb e hg
    obtain ⟨s1, e1, e2⟩ := Option.bind_eq_some_iff.mp e
    have hs : Standing g s1 := by
      by_cases hr : r.has l = true
      · rw [hit_read hr] at e1
        exact hg.read e1
      · rw [miss_read hr] at e1
        cases e1
        exact hg
    obtain ⟨i1, i2⟩ := ih hb e2 hs
    exact ⟨fun h => i1 fun h' => h (ClaimedAt.cons h'), fun h => i2 ((ClaimedAt.uncons h).resolve_left unclaimed_read)⟩
  | @write t t' u r es hc ih =>
    intro s s' hb e hg
    obtain ⟨s1, e1, e2⟩ := Option.bind_eq_some_iff.mp e
    by_cases hr : r.has l = true
    · rw [hit_write hr] at e1
      exact ⟨fun h => absurd (.inl ⟨u, r, .head _, hr⟩) h, fun _ => hc.gone hb e2 (hg.write e1)⟩
    · rw [miss_write hr] at e1
      cases e1
      obtain ⟨i1, i2⟩ := ih hb e2 hg
      refine ⟨fun h => i1 fun h' => h (ClaimedAt.cons h'), fun h => i2 ((ClaimedAt.uncons h).resolve_left fun h => ?_)⟩
      rcases h with ⟨_, _, h, h'⟩ | ⟨_, _, _, h, _⟩
      · cases List.mem_singleton.mp h
        exact hr h'
      · cases List.mem_singleton.mp h
  | @retag t t' k u r es hc ih =>
    intro s s' hb e hg
    obtain ⟨s1, e1, e2⟩ := Option.bind_eq_some_iff.mp e
    have hb' := Nat.lt_succ_of_lt hb
    by_cases hk : k = .excl ∧ r.has l = true
    · obtain ⟨rfl, hr⟩ := hk
      rw [hit_retag hr] at e1
      exact ⟨fun h => absurd (.inr ⟨u, t, r, .head _, hr⟩) h, fun _ => hc.gone hb' e2 (hg.excl (Nat.ne_of_gt hb) e1)⟩
    · have hs : Standing g s1 := by
        by_cases hr : r.has l = true
        · rw [hit_retag hr] at e1
          cases k with
          | excl => exact absurd ⟨rfl, hr⟩ hk
          | shared => exact hg.shared (Nat.ne_of_gt hb) e1
          | raw => exact hg.raw (Nat.ne_of_gt hb) e1
        · rw [miss_retag hr] at e1
          cases e1
          exact hg
      obtain ⟨i1, i2⟩ := ih hb' e2 hs
      refine ⟨fun h => i1 fun h' => h (ClaimedAt.cons h'), fun h => i2 ((ClaimedAt.uncons h).resolve_left fun h => ?_)⟩
      rcases h with ⟨_, _, h, _⟩ | ⟨_, _, _, h, h'⟩
      · cases List.mem_singleton.mp h
      · cases List.mem_singleton.mp h
        exact hk ⟨rfl, h'⟩

/-- A reference that was just made. -/
theorem Under.made {p t : Nat} {s s' : List Item} (hb : Under t s) (e : stackRetag .shared p t s = some s') : Standing t s' := by
  obtain ⟨s1, h1, rfl⟩ := Option.map_eq_some_iff.mp e
  refine ⟨[], s1, rfl, (fun _ h => nomatch h), fun i hi => ?_⟩
  obtain ⟨j, hj, h⟩ := read_tags h1 i hi
  rw [h]
  exact Nat.ne_of_lt (hb j hj)

theorem start_under (p : Place) (l : Nat) : Under 2 (Stacked.start (if p.whole.has l then ownerTag else dataTag)) :=
  fun i hi => by
    rcases List.mem_singleton.mp hi with rfl
    show (if p.whole.has l = true then ownerTag else dataTag) < 2
    split <;> decide

theorem stacked_exactly {p : Place} {es fs : List Event} {n n' u a : Nat} {r : Region} (he : Counts 2 es n)
    (hf : Counts (n + 1) fs n') (ha : r.has a = true) (h : Defined Stacked p ((es ++ [.retag .shared u n r]) ++ fs)) :
    Defined Stacked p ((es ++ [.retag .shared u n r]) ++ fs ++ [.read n ⟨a, 1⟩]) ↔ ¬ ClaimedAt fs a := by
  obtain ⟨s', hs⟩ := h a
  have hs0 := hs
  rw [runAt_append, runAt_append] at hs
  obtain ⟨s1, h1, h2⟩ := Option.bind_eq_some_iff.mp hs
  obtain ⟨s0, h3, h4⟩ := Option.bind_eq_some_iff.mp h1
  obtain ⟨s2, h5, h6⟩ := Option.bind_eq_some_iff.mp h4
  cases h6
  rw [hit_retag ha] at h5
  obtain ⟨k1, k2⟩ := hf.seen (Nat.lt_succ_self n) h2 (Under.made (p := u) (he.under (start_under p a) h3) h5)
  refine ⟨fun hd hw => ?_, fun hw l => ?_⟩
  · obtain ⟨s3, h7⟩ := hd a
    rw [runAt_append, hs0, Option.bind_some] at h7
    obtain ⟨s4, h8, _⟩ := Option.bind_eq_some_iff.mp h7
    rw [hit_read (one_has a)] at h8
    have h9 : stackRead n s' = some s4 := h8
    rw [(k2 hw).reads] at h9
    cases h9
  · obtain ⟨s3, h7⟩ := h l
    rw [runAt_append, h7, Option.bind_some]
    by_cases hl : (⟨a, 1⟩ : Region).has l = true
    · have : l = a := by
        rw [has_iff] at hl
        simp only at hl
        omega
      subst this
      rw [hs0] at h7
      cases h7
      obtain ⟨s4, h8⟩ := (k1 hw).reads
      exact ⟨s4, runAt_cons ((hit_read hl).trans h8)⟩
    · exact ⟨_, runAt_cons (miss_read hl)⟩

variable {σ κ : Type} (D : Device σ κ)

/-- What a call returned last as a shared reference may be looked at exactly until something there is written or borrowed
as mutable. -/
theorem Device.stacked {p : Place} {o : σ} {cs ds : List κ} {c : κ} {i u : Nat} {pre : List Event} {r : Region}
    (h0 : D.next o = 2) (hi : i < r.size)
    (n : Nat) (hp : Counts (D.next (D.after o cs)) pre n) (he : (D.go (D.after o cs) c).2 = pre ++ [.retag .shared u n r])
    (hn : D.next (D.go (D.after o cs) c).1 = n + 1)
    (hh : D.held (D.go (D.after o cs) c).1 = D.held (D.after o cs) ++ [⟨n, r⟩])
    (h : Defined Stacked p (D.events o (cs ++ c :: ds))) :
    Defined Stacked p (D.events o (cs ++ c :: (ds ++ [D.get (D.held (D.after o cs)).length i]))) ↔
      ¬ ClaimedAt (D.events (D.go (D.after o cs) c).1 ds) (r.lo + i) := by
  have hx : (D.held (D.go (D.after o cs) c).1)[(D.held (D.after o cs)).length]? = some ⟨n, r⟩ := by
    rw [hh]
    simp
  have e1 : D.events o (cs ++ c :: ds) = (D.events o cs ++ pre ++ [.retag .shared u n r]) ++
      D.events (D.go (D.after o cs) c).1 ds := by
    rw [D.events_append]
    show _ ++ ((D.go (D.after o cs) c).2 ++ _) = _
    rw [he]
    simp only [List.append_assoc]
  have e2 : D.events o (cs ++ c :: (ds ++ [D.get (D.held (D.after o cs)).length i])) =
      (D.events o cs ++ pre ++ [.retag .shared u n r]) ++ D.events (D.go (D.after o cs) c).1 ds ++
        [.read n ⟨r.lo + i, 1⟩] := by
    rw [D.events_append]
    show _ ++ ((D.go (D.after o cs) c).2 ++ D.events _ (ds ++ _)) = _
    rw [D.events_append, D.look (D.still hx ds), he]
    simp only [List.append_assoc]
  rw [e1] at h
  rw [e2]
  refine stacked_exactly ((h0 ▸ D.events_counts o cs : Counts 2 _ _).append hp) (hn ▸ D.events_counts _ ds) ?_ h
  rw [has_iff]
  omega

end Oct.Alias
