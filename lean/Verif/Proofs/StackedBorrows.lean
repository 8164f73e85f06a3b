import Verif.Proofs.BorrowsRun
/-
What Stacked Borrows makes of the methods.
-/
namespace Oct.Alias
open Spec Sound

theorem stackRead_cons (t : Nat) (i : Item) (s : List Item) : stackRead t (i :: s) =
    if i.reads t = true then some (i :: s) else (stackRead t s).map (i.disable :: ·) := by
  unfold stackRead
  show ((if i.reads t = true then some ([], i, s) else (cut (Item.reads t) s).map fun q => (i :: q.1, q.2)).map _) = _
  split
  · rfl
  · cases cut (Item.reads t) s with
    | none => rfl
    | some q => rfl

theorem disable_tag (i : Item) : i.disable.tag = i.tag := by
  unfold Item.disable
  split <;> rfl

/-- Reading is defined if there is an item that allows it. -/
theorem stackRead_some (t : Nat) : (s : List Item) → (∃ i ∈ s, i.tag = t ∧ i.perm ≠ .disabled) → ∃ s', stackRead t s = some s'
  | [], h => by
    obtain ⟨_, h, _⟩ := h
    cases h
  | i :: s, h => by
    rw [stackRead_cons]
    split
    · exact ⟨_, rfl⟩
    · rename_i hn
      obtain ⟨j, hj, h1, h2⟩ := h
      cases hj with
      | head => exact absurd (by simp [Item.reads, h1, h2]) hn
      | tail _ hj =>
        obtain ⟨s', h⟩ := stackRead_some t s ⟨j, hj, h1, h2⟩
        rw [h]
        exact ⟨_, rfl⟩

/-- Reading makes no new tags, and leaves items that are only for reading. -/
theorem stackRead_mem (t : Nat) : (s s' : List Item) → stackRead t s = some s' →
    (∀ i ∈ s', ∃ j ∈ s, j.tag = i.tag) ∧ (∀ i ∈ s, i.perm = .sharedRO → i ∈ s')
  | [], _, h => by cases h
  | i :: s, s', h => by
    rw [stackRead_cons] at h
    split at h
    · cases h
      exact ⟨fun i hi => ⟨i, hi, rfl⟩, fun i hi _ => hi⟩
    · cases hr : stackRead t s with
      | none => rw [hr] at h; cases h
      | some s1 =>
        rw [hr] at h
        cases h
        obtain ⟨h1, h2⟩ := stackRead_mem t s s1 hr
        constructor
        · intro k hk
          cases hk with
          | head => exact ⟨i, .head _, (disable_tag i).symm⟩
          | tail _ hk =>
            obtain ⟨j, hj, e⟩ := h1 k hk
            exact ⟨j, .tail _ hj, e⟩
        · intro k hk hp
          cases hk with
          | head =>
            have : i.disable = i := by
              unfold Item.disable
              rw [if_neg (by rw [hp]; decide)]
            show i ∈ i.disable :: s1
            rw [this]
            exact .head _
          | tail _ hk => exact .tail _ (h2 k hk hp)

/-- Reading leaves the owner at the bottom. -/
theorem stackRead_owner (t : Nat) (x : Item) : (A s' : List Item) → stackRead t (A ++ [x]) = some s' →
    ∃ A', s' = A' ++ [x] ∧ ∀ i ∈ A', ∃ j ∈ A, j.tag = i.tag
  | [], s', h => by
    rw [List.nil_append, stackRead_cons] at h
    split at h
    · cases h
      exact ⟨[], rfl, fun _ hi => nomatch hi⟩
    · cases h
  | i :: A, s', h => by
    rw [List.cons_append, stackRead_cons] at h
    split at h
    · cases h
      exact ⟨i :: A, rfl, fun j hj => ⟨j, hj, rfl⟩⟩
    · cases hr : stackRead t (A ++ [x]) with
      | none => rw [hr] at h; cases h
      | some s1 =>
        rw [hr] at h
        cases h
        obtain ⟨A', rfl, h1⟩ := stackRead_owner t x A s1 hr
        refine ⟨i.disable :: A', rfl, fun k hk => ?_⟩
        cases hk with
        | head => exact ⟨i, .head _, (disable_tag i).symm⟩
        | tail _ hk =>
          obtain ⟨j, hj, e⟩ := h1 k hk
          exact ⟨j, .tail _ hj, e⟩

/-- Writing below other items pops them. -/
theorem stackWrite_below {t : Nat} {s : List Item} : (A : List Item) → (∀ i ∈ A, i.tag ≠ t) →
    stackWrite t (A ++ ⟨t, .unique⟩ :: s) = some (⟨t, .unique⟩ :: s) := by
  have key : (A : List Item) → (∀ i ∈ A, i.tag ≠ t) →
      cut (Item.writes t) (A ++ ⟨t, .unique⟩ :: s) = some (A, ⟨t, .unique⟩, s) := by
    intro A
    induction A with
    | nil => intro _; simp [cut, Item.writes]
    | cons i A ih =>
      intro h
      have hi := h i (.head _)
      rw [List.cons_append]
      unfold cut
      rw [if_neg (by simp [Item.writes, hi]), ih fun j hj => h j (.tail _ hj)]
      rfl
  intro A h
  unfold stackWrite
  rw [key A h]
  rfl

/-- The owner is at the bottom, and tags from `n` on are not in use. -/
def stackW (r n : Nat) (s : List Item) : Prop :=
  r < n ∧ ∃ A, s = A ++ [⟨r, .unique⟩] ∧ ∀ i ∈ A, i.tag ≠ r ∧ i.tag < n

def stackSee (h : Nat) (s : List Item) : Prop := ∃ i ∈ s, i.tag = h ∧ i.perm = .sharedRO

def stackOwn (h : Nat) (s : List Item) : Prop := ∃ q rest, s = ⟨h, q⟩ :: rest ∧ (q = .unique ∨ q = .sharedRW)

def stackDead (h : Nat) (s : List Item) : Prop := ∀ i ∈ s, i.tag ≠ h

theorem stackW.read {r n h : Nat} {s s' : List Item} (hw : stackW r n s) (hr : stackRead h s = some s') :
    stackW r n s' := by
  obtain ⟨h0, A, rfl, hA⟩ := hw
  obtain ⟨A', rfl, h1⟩ := stackRead_owner h _ A s' hr
  refine ⟨h0, A', rfl, fun i hi => ?_⟩
  obtain ⟨j, hj, e⟩ := h1 i hi
  rw [← e]
  exact hA j hj

theorem stackW.reads {r n h : Nat} {s : List Item} (hw : stackW r n s) (hh : h = r ∨ stackSee h s) :
    ∃ s', stackRead h s = some s' ∧ stackW r n s' ∧ (∀ g, stackSee g s → stackSee g s') ∧
      (∀ g, stackDead g s → stackDead g s') := by
  have hex : ∃ i ∈ s, i.tag = h ∧ i.perm ≠ .disabled := by
    rcases hh with rfl | ⟨i, hi, e, hp⟩
    · obtain ⟨_, A, rfl, _⟩ := hw
      exact ⟨_, List.mem_append_right _ (.head _), rfl, nofun⟩
    · exact ⟨i, hi, e, by rw [hp]; nofun⟩
  obtain ⟨s', hr⟩ := stackRead_some h s hex
  obtain ⟨h1, h2⟩ := stackRead_mem h s s' hr
  refine ⟨s', hr, hw.read hr, fun g ⟨i, hi, e, hp⟩ => ⟨i, h2 i hi hp, e, hp⟩, fun g hg i hi => ?_⟩
  obtain ⟨j, hj, e⟩ := h1 i hi
  rw [← e]
  exact hg j hj

/-- Making a `&mut` of the owner ends all else. -/
theorem stackW.excl {r n q : Nat} {s : List Item} (hw : stackW r n s) :
    stackRetag .excl r q s = some [⟨q, .unique⟩, ⟨r, .unique⟩] := by
  obtain ⟨_, A, rfl, hA⟩ := hw
  show (stackWrite r _).map _ = _
  rw [stackWrite_below A fun i hi => (hA i hi).1]
  rfl

theorem stackW.dead {r n g : Nat} {s : List Item} (hw : stackW r n s) (h : stackDead g s) : r ≠ g := by
  obtain ⟨_, A, rfl, _⟩ := hw
  exact h _ (List.mem_append_right _ (.head _))

theorem stack_own_read {h : Nat} {s : List Item} (ho : stackOwn h s) : stackRead h s = some s := by
  obtain ⟨q, rest, rfl, hq⟩ := ho
  rw [stackRead_cons, if_pos]
  rcases hq with rfl | rfl <;> simp [Item.reads]

theorem stack_own_write {h : Nat} {s : List Item} (ho : stackOwn h s) : stackWrite h s = some s := by
  obtain ⟨q, rest, rfl, hq⟩ := ho
  rcases hq with rfl | rfl <;> simp [stackWrite, cut, Item.writes, peers]

theorem stack_dead_read {h : Nat} : {s : List Item} → stackDead h s → stackRead h s = none
  | [], _ => rfl
  | i :: s, hd => by
    rw [stackRead_cons, if_neg (by simp [Item.reads, hd i (.head _)]), stack_dead_read fun j hj => hd j (.tail _ hj)]
    rfl

theorem stack_dead_write {h : Nat} {s : List Item} (hd : stackDead h s) : stackWrite h s = none := by
  have : cut (Item.writes h) s = none := by
    induction s with
    | nil => rfl
    | cons i s ih =>
      unfold cut
      rw [if_neg (by simp [Item.writes, hd i (.head _)]), ih fun j hj => hd j (.tail _ hj)]
      rfl
  unfold stackWrite
  rw [this]
  rfl

/-- `as_mut_ptr`, of a `&mut` that is directly above the owner. -/
theorem stack_asMutPtr {p : Place} {h t l : Nat} (hl : p.whole.has l = true) (A : List Item) (hA : ∀ i ∈ A, i.tag ≠ h) (z : Item) :
    runAt Stacked l (p.asMutPtr h t).2.2 (A ++ [⟨h, .unique⟩, z]) =
      some (if p.buf.has l = true then [⟨t + 2, .sharedRW⟩, ⟨t + 1, .unique⟩, ⟨t, .unique⟩, ⟨h, .unique⟩, z]
        else [⟨t, .unique⟩, ⟨h, .unique⟩, z]) := by
  show runAt Stacked l [.retag .excl h t p.whole, .retag .excl t (t + 1) p.buf, .retag .raw (t + 1) (t + 2) p.buf] _ = _
  have h1 : Stacked.retag .excl h t (A ++ [⟨h, .unique⟩, z]) = some [⟨t, .unique⟩, ⟨h, .unique⟩, z] := by
    show (stackWrite h _).map _ = _
    rw [stackWrite_below A hA]
    rfl
  rw [runAt_cons ((hit_retag hl).trans h1)]
  by_cases hb : p.buf.has l = true
  · rw [if_pos hb]
    have h2 : Stacked.retag .excl t (t + 1) [⟨t, .unique⟩, ⟨h, .unique⟩, z] =
        some [⟨t + 1, .unique⟩, ⟨t, .unique⟩, ⟨h, .unique⟩, z] := by
      simp [Stacked, stackRetag, stackWrite, cut, Item.writes, peers]
    have h3 : Stacked.retag .raw (t + 1) (t + 2) [⟨t + 1, .unique⟩, ⟨t, .unique⟩, ⟨h, .unique⟩, z] =
        some [⟨t + 2, .sharedRW⟩, ⟨t + 1, .unique⟩, ⟨t, .unique⟩, ⟨h, .unique⟩, z] := by
      simp [Stacked, stackRetag, cut, Item.writes, peers]
    rw [runAt_cons ((hit_retag hb).trans h2), runAt_cons ((hit_retag hb).trans h3)]
    rfl
  · rw [if_neg hb, runAt_cons (miss_retag hb), runAt_cons (miss_retag hb)]
    rfl

theorem stack_len {p : Place} {h t l : Nat} (hl : p.whole.has l = true) {s s' : List Item} (hr : stackRead h s = some s') :
    runAt Stacked l (p.len h t).2.2 s = some (⟨t, .sharedRO⟩ :: s') := by
  show runAt Stacked l [.retag .shared h t p.whole, .read t p.head] _ = _
  have h1 : Stacked.retag .shared h t s = some (⟨t, .sharedRO⟩ :: s') := by
    show (stackRead h s).map _ = _
    rw [hr]
    rfl
  rw [runAt_cons ((hit_retag hl).trans h1)]
  by_cases hb : p.head.has l = true
  · have h2 : Stacked.read t (⟨t, .sharedRO⟩ :: s') = some (⟨t, .sharedRO⟩ :: s') := by
      show stackRead t _ = _
      rw [stackRead_cons, if_pos (by simp [Item.reads])]
    rw [runAt_cons ((hit_read hb).trans h2)]
    rfl
  · rw [runAt_cons (miss_read hb)]
    rfl

theorem stack_mutSlice {t : Nat} {s : List Item} (p : Place) (k l : Nat) (hw : stackW ownerTag t s)
    (hl : p.whole.has l = true) (hk : k ≤ p.cap) :
    ∃ s', runAt Stacked l (p.asMutSlice k ownerTag t).2.2 s = some s' ∧ stackW ownerTag (p.asMutSlice k ownerTag t).2.1 s' ∧
      ((p.items k).has l = true → stackOwn (p.asMutSlice k ownerTag t).1 s') ∧
      (∀ g, g < t → stackDead g s → stackDead g s') := by
  have h0 : 0 < t := hw.1
  show ∃ s', runAt Stacked l (.retag .excl 0 t p.whole :: ((p.asMutPtr t (t + 1)).2.2 ++ ((p.len t (t + 4)).2.2 ++
    [.retag .excl (t + 3) (t + 5) (p.items k)]))) s = some s' ∧ stackW 0 (t + 6) s' ∧
    ((p.items k).has l = true → stackOwn (t + 5) s') ∧ _
  rw [runAt_cons ((hit_retag hl).trans hw.excl), runAt_append, show runAt Stacked l (p.asMutPtr t (t + 1)).2.2
    [⟨t, .unique⟩, ⟨ownerTag, .unique⟩] = _ from stack_asMutPtr hl [] (by simp) ⟨0, .unique⟩]
  have hg : ∀ g, stackDead g s → (0 : Nat) ≠ g := fun g h => hw.dead h
  by_cases hb : p.buf.has l = true
  · rw [if_pos hb, Option.bind_some, runAt_append]
    have h1 : stackRead t [⟨t + 1 + 2, .sharedRW⟩, ⟨t + 1 + 1, .unique⟩, ⟨t + 1, .unique⟩, ⟨t, .unique⟩, ⟨0, .unique⟩] =
        some [⟨t + 1 + 2, .sharedRW⟩, ⟨t + 1 + 1, .disabled⟩, ⟨t + 1, .disabled⟩, ⟨t, .unique⟩, ⟨0, .unique⟩] := by
      simp [stackRead_cons, Item.reads, Item.disable, Nat.add_assoc]
    rw [stack_len hl h1, Option.bind_some]
    by_cases hi : (p.items k).has l = true
    · have h2 : Stacked.retag .excl (t + 3) (t + 5) [⟨t + 4, .sharedRO⟩, ⟨t + 1 + 2, .sharedRW⟩, ⟨t + 1 + 1, .disabled⟩,
          ⟨t + 1, .disabled⟩, ⟨t, .unique⟩, ⟨0, .unique⟩] =
          some [⟨t + 5, .unique⟩, ⟨t + 3, .sharedRW⟩, ⟨t + 2, .disabled⟩, ⟨t + 1, .disabled⟩, ⟨t, .unique⟩,
            ⟨0, .unique⟩] := by
        simp [Stacked, stackRetag, stackWrite, cut, Item.writes, peers, Nat.add_assoc]
      refine ⟨[⟨t + 5, .unique⟩, ⟨t + 3, .sharedRW⟩, ⟨t + 2, .disabled⟩, ⟨t + 1, .disabled⟩, ⟨t, .unique⟩, ⟨0, .unique⟩],
        by rw [runAt_cons ((hit_retag hi).trans h2)]; rfl, ⟨by omega, [⟨t + 5, .unique⟩, ⟨t + 3, .sharedRW⟩,
        ⟨t + 2, .disabled⟩, ⟨t + 1, .disabled⟩, ⟨t, .unique⟩], rfl, ?_⟩, fun _ => ⟨_, _, rfl, .inl rfl⟩, fun g h1 h2 => ?_⟩
      · intro i hi
        simp only [List.mem_cons, List.not_mem_nil, or_false] at hi
        rcases hi with rfl | rfl | rfl | rfl | rfl <;> simp only <;> omega
      · have := hg g h2
        intro i hi
        simp only [List.mem_cons, List.not_mem_nil, or_false] at hi
        rcases hi with rfl | rfl | rfl | rfl | rfl | rfl <;> simp only <;> omega
    · refine ⟨[⟨t + 4, .sharedRO⟩, ⟨t + 3, .sharedRW⟩, ⟨t + 2, .disabled⟩, ⟨t + 1, .disabled⟩, ⟨t, .unique⟩, ⟨0, .unique⟩],
        by rw [runAt_cons (miss_retag hi)]; rfl, ⟨by omega, [⟨t + 4, .sharedRO⟩, ⟨t + 3, .sharedRW⟩,
        ⟨t + 2, .disabled⟩, ⟨t + 1, .disabled⟩, ⟨t, .unique⟩], rfl, ?_⟩, fun h => absurd h hi, fun g h1 h2 => ?_⟩
      · intro i hi
        simp only [List.mem_cons, List.not_mem_nil, or_false] at hi
        rcases hi with rfl | rfl | rfl | rfl | rfl <;> simp only <;> omega
      · have := hg g h2
        intro i hi
        simp only [List.mem_cons, List.not_mem_nil, or_false] at hi
        rcases hi with rfl | rfl | rfl | rfl | rfl | rfl <;> simp only <;> omega
  · have hi : ¬ (p.items k).has l = true := fun h => hb (items_buf hk h)
    rw [if_neg hb, Option.bind_some, runAt_append]
    have h1 : stackRead t [⟨t + 1, .unique⟩, ⟨t, .unique⟩, ⟨0, .unique⟩] =
        some [⟨t + 1, .disabled⟩, ⟨t, .unique⟩, ⟨0, .unique⟩] := by
      simp [stackRead_cons, Item.reads, Item.disable]
    rw [stack_len hl h1, Option.bind_some]
    refine ⟨[⟨t + 4, .sharedRO⟩, ⟨t + 1, .disabled⟩, ⟨t, .unique⟩, ⟨0, .unique⟩],
      by rw [runAt_cons (miss_retag hi)]; rfl, ⟨by omega, [⟨t + 4, .sharedRO⟩, ⟨t + 1, .disabled⟩,
      ⟨t, .unique⟩], rfl, ?_⟩, fun h => absurd h hi, fun g h1 h2 => ?_⟩
    · intro i hi
      simp only [List.mem_cons, List.not_mem_nil, or_false] at hi
      rcases hi with rfl | rfl | rfl <;> simp only <;> omega
    · have := hg g h2
      intro i hi
      simp only [List.mem_cons, List.not_mem_nil, or_false] at hi
      rcases hi with rfl | rfl | rfl | rfl <;> simp only <;> omega

theorem apart_miss {p : Place} {d k l : Nat} (hl : p.whole.has l = true) (hk : k ≤ p.cap) (hd : Apart p d) :
    ¬ (⟨d, k⟩ : Region).has l = true := by
  intro h
  rw [has_iff] at *
  simp only [Place.whole, Apart] at *
  omega

theorem stack_copy {t : Nat} {s : List Item} (p : Place) (d k l : Nat) (hw : stackW ownerTag t s)
    (hl : p.whole.has l = true) (hk : k ≤ p.cap) (hd : Apart p d) :
    ∃ s', runAt Stacked l (p.copyFromSlice dataTag d k ownerTag t).2.2 s = some s' ∧
      stackW ownerTag (p.copyFromSlice dataTag d k ownerTag t).2.1 s' ∧ (∀ g, g < t → stackDead g s → stackDead g s') := by
  have h0 : 0 < t := hw.1
  have hm := apart_miss hl hk hd
  refine ⟨[⟨t + 4, .unique⟩, ⟨t, .unique⟩, ⟨0, .unique⟩], ?_, ⟨?_, [⟨t + 4, .unique⟩, ⟨t, .unique⟩], rfl, ?_⟩,
    fun g h1 h2 => ?_⟩
  · show runAt Stacked l [.retag .excl 0 t p.whole, .retag .shared dataTag (t + 1) ⟨d, k⟩, .retag .excl t (t + 2) p.buf,
      .retag .raw (t + 2) (t + 3) p.buf, .read (t + 1) ⟨d, k⟩, .write (t + 3) (p.items k), .retag .excl t (t + 4) p.whole,
      .write (t + 4) p.head] s = _
    rw [runAt_cons ((hit_retag hl).trans hw.excl), runAt_cons (miss_retag hm)]
    have last : ∀ A : List Item, (∀ i ∈ A, i.tag ≠ t) → runAt Stacked l [.retag .excl t (t + 4) p.whole,
        .write (t + 4) p.head] (A ++ [⟨t, .unique⟩, ⟨0, .unique⟩]) =
        some [⟨t + 4, .unique⟩, ⟨t, .unique⟩, ⟨0, .unique⟩] := by
      intro A hA
      have h1 : Stacked.retag .excl t (t + 4) (A ++ [⟨t, .unique⟩, ⟨0, .unique⟩]) =
          some [⟨t + 4, .unique⟩, ⟨t, .unique⟩, ⟨0, .unique⟩] := by
        show (stackWrite t _).map _ = _
        rw [stackWrite_below A hA]
        rfl
      rw [runAt_cons ((hit_retag hl).trans h1)]
      by_cases hh : p.head.has l = true
      · have h2 : Stacked.write (t + 4) [⟨t + 4, .unique⟩, ⟨t, .unique⟩, ⟨0, .unique⟩] =
            some [⟨t + 4, .unique⟩, ⟨t, .unique⟩, ⟨0, .unique⟩] := stack_own_write ⟨_, _, rfl, .inl rfl⟩
        rw [runAt_cons ((hit_write hh).trans h2)]
        rfl
      · rw [runAt_cons (miss_write hh)]
        rfl
    by_cases hb : p.buf.has l = true
    · have h2 : Stacked.retag .excl t (t + 2) [⟨t, .unique⟩, ⟨0, .unique⟩] =
          some [⟨t + 2, .unique⟩, ⟨t, .unique⟩, ⟨0, .unique⟩] := by
        simp [Stacked, stackRetag, stackWrite, cut, Item.writes, peers]
      have h3 : Stacked.retag .raw (t + 2) (t + 3) [⟨t + 2, .unique⟩, ⟨t, .unique⟩, ⟨0, .unique⟩] =
          some [⟨t + 3, .sharedRW⟩, ⟨t + 2, .unique⟩, ⟨t, .unique⟩, ⟨0, .unique⟩] := by
        simp [Stacked, stackRetag, cut, Item.writes, peers]
      rw [runAt_cons ((hit_retag hb).trans h2), runAt_cons ((hit_retag hb).trans h3), runAt_cons (miss_read hm)]
      have h4 : (Event.write (t + 3) (p.items k)).act Stacked l [⟨t + 3, .sharedRW⟩, ⟨t + 2, .unique⟩, ⟨t, .unique⟩,
          ⟨0, .unique⟩] = some [⟨t + 3, .sharedRW⟩, ⟨t + 2, .unique⟩, ⟨t, .unique⟩, ⟨0, .unique⟩] := by
        by_cases hi : (p.items k).has l = true
        · exact (hit_write hi).trans (stack_own_write ⟨_, _, rfl, .inr rfl⟩)
        · exact miss_write hi
      rw [runAt_cons h4]
      exact last [⟨t + 3, .sharedRW⟩, ⟨t + 2, .unique⟩] (by simp)
    · have hi : ¬ (p.items k).has l = true := fun h => hb (items_buf hk h)
      rw [runAt_cons (miss_retag hb), runAt_cons (miss_retag hb), runAt_cons (miss_read hm), runAt_cons (miss_write hi)]
      exact last [] (by simp)
  · show 0 < t + 5
    omega
  · intro i hi
    simp only [List.mem_cons, List.not_mem_nil, or_false] at hi
    show i.tag ≠ 0 ∧ i.tag < t + 5
    rcases hi with rfl | rfl <;> simp only <;> omega
  · have : (0 : Nat) ≠ g := hw.dead h2
    intro i hi
    simp only [List.mem_cons, List.not_mem_nil, or_false] at hi
    rcases hi with rfl | rfl | rfl <;> simp only <;> omega

/-- The loop of `each_mut`: the last pointer is topmost, and those before are gone. -/
theorem stack_muts {p : Place} {h l : Nat} (hl : p.whole.has l = true) (z : Item) : (k t : Nat) → h < t → (A : List Item) →
    (∀ i ∈ A, i.tag ≠ h) → ∃ A', runAt Stacked l (p.muts h k t).2.2 (A ++ [⟨h, .unique⟩, z]) =
      some (A' ++ [⟨h, .unique⟩, z]) ∧ (k = 0 → A' = A) ∧
      (k ≠ 0 → A' = if p.buf.has l = true then [⟨t + 3 * k - 1, .sharedRW⟩, ⟨t + 3 * k - 2, .unique⟩, ⟨t + 3 * k - 3, .unique⟩]
        else [⟨t + 3 * k - 3, .unique⟩])
  | 0, t, _, A, _ => ⟨A, rfl, fun _ => rfl, fun h => absurd rfl h⟩
  | k + 1, t, ht, A, hA => by
    let B : List Item := if p.buf.has l = true then [⟨t + 2, .sharedRW⟩, ⟨t + 1, .unique⟩, ⟨t, .unique⟩] else [⟨t, .unique⟩]
    have h1 : runAt Stacked l (p.asMutPtr h t).2.2 (A ++ [⟨h, .unique⟩, z]) = some (B ++ [⟨h, .unique⟩, z]) := by
      rw [stack_asMutPtr hl A hA z]
      show some _ = some ((if p.buf.has l = true then _ else _) ++ _)
      split <;> rfl
    have hB : ∀ i ∈ B, i.tag ≠ h := by
      intro i hi
      simp only [B] at hi
      split at hi
      · simp only [List.mem_cons, List.not_mem_nil, or_false] at hi
        rcases hi with rfl | rfl | rfl <;> simp only <;> omega
      · simp only [List.mem_cons, List.not_mem_nil, or_false] at hi
        rcases hi with rfl
        simp only
        omega
    obtain ⟨A', h2, h3, h4⟩ := stack_muts hl z k (t + 3) (by omega) B hB
    refine ⟨A', ?_, (fun h => by cases h), fun _ => ?_⟩
    · show runAt Stacked l ((p.asMutPtr h t).2.2 ++ ((p.muts h k (t + 3)).2.2 ++ [])) _ = _
      rw [List.append_nil, runAt_append, h1]
      exact h2
    · cases k with
      | zero =>
        rw [h3 rfl]
        rfl
      | succ k =>
        rw [h4 (by omega)]
        have e1 : t + 3 + 3 * (k + 1) = t + 3 * (k + 1 + 1) := by omega
        rw [e1]

/-- Which tags `each_mut` returns, and which of them is the last. -/
theorem muts_zip (p : Place) (h : Nat) : (k t i : Nat) → ∀ x ∈ (single p i (p.muts h k t).1).zip (loansOf true k),
    ∃ j, j < k ∧ x.1.tag = t + 3 * j + 2 ∧ x.2.excl = true ∧ (x.2.last = true ↔ j + 1 = k)
  | 0, _, _, x, hx => nomatch hx
  | k + 1, t, i, x, hx => by
    rcases List.mem_cons.mp (show x ∈ (⟨t + 2, ⟨p.at_ + i, 1⟩⟩, ⟨1, true, true, decide (k = 0)⟩) ::
      (single p (i + 1) (p.muts h k (t + 3)).1).zip (loansOf true k) from hx) with rfl | hx
    · exact ⟨0, by omega, rfl, rfl, by simp only [decide_eq_true_eq]; omega⟩
    · obtain ⟨j, h1, h2, h3, h4⟩ := muts_zip p h k (t + 3) (i + 1) x hx
      exact ⟨j + 1, by omega, by omega, h3, by rw [h4]; omega⟩

theorem stack_eachMut {t : Nat} {s : List Item} (p : Place) (k l : Nat) (hw : stackW ownerTag t s)
    (hl : p.whole.has l = true) (hk : k ≤ p.cap) :
    ∃ s', runAt Stacked l (p.eachMut k ownerTag t).2.2 s = some s' ∧ stackW ownerTag (p.eachMut k ownerTag t).2.1 s' ∧
      (∀ x ∈ (single p 0 (p.eachMut k ownerTag t).1).zip (loansOf true k), x.1.r.has l = true →
        (lastLoan x.2 → stackOwn x.1.tag s') ∧ (¬ lastLoan x.2 → stackDead x.1.tag s')) ∧
      (∀ g, g < t → stackDead g s → stackDead g s') := by
  have h0 : 0 < t := hw.1
  obtain ⟨A', h1, h2, h3⟩ := stack_muts (p := p) (h := t) hl ⟨0, .unique⟩ k (t + 1) (by omega) [] (fun _ h => nomatch h)
  have htag : ∀ i ∈ A', t < i.tag ∧ i.tag < t + 1 + 3 * k := by
    intro i hi
    cases k with
    | zero => rw [h2 rfl] at hi; cases hi
    | succ k =>
      rw [h3 (by omega)] at hi
      split at hi
      · simp only [List.mem_cons, List.not_mem_nil, or_false] at hi
        rcases hi with rfl | rfl | rfl <;> simp only <;> omega
      · simp only [List.mem_cons, List.not_mem_nil, or_false] at hi
        rcases hi with rfl
        simp only
        omega
  refine ⟨A' ++ [⟨t, .unique⟩, ⟨0, .unique⟩], ?_, ?_, fun x hx hr => ?_, fun g hg hd => ?_⟩
  · show runAt Stacked l ([.retag .excl 0 t p.whole, .read t p.head] ++ (p.muts t k (t + 1)).2.2) s = _
    rw [runAt_append, runAt_cons ((hit_retag hl).trans hw.excl)]
    have h4 : runAt Stacked l [.read t p.head] [⟨t, .unique⟩, ⟨0, .unique⟩] = some [⟨t, .unique⟩, ⟨0, .unique⟩] := by
      by_cases hh : p.head.has l = true
      · rw [runAt_cons ((hit_read hh).trans (stack_own_read ⟨_, _, rfl, .inl rfl⟩))]
        rfl
      · rw [runAt_cons (miss_read hh)]
        rfl
    rw [h4]
    exact h1
  · have hn : (p.eachMut k ownerTag t).2.1 = t + 1 + 3 * k := muts_next p t k (t + 1)
    rw [hn]
    refine ⟨show 0 < _ by omega, A' ++ [⟨t, .unique⟩], by simp, fun i hi => ?_⟩
    show i.tag ≠ 0 ∧ _
    rcases List.mem_append.mp hi with hi | hi
    · have := htag i hi
      omega
    · rcases List.mem_singleton.mp hi with rfl
      simp only
      omega
  · obtain ⟨j, h4, h5, h6, h7⟩ := muts_zip p t k (t + 1) 0 x hx
    have hm := List.of_mem_zip hx
    obtain ⟨_, a2, a3, a4⟩ := single_mem p 0 _ x.1 hm.1
    have hlen : (p.eachMut k ownerTag t).1.length = k := muts_len p _ _ _
    have hb : p.buf.has l = true := by
      rw [has_iff] at *
      simp only [Place.buf] at *
      omega
    have hA := h3 (by omega)
    rw [if_pos hb] at hA
    constructor
    · intro hlast
      have hj := h7.mp (hlast h6)
      refine ⟨.sharedRW, [⟨t + 1 + 3 * k - 2, .unique⟩, ⟨t + 1 + 3 * k - 3, .unique⟩, ⟨t, .unique⟩, ⟨0, .unique⟩], ?_, .inr rfl⟩
      rw [hA, h5]
      have : t + 1 + 3 * k - 1 = t + 1 + 3 * j + 2 := by omega
      rw [this]
      rfl
    · intro hlast
      have hj : j + 1 ≠ k := fun h => hlast fun _ => h7.mpr h
      rw [hA]
      intro i hi
      simp only [List.cons_append, List.nil_append, List.mem_cons, List.not_mem_nil, or_false] at hi
      rw [h5]
      rcases hi with rfl | rfl | rfl | rfl | rfl <;> simp only <;> omega
  · have : (0 : Nat) ≠ g := hw.dead hd
    intro i hi
    rcases List.mem_append.mp hi with hi | hi
    · have := htag i hi
      omega
    · simp only [List.mem_cons, List.not_mem_nil, or_false] at hi
      rcases hi with rfl | rfl <;> simp only <;> omega

/-- Under Stacked Borrows, only the last of the references that `each_mut` returns may be used. -/
def stackedSound : Sound Stacked lastLoan where
  rule_shared x h h' := by rw [h] at h'; cases h'
  rule_last x h _ := h
  W := stackW
  See := stackSee
  Own := stackOwn
  Dead := stackDead
  start h := ⟨h, [], rfl, fun _ hi => nomatch hi⟩
  mono h hw := by
    obtain ⟨h0, A, e, hA⟩ := hw
    exact ⟨by omega, A, e, fun i hi => ⟨(hA i hi).1, by have := (hA i hi).2; omega⟩⟩
  read_see hw hh := hw.reads hh
  read_own hw ho := ⟨_, stack_own_read ho, hw, ho, fun _ => id⟩
  write_own hw ho := ⟨_, stack_own_write ho, hw, ho, fun _ => id⟩
  dead_read := stack_dead_read
  dead_write := stack_dead_write
  retag_shared := by
    intro r n h s hw hh
    obtain ⟨s', h1, h2, h3, h4⟩ := hw.reads hh
    obtain ⟨h0, A, rfl, hA⟩ := h2
    refine ⟨⟨n, .sharedRO⟩ :: (A ++ [⟨r, .unique⟩]), ?_, ⟨by omega, ⟨n, .sharedRO⟩ :: A, rfl, fun i hi => ?_⟩,
      ⟨_, .head _, rfl, rfl⟩, fun g hg => ?_, fun g hg hd i hi => ?_⟩
    · show (stackRead h s).map _ = _
      rw [h1]
      rfl
    · cases hi with
      | head => simp only; omega
      | tail _ hi => exact ⟨(hA i hi).1, by have := (hA i hi).2; omega⟩
    · obtain ⟨i, hi, e⟩ := h3 g hg
      exact ⟨i, .tail _ hi, e⟩
    · cases hi with
      | head => simp only; omega
      | tail _ hi => exact h4 g hd i hi
  mutSlice := stack_mutSlice
  copy := stack_copy
  eachMut := stack_eachMut

end Oct.Alias
