import Verif.Proofs.MutRun
import Verif.Spec.PtrKept
/-
What becomes of pointers made of exclusive references, under Stacked Borrows.
-/
namespace Oct.Alias
open Spec Sound

variable {l : Nat}

theorem peers_beyond (x : Item) {g : Item} (hg : g.perm ≠ .sharedRW) (a c : List Item) : peers x (a ++ g :: c) = peers x c := by
  unfold peers
  split
  · rw [List.reverse_append, List.reverse_cons, List.append_assoc]
    show ((c.reverse ++ g :: a.reverse).takeWhile _).reverse = _
    rw [takeWhile_stop (by simp [hg]) a.reverse c.reverse]
  · rfl

/-- The pointer `g` may be used: only what is shared is above it, and the `&mut` it was made of is below. -/
def Mounted (b g : Nat) (s : List Item) : Prop := ∃ A x B, s = A ++ ⟨g, .sharedRW⟩ :: x :: B ∧ (∀ i ∈ A, i.Inert ∧ i.tag ≠ g) ∧
  x.perm ≠ .sharedRW ∧ x.tag = b ∧ ∀ i ∈ x :: B, i.tag ≠ g

theorem disabled_kept {i : Item} (h : i.perm ≠ .sharedRW) : i.disable.perm ≠ .sharedRW := by
  unfold Item.disable
  split
  · exact fun h => by cases h
  · exact h

theorem inert_disabled {g : Nat} {A : List Item} (h : ∀ i ∈ A, i.Inert ∧ i.tag ≠ g) : ∀ i ∈ A.map Item.disable, i.Inert ∧ i.tag ≠ g :=
  fun i hi => by
    obtain ⟨j, hj, rfl⟩ := List.mem_map.mp hi
    exact ⟨(h j hj).1.disable, disabled_tag j ▸ (h j hj).2⟩

theorem Mounted.read {b g t : Nat} {s s' : List Item} (hg : Mounted b g s) (h : stackRead t s = some s') : Mounted b g s' := by
  obtain ⟨A, x, B, rfl, hA, hx, hb, hB⟩ := hg
  unfold stackRead at h
  cases hc : cut (Item.reads t) A with
  | some q =>
    rw [cut_found _ hc] at h
    cases h
    have e := cut_eq hc
    refine ⟨q.1.map Item.disable ++ q.2.1 :: q.2.2, x, B, by simp, fun i hi => ?_, hx, hb, hB⟩
    rcases List.mem_append.mp hi with hi | hi
    · exact inert_disabled (fun j hj => hA j (e ▸ List.mem_append_left _ hj)) i hi
    · exact hA i (e ▸ List.mem_append_right _ hi)
  | none =>
    rw [cut_past _ hc] at h
    have hm := inert_disabled hA
    unfold cut at h
    split at h
    · cases h
      exact ⟨A.map Item.disable, x, B, by simp, hm, hx, hb, hB⟩
    · unfold cut at h
      split at h
      · cases h
        exact ⟨A.map Item.disable, x, B, by simp [Item.disable], hm, hx, hb, hB⟩
      · cases hc' : cut (Item.reads t) B with
        | none => rw [hc'] at h; cases h
        | some q =>
          rw [hc'] at h
          cases h
          have e := cut_eq hc'
          refine ⟨A.map Item.disable, x.disable, q.1.map Item.disable ++ q.2.1 :: q.2.2, by simp [Item.disable], hm,
            disabled_kept hx, (disabled_tag x).trans hb, fun i hi => ?_⟩
          rcases List.mem_cons.mp hi with rfl | hi
          · rw [disabled_tag]
            exact hB x (.head _)
          rcases List.mem_append.mp hi with hi | hi
          · obtain ⟨j, hj, rfl⟩ := List.mem_map.mp hi
            rw [disabled_tag]
            exact hB j (.tail _ (e ▸ List.mem_append_left _ hj))
          · exact hB i (.tail _ (e ▸ List.mem_append_right _ hi))

theorem Mounted.cut_other {g t : Nat} {A C : List Item} (hA : ∀ i ∈ A, i.Inert ∧ i.tag ≠ g) (ht : t ≠ g) :
    cut (Item.writes t) (A ++ ⟨g, .sharedRW⟩ :: C) = (cut (Item.writes t) C).map fun q => (A ++ ⟨g, .sharedRW⟩ :: q.1, q.2) := by
  have := cut_past (p := Item.writes t) (s := A ++ [⟨g, .sharedRW⟩]) C (cut_none fun i hi => by
    rcases List.mem_append.mp hi with hi | hi
    · exact (hA i hi).1.not t
    · rcases List.mem_singleton.mp hi with rfl
      simp [Item.writes, Ne.symm ht])
  simp only [List.append_assoc, List.singleton_append] at this
  exact this

theorem Mounted.write {b g t : Nat} {s s' : List Item} (ht : t ≠ g) (hg : Mounted b g s) (h : stackWrite t s = some s') :
    Ended g s' := by
  obtain ⟨A, x, B, rfl, hA, hx, hb, hB⟩ := hg
  unfold stackWrite at h
  rw [Mounted.cut_other hA ht] at h
  unfold cut at h
  split at h
  · cases h
    intro i hi e
    rcases List.mem_append.mp hi with hi | hi
    · unfold peers at hi
      rw [if_neg (by simpa using hx)] at hi
      cases hi
    · exact absurd e (hB i hi)
  · cases hc : cut (Item.writes t) B with
    | none => rw [hc] at h; cases h
    | some q =>
      rw [hc] at h
      have e := cut_eq hc
      have hp : peers q.2.1 (A ++ ⟨g, .sharedRW⟩ :: x :: q.1) = peers q.2.1 q.1 := by
        have := peers_beyond q.2.1 hx (A ++ [⟨g, .sharedRW⟩]) q.1
        simpa using this
      simp only [Option.map_some, Option.some.injEq, hp] at h
      subst h
      intro i hi et
      rcases List.mem_append.mp hi with hi | hi
      · exact absurd et (hB i (.tail _ (e ▸ List.mem_append_left _ (peers_in hi))))
      · exact absurd et (hB i (.tail _ (e ▸ List.mem_append_right _ hi)))

theorem Mounted.write_own {b g : Nat} {s : List Item} (hg : Mounted b g s) : ∃ s', stackWrite g s = some s' ∧ Mounted b g s' := by
  obtain ⟨A, x, B, rfl, hA, hx, hb, hB⟩ := hg
  have hc : cut (Item.writes g) (A ++ ⟨g, .sharedRW⟩ :: x :: B) = some (A, ⟨g, .sharedRW⟩, x :: B) := by
    rw [cut_past _ (cut_none fun i hi => (hA i hi).1.not g), cut, if_pos (by simp [Item.writes])]
    simp
  have hp : peers ⟨g, .sharedRW⟩ A = [] := by
    rcases List.eq_nil_or_concat A with rfl | ⟨A', y, rfl⟩
    · simp [peers]
    · have hy : y.perm ≠ .sharedRW := by
        rcases (hA y (by simp)).1 with h | h <;> rw [h] <;> exact fun h => by cases h
      have := peers_beyond ⟨g, .sharedRW⟩ hy A' []
      rw [List.concat_eq_append, this]
      simp [peers]
  refine ⟨⟨g, .sharedRW⟩ :: x :: B, ?_, [], x, B, rfl, fun _ hi => (by cases hi), hx, hb, hB⟩
  unfold stackWrite
  rw [hc]
  show some (peers _ A ++ _) = _
  rw [hp]
  rfl

theorem Mounted.reads {b g : Nat} {s : List Item} (hg : Mounted b g s) : ∃ s', stackRead g s = some s' := by
  obtain ⟨A, x, B, rfl, hA, hx, hb, hB⟩ := hg
  unfold stackRead
  rw [cut_past _ (cut_none fun i hi => by simp [Item.reads, (hA i hi).2]), cut, if_pos (by simp [Item.reads])]
  exact ⟨_, rfl⟩

theorem Mounted.raw {b g p q : Nat} {s s' : List Item} (hp : p ≠ g) (hpb : p ≠ b) (hq : q ≠ g) (hg : Mounted b g s)
    (h : stackRetag .raw p q s = some s') : Mounted b g s' := by
  obtain ⟨A, x, B, rfl, hA, hx, hb, hB⟩ := hg
  simp only [stackRetag] at h
  rw [Mounted.cut_other hA hp, cut_over (by simp [Item.writes, hb, Ne.symm hpb])] at h
  cases hc : cut (Item.writes p) B with
  | none => rw [hc] at h; cases h
  | some c =>
    rw [hc] at h
    have e := cut_eq hc
    have hl := peers_length c.2.1 c.1
    have hp : peers c.2.1 (A ++ ⟨g, .sharedRW⟩ :: x :: c.1) = peers c.2.1 c.1 := by
      have := peers_beyond c.2.1 hx (A ++ [⟨g, .sharedRW⟩]) c.1
      simpa using this
    simp only [Option.map_some, Option.some.injEq, hp] at h
    have et : (A ++ ⟨g, .sharedRW⟩ :: x :: c.1).take ((A ++ ⟨g, .sharedRW⟩ :: x :: c.1).length - (peers c.2.1 c.1).length) =
        A ++ ⟨g, .sharedRW⟩ :: x :: c.1.take (c.1.length - (peers c.2.1 c.1).length) := by
      rw [List.length_append, List.length_cons, List.length_cons, List.take_append,
        List.take_of_length_le (by omega : A.length ≤ _),
        show A.length + (c.1.length + 1 + 1) - (peers c.2.1 c.1).length - A.length =
          (c.1.length - (peers c.2.1 c.1).length) + 1 + 1 by omega]
      rfl
    rw [et] at h
    subst h
    refine ⟨A, x, c.1.take (c.1.length - (peers c.2.1 c.1).length) ++ ⟨q, .sharedRW⟩ :: (peers c.2.1 c.1 ++ c.2.1 :: c.2.2),
      by simp, hA, hx, hb, fun i hi => ?_⟩
    rcases List.mem_cons.mp hi with rfl | hi
    · exact hB _ (.head _)
    rcases List.mem_append.mp hi with hi | hi
    · exact hB i (.tail _ (e ▸ List.mem_append_left _ (List.mem_of_mem_take hi)))
    rcases List.mem_cons.mp hi with rfl | hi
    · exact hq
    rcases List.mem_append.mp hi with hi | hi
    · exact hB i (.tail _ (e ▸ List.mem_append_left _ (peers_in hi)))
    · exact hB i (.tail _ (e ▸ List.mem_append_right _ hi))

theorem Mounted.shared {b g p q : Nat} {s s' : List Item} (hq : q ≠ g) (hg : Mounted b g s)
    (h : stackRetag .shared p q s = some s') : Mounted b g s' := by
  obtain ⟨s1, h1, rfl⟩ := Option.map_eq_some_iff.mp h
  obtain ⟨A, x, B, rfl, hA, hr⟩ := hg.read h1
  refine ⟨⟨q, .sharedRO⟩ :: A, x, B, rfl, fun i hi => ?_, hr⟩
  rcases List.mem_cons.mp hi with rfl | hi
  · exact ⟨.inl rfl, hq⟩
  · exact hA i hi

theorem Mounted.excl {b g p q : Nat} {s s' : List Item} (hp : p ≠ g) (hq : q ≠ g) (hg : Mounted b g s)
    (h : stackRetag .excl p q s = some s') : Ended g s' := by
  obtain ⟨s1, h1, rfl⟩ := Option.map_eq_some_iff.mp h
  intro i hi e
  rcases List.mem_cons.mp hi with rfl | hi
  · exact absurd e hq
  · exact hg.write hp h1 i hi e

/-- The event takes the place from `g`. -/
def Takes (g l : Nat) : Event → Prop
  | .read _ _ => False
  | .write t r => t ≠ g ∧ r.has l = true
  | .retag k _ _ r => k = .excl ∧ r.has l = true

theorem TakenAt.cons_iff {g : Nat} {e : Event} {es : List Event} : TakenAt g (e :: es) l ↔ Takes g l e ∨ TakenAt g es l := by
  constructor
  · rintro (⟨t, r, h1, h2⟩ | ⟨t, q, r, h1, h2⟩)
    · rcases List.mem_cons.mp h1 with rfl | h1
      · exact .inl h2
      · exact .inr (.inl ⟨t, r, h1, h2⟩)
    · rcases List.mem_cons.mp h1 with rfl | h1
      · exact .inl ⟨rfl, h2⟩
      · exact .inr (.inr ⟨t, q, r, h1, h2⟩)
  · rintro (h | ⟨t, r, h1, h2⟩ | ⟨t, q, r, h1, h2⟩)
    · cases e with
      | read _ _ => exact h.elim
      | write t r => exact .inl ⟨t, r, .head _, h⟩
      | retag k t q r =>
        obtain ⟨rfl, h⟩ := h
        exact .inr ⟨t, q, r, .head _, h⟩
    · exact .inl ⟨t, r, .tail _ h1, h2⟩
    · exact .inr ⟨t, q, r, .tail _ h1, h2⟩

/-- The pointer may be used until the place is taken from it, and not after. -/
theorem Counts.mounted {t t' b g : Nat} {es : List Event} (hc : Counts t es t') : ∀ {s s' : List Item}, g < t → Childless g es →
    Childless b es → runAt Stacked l es s = some s' → Mounted b g s →
    (¬ TakenAt g es l → Mounted b g s') ∧ (TakenAt g es l → Ended g s') := by
  induction hc with
  | nil =>
    intro s s' _ _ _ e h
    cases e
    refine ⟨fun _ => h, fun h' => ?_⟩
    rcases h' with ⟨_, _, h', _⟩ | ⟨_, _, _, h', _⟩ <;> cases h'
  | @read t t' u r es hc ih =>
    intro s s' hb hn hm e hg
    obtain ⟨s1, e1, e2⟩ := Option.bind_eq_some_iff.mp e
    rw [TakenAt.cons_iff]
    have hs : Mounted b g s1 := by
      by_cases hr : r.has l = true
      · rw [hit_read hr] at e1
        exact hg.read e1
      · rw [miss_read hr] at e1
        cases e1
        exact hg
    obtain ⟨i1, i2⟩ := ih hb hn.tail hm.tail e2 hs
    exact ⟨fun h => i1 fun h' => h (.inr h'), fun h => i2 (h.resolve_left id)⟩
  | @write t t' u r es hc ih =>
    intro s s' hb hn hm e hg
    obtain ⟨s1, e1, e2⟩ := Option.bind_eq_some_iff.mp e
    rw [TakenAt.cons_iff]
    by_cases ho : Takes g l (.write u r)
    · rw [hit_write ho.2] at e1
      exact ⟨fun h => absurd (.inl ho) h, fun _ => hc.ended_stays hb e2 (hg.write ho.1 e1)⟩
    · have hs : Mounted b g s1 := by
        by_cases hr : r.has l = true
        · have : u = g := Classical.byContradiction fun h => ho ⟨h, hr⟩
          subst this
          rw [hit_write hr] at e1
          obtain ⟨s2, h1, h2⟩ := hg.write_own
          have := h1.symm.trans e1
          cases this
          exact h2
        · rw [miss_write hr] at e1
          cases e1
          exact hg
      obtain ⟨i1, i2⟩ := ih hb hn.tail hm.tail e2 hs
      exact ⟨fun h => i1 fun h' => h (.inr h'), fun h => i2 (h.resolve_left ho)⟩
  | @retag t t' k u r es hc ih =>
    intro s s' hb hn hm e hg
    obtain ⟨s1, e1, e2⟩ := Option.bind_eq_some_iff.mp e
    have hb' := Nat.lt_succ_of_lt hb
    have hu : u ≠ g := hn k u t r (.head _)
    have hv : u ≠ b := hm k u t r (.head _)
    rw [TakenAt.cons_iff]
    by_cases ho : Takes g l (.retag k u t r)
    · rw [hit_retag ho.2] at e1
      have hk : k = .excl := ho.1
      subst hk
      exact ⟨fun h => absurd (.inl ho) h, fun _ => hc.ended_stays hb' e2 (hg.excl hu (Nat.ne_of_gt hb) e1)⟩
    · have hs : Mounted b g s1 := by
        by_cases hr : r.has l = true
        · rw [hit_retag hr] at e1
          cases k with
          | raw => exact hg.raw hu hv (Nat.ne_of_gt hb) e1
          | shared => exact hg.shared (Nat.ne_of_gt hb) e1
          | excl => exact absurd ⟨rfl, hr⟩ ho
        · rw [miss_retag hr] at e1
          cases e1
          exact hg
      obtain ⟨i1, i2⟩ := ih hb' hn.tail hm.tail e2 hs
      exact ⟨fun h => i1 fun h' => h (.inr h'), fun h => i2 (h.resolve_left ho)⟩

theorem Under.made_ptr {b : Nat} {s s' : List Item} (hb : Under (b + 1) s) (h : OnTop b s)
    (e : stackRetag .raw b (b + 1) s = some s') : Mounted b (b + 1) s' := by
  obtain ⟨B, rfl, _⟩ := h
  simp only [stackRetag] at e
  rw [cut, if_pos (by simp [Item.writes])] at e
  cases e
  exact ⟨[], ⟨b, .unique⟩, B, by simp [peers], fun _ h => (by cases h), fun h => (by cases h), rfl,
    fun i hi => Nat.ne_of_lt (hb i hi)⟩

/-- Both to look and to put. -/
theorem stacked_ptr {p : Place} {es fs : List Event} {n n' u a : Nat} {r : Region} (he : Counts 2 es n)
    (hf : Counts (n + 2) fs n') (hn : Childless (n + 1) fs) (hm : Childless n fs) (ha : r.has a = true)
    (h : Defined Stacked p ((es ++ [.retag .excl u n r, .retag .raw n (n + 1) r]) ++ fs)) :
    (Defined Stacked p ((es ++ [.retag .excl u n r, .retag .raw n (n + 1) r]) ++ fs ++ [.read (n + 1) ⟨a, 1⟩]) ↔
      ¬ TakenAt (n + 1) fs a) ∧
    (Defined Stacked p ((es ++ [.retag .excl u n r, .retag .raw n (n + 1) r]) ++ fs ++ [.write (n + 1) ⟨a, 1⟩]) ↔
      ¬ TakenAt (n + 1) fs a) := by
  obtain ⟨s', hs⟩ := h a
  have hs0 := hs
  rw [runAt_append, runAt_append] at hs
  obtain ⟨s1, h1, h2⟩ := Option.bind_eq_some_iff.mp hs
  obtain ⟨s0, h3, h4⟩ := Option.bind_eq_some_iff.mp h1
  obtain ⟨s2, h5, h6⟩ := Option.bind_eq_some_iff.mp h4
  obtain ⟨s3, h7, h8⟩ := Option.bind_eq_some_iff.mp h6
  cases h8
  have hu : Under (n + 1) s2 := (Counts.retag (k := .excl) (u := u) (r := r) .nil : Counts n [_] (n + 1)).under
    (he.under (start_under p a) h3) (runAt_cons h5)
  rw [hit_retag ha] at h5 h7
  obtain ⟨k1, k2⟩ := hf.mounted (Nat.lt_succ_self (n + 1)) hn hm h2
    (Under.made_ptr hu (Under.made_mut (p := u) (he.under (start_under p a) h3) h5) h7)
  have one : ∀ l, (⟨a, 1⟩ : Region).has l = true → l = a := fun l hl => by
    rw [has_iff] at hl
    simp only at hl
    omega
  refine ⟨⟨fun hd hw => ?_, fun hw l => ?_⟩, ⟨fun hd hw => ?_, fun hw l => ?_⟩⟩
  · obtain ⟨s3, h7⟩ := hd a
    rw [runAt_append, hs0, Option.bind_some] at h7
    obtain ⟨s4, h8, _⟩ := Option.bind_eq_some_iff.mp h7
    rw [hit_read (one_has a)] at h8
    have h9 : stackRead (n + 1) s' = some s4 := h8
    rw [(k2 hw).reads] at h9
    cases h9
  · obtain ⟨s3, h7⟩ := h l
    rw [runAt_append, h7, Option.bind_some]
    by_cases hl : (⟨a, 1⟩ : Region).has l = true
    · obtain rfl := one l hl
      rw [hs0] at h7
      cases h7
      obtain ⟨s4, h8⟩ := (k1 hw).reads
      exact ⟨_, runAt_cons ((hit_read hl).trans h8)⟩
    · exact ⟨_, runAt_cons (miss_read hl)⟩
  · obtain ⟨s3, h7⟩ := hd a
    rw [runAt_append, hs0, Option.bind_some] at h7
    obtain ⟨s4, h8, _⟩ := Option.bind_eq_some_iff.mp h7
    rw [hit_write (one_has a)] at h8
    have h9 : stackWrite (n + 1) s' = some s4 := h8
    rw [(k2 hw).writes] at h9
    cases h9
  · obtain ⟨s3, h7⟩ := h l
    rw [runAt_append, h7, Option.bind_some]
    by_cases hl : (⟨a, 1⟩ : Region).has l = true
    · obtain rfl := one l hl
      rw [hs0] at h7
      cases h7
      obtain ⟨s4, h8, _⟩ := (k1 hw).write_own
      exact ⟨_, runAt_cons ((hit_write hl).trans h8)⟩
    · exact ⟨_, runAt_cons (miss_write hl)⟩

/-- What `as_mut_ptr` of slots returned. -/
theorem slot_ptr_exactly {p : Place} {d n : Nat} {cs ds : List SlotCall} {i : Nat} {x : Held}
    (hx : ((slotDevice p d).go ((slotDevice p d).after (Owner.new n) cs) .asMutPtr).1.held[
      ((slotDevice p d).after (Owner.new n) cs).held.length]? = some x) (hi : i < x.r.size)
    (h : Defined Stacked p ((slotDevice p d).events (Owner.new n) (cs ++ .asMutPtr :: ds))) :
    (Defined Stacked p ((slotDevice p d).events (Owner.new n)
      (cs ++ .asMutPtr :: (ds ++ [.get ((slotDevice p d).after (Owner.new n) cs).held.length i]))) ↔
      ¬ TakenAt x.tag ((slotDevice p d).events ((slotDevice p d).go ((slotDevice p d).after (Owner.new n) cs) .asMutPtr).1 ds)
        (x.r.lo + i)) ∧
    (Defined Stacked p ((slotDevice p d).events (Owner.new n)
      (cs ++ .asMutPtr :: (ds ++ [.set ((slotDevice p d).after (Owner.new n) cs).held.length i]))) ↔
      ¬ TakenAt x.tag ((slotDevice p d).events ((slotDevice p d).go ((slotDevice p d).after (Owner.new n) cs) .asMutPtr).1 ds)
        (x.r.lo + i)) := by
  generalize ho : (slotDevice p d).after (Owner.new n) cs = o at *
  let D := slotMut p d
  have hx' : x = ⟨o.next + 2, p.buf⟩ := by
    have : ((slotDevice p d).go o .asMutPtr).1.held = o.held ++ [⟨o.next + 2, p.buf⟩] := rfl
    rw [this] at hx
    simpa using hx.symm
  subst hx'
  have e0 : ∀ fs, (slotDevice p d).events (Owner.new n) (cs ++ .asMutPtr :: fs) =
      ((slotDevice p d).events (Owner.new n) cs ++ [.retag .excl ownerTag o.next p.head, .read o.next p.head] ++
        [.retag .excl ownerTag (o.next + 1) p.buf, .retag .raw (o.next + 1) (o.next + 1 + 1) p.buf]) ++
      (slotDevice p d).events ((slotDevice p d).go o .asMutPtr).1 fs := fun fs => by
    rw [(slotDevice p d).events_append, ho]
    show _ ++ (((slotDevice p d).go o .asMutPtr).2 ++ _) = _
    simp only [List.append_assoc]
    rfl
  have hc : Counts 2 ((slotDevice p d).events (Owner.new n) cs ++ [.retag .excl ownerTag o.next p.head, .read o.next p.head])
      (o.next + 1) := by
    have := (slotDevice p d).events_counts (Owner.new n) cs
    rw [ho] at this
    exact Counts.append this (.retag (.read .nil))
  have hf : Counts (o.next + 1 + 2) ((slotDevice p d).events ((slotDevice p d).go o .asMutPtr).1 ds) _ :=
    (slotDevice p d).events_counts ((slotDevice p d).go o .asMutPtr).1 ds
  have hle := hc.le
  have hl : ∀ g, 2 ≤ g → g < o.next + 3 → Childless g ((slotDevice p d).events ((slotDevice p d).go o .asMutPtr).1 ds) :=
    fun g h1 h2 => D.childless h1 _ ds h2
  have ha : p.buf.has (p.buf.lo + i) = true := by
    rw [has_iff]
    simp only at hi
    omega
  have hy : ((slotDevice p d).held ((slotDevice p d).go o .asMutPtr).1)[o.held.length]? = some ⟨o.next + 2, p.buf⟩ := hx
  have hg := (slotDevice p d).look (i := i) ((slotDevice p d).still hy ds)
  have hs := D.put (i := i) ((slotDevice p d).still hy ds)
  have hg' : (slotDevice p d).events ((slotDevice p d).after ((slotDevice p d).go o .asMutPtr).1 ds) [.get o.held.length i] = _ := hg
  have hs' : (slotDevice p d).events ((slotDevice p d).after ((slotDevice p d).go o .asMutPtr).1 ds) [.set o.held.length i] = _ := hs
  rw [e0] at h
  rw [e0, e0, (slotDevice p d).events_append, (slotDevice p d).events_append, hg', hs', ← List.append_assoc, ← List.append_assoc]
  exact stacked_ptr hc hf (hl _ (by omega) (by omega)) (hl _ (by omega) (by omega)) ha h

end Oct.Alias
