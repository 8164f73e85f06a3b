import Verif.Proofs.KeptOthers
import Verif.Spec.MutKept
/-
What becomes of exclusive references, in programs that make no references of those that were returned.
-/
namespace Oct.Alias
open Spec Sound

/-- No pointer is made of `g`. -/
def Childless (g : Nat) (es : List Event) : Prop := ∀ k u q r, Event.retag k u q r ∈ es → u ≠ g

theorem Childless.tail {g : Nat} {e : Event} {es : List Event} (h : Childless g (e :: es)) : Childless g es :=
  fun k u q r hm => h k u q r (.tail _ hm)

variable {l : Nat}

theorem OthersAt.cons_iff {g : Nat} {e : Event} {es : List Event} :
    OthersAt g (e :: es) l ↔ Other g l e ∨ OthersAt g es l := by
  constructor
  · rintro ⟨x, h1, h2⟩
    rcases List.mem_cons.mp h1 with rfl | h1
    · exact .inl h2
    · exact .inr ⟨x, h1, h2⟩
  · rintro (h | ⟨x, h1, h2⟩)
    · exact ⟨e, .head _, h⟩
    · exact ⟨x, .tail _ h1, h2⟩

/-! Stacked Borrows. -/

theorem peers_over (x : Item) {g : Item} (hg : g.perm ≠ .sharedRW) (c : List Item) : peers x (g :: c) = peers x c := by
  unfold peers
  split
  · rw [List.reverse_cons, takeWhile_stop (by simp [hg]) [] c.reverse]
  · rfl

theorem cut_over {p : Item → Bool} {i : Item} (h : p i = false) (b : List Item) :
    cut p (i :: b) = (cut p b).map fun q => (i :: q.1, q.2) := by
  rw [cut, if_neg (by rw [h]; exact Bool.false_ne_true)]

/-- `g` is above all. -/
def OnTop (g : Nat) (s : List Item) : Prop := ∃ b, s = ⟨g, .unique⟩ :: b ∧ ∀ i ∈ b, i.tag ≠ g

/-- `g` may not be used. -/
def Ended (g : Nat) (s : List Item) : Prop := ∀ i ∈ s, i.tag = g → i.perm = .disabled

theorem read_items {t : Nat} {s s' : List Item} (h : stackRead t s = some s') :
    ∀ i ∈ s', i ∈ s ∨ ∃ j ∈ s, i = j.disable := by
  obtain ⟨q, h1, rfl⟩ := Option.map_eq_some_iff.mp h
  intro i hi
  rw [cut_eq h1]
  rcases List.mem_append.mp hi with hi | hi
  · obtain ⟨j, hj, rfl⟩ := List.mem_map.mp hi
    exact .inr ⟨j, List.mem_append_left _ hj, rfl⟩
  · exact .inl (List.mem_append_right _ hi)

theorem Ended.read {g t : Nat} {s s' : List Item} (hg : Ended g s) (h : stackRead t s = some s') : Ended g s' := fun i hi e => by
  rcases read_items h i hi with hi | ⟨j, hj, rfl⟩
  · exact hg i hi e
  · rw [disabled_tag] at e
    have := hg j hj e
    unfold Item.disable
    split
    · rfl
    · exact this

theorem Ended.write {g t : Nat} {s s' : List Item} (hg : Ended g s) (h : stackWrite t s = some s') : Ended g s' :=
  fun i hi => hg i (write_mem h i hi)

theorem Ended.retag {g p q : Nat} {k : Kind} {s s' : List Item} (hq : q ≠ g) (hg : Ended g s)
    (h : stackRetag k p q s = some s') : Ended g s' := by
  cases k with
  | raw =>
    intro i hi e
    rcases raw_mem h i hi with hi | hi
    · exact hg i hi e
    · exact absurd (hi.symm.trans e) hq
  | excl =>
    obtain ⟨s1, h1, rfl⟩ := Option.map_eq_some_iff.mp h
    intro i hi e
    rcases List.mem_cons.mp hi with rfl | hi
    · exact absurd e hq
    · exact hg.write h1 i hi e
  | shared =>
    obtain ⟨s1, h1, rfl⟩ := Option.map_eq_some_iff.mp h
    intro i hi e
    rcases List.mem_cons.mp hi with rfl | hi
    · exact absurd e hq
    · exact hg.read h1 i hi e

theorem OnTop.read_own {g : Nat} {s : List Item} (hg : OnTop g s) : stackRead g s = some s := by
  obtain ⟨b, rfl, _⟩ := hg
  unfold stackRead
  rw [cut, if_pos (by simp [Item.reads])]
  rfl

theorem OnTop.write_own {g : Nat} {s : List Item} (hg : OnTop g s) : stackWrite g s = some s := by
  obtain ⟨b, rfl, _⟩ := hg
  unfold stackWrite
  rw [cut, if_pos (by simp [Item.writes])]
  simp [peers]

theorem OnTop.read {g t : Nat} {s s' : List Item} (ht : t ≠ g) (hg : OnTop g s) (h : stackRead t s = some s') : Ended g s' := by
  obtain ⟨b, rfl, hb⟩ := hg
  unfold stackRead at h
  rw [cut_over (by simp [Item.reads, Ne.symm ht])] at h
  cases hc : cut (Item.reads t) b with
  | none => rw [hc] at h; cases h
  | some q =>
    rw [hc] at h
    cases h
    have e := cut_eq hc
    intro i hi et
    rcases List.mem_append.mp hi with hi | hi
    · rcases List.mem_cons.mp hi with rfl | hi
      · simp [Item.disable]
      · obtain ⟨j, hj, rfl⟩ := List.mem_map.mp hi
        rw [disabled_tag] at et
        exact absurd et (hb j (e ▸ List.mem_append_left _ hj))
    · exact absurd et (hb i (e ▸ List.mem_append_right _ hi))

theorem OnTop.write {g t : Nat} {s s' : List Item} (ht : t ≠ g) (hg : OnTop g s) (h : stackWrite t s = some s') :
    Ended g s' := by
  obtain ⟨b, rfl, hb⟩ := hg
  unfold stackWrite at h
  rw [cut_over (by simp [Item.writes, Ne.symm ht])] at h
  cases hc : cut (Item.writes t) b with
  | none => rw [hc] at h; cases h
  | some q =>
    rw [hc] at h
    have e := cut_eq hc
    simp only [Option.map_some, Option.some.injEq, peers_over _ (show (⟨g, .unique⟩ : Item).perm ≠ .sharedRW by simp)] at h
    subst h
    intro i hi et
    rcases List.mem_append.mp hi with hi | hi
    · exact absurd et (hb i (e ▸ List.mem_append_left _ (peers_in hi)))
    · exact absurd et (hb i (e ▸ List.mem_append_right _ hi))

theorem OnTop.raw {g p q : Nat} {s s' : List Item} (hp : p ≠ g) (hq : q ≠ g) (hg : OnTop g s)
    (h : stackRetag .raw p q s = some s') : OnTop g s' := by
  obtain ⟨b, rfl, hb⟩ := hg
  simp only [stackRetag] at h
  rw [cut_over (by simp [Item.writes, Ne.symm hp])] at h
  cases hc : cut (Item.writes p) b with
  | none => rw [hc] at h; cases h
  | some c =>
    rw [hc] at h
    have e := cut_eq hc
    have hl := peers_length c.2.1 c.1
    simp only [Option.map_some, Option.some.injEq, peers_over _ (show (⟨g, .unique⟩ : Item).perm ≠ .sharedRW by simp),
      List.length_cons, show c.1.length + 1 - (peers c.2.1 c.1).length = (c.1.length - (peers c.2.1 c.1).length) + 1 by omega,
      List.take_succ_cons] at h
    subst h
    refine ⟨_, rfl, fun i hi => ?_⟩
    have hb' : ∀ i ∈ c.1 ++ c.2.1 :: c.2.2, i.tag ≠ g := e ▸ hb
    rcases List.mem_append.mp hi with hi | hi
    · exact hb' i (List.mem_append_left _ (List.mem_of_mem_take hi))
    rcases List.mem_cons.mp hi with rfl | hi
    · exact hq
    rcases List.mem_append.mp hi with hi | hi
    · exact hb' i (List.mem_append_left _ (peers_in hi))
    · exact hb' i (List.mem_append_right _ hi)

theorem OnTop.retag {g p q : Nat} {k : Kind} {s s' : List Item} (hk : k ≠ .raw) (hp : p ≠ g) (hq : q ≠ g) (hg : OnTop g s)
    (h : stackRetag k p q s = some s') : Ended g s' := by
  cases k with
  | raw => exact absurd rfl hk
  | excl =>
    obtain ⟨s1, h1, rfl⟩ := Option.map_eq_some_iff.mp h
    intro i hi e
    rcases List.mem_cons.mp hi with rfl | hi
    · exact absurd e hq
    · exact hg.write hp h1 i hi e
  | shared =>
    obtain ⟨s1, h1, rfl⟩ := Option.map_eq_some_iff.mp h
    intro i hi e
    rcases List.mem_cons.mp hi with rfl | hi
    · exact absurd e hq
    · exact hg.read hp h1 i hi e

theorem Ended.reads {g : Nat} {s : List Item} (h : Ended g s) : stackRead g s = none := by
  unfold stackRead
  rw [cut_none fun i hi => by
    unfold Item.reads
    by_cases e : i.tag = g
    · simp [h i hi e]
    · simp [e]]
  rfl

theorem Ended.writes {g : Nat} {s : List Item} (h : Ended g s) : stackWrite g s = none := by
  unfold stackWrite
  rw [cut_none fun i hi => by
    unfold Item.writes
    by_cases e : i.tag = g
    · simp [h i hi e]
    · simp [e]]
  rfl

theorem Counts.ended_stays {t t' g : Nat} {es : List Event} (hc : Counts t es t') : ∀ {s s' : List Item}, g < t →
    runAt Stacked l es s = some s' → Ended g s → Ended g s' := by
  induction hc with
  | nil => intro s s' hb e h; cases e; exact h
  | @read t t' u r es _ ih =>
    intro s s' hb e hg
    obtain ⟨s1, e1, e2⟩ := Option.bind_eq_some_iff.mp e
    refine ih hb e2 ?_
    by_cases hr : r.has l = true
    · rw [hit_read hr] at e1
      exact hg.read e1
    · rw [miss_read hr] at e1
      cases e1
      exact hg
  | @write t t' u r es _ ih =>
    intro s s' hb e hg
    obtain ⟨s1, e1, e2⟩ := Option.bind_eq_some_iff.mp e
    refine ih hb e2 ?_
    by_cases hr : r.has l = true
    · rw [hit_write hr] at e1
      exact hg.write e1
    · rw [miss_write hr] at e1
      cases e1
      exact hg
  | @retag t t' k u r es _ ih =>
    intro s s' hb e hg
    obtain ⟨s1, e1, e2⟩ := Option.bind_eq_some_iff.mp e
    refine ih (Nat.lt_succ_of_lt hb) e2 ?_
    by_cases hr : r.has l = true
    · rw [hit_retag hr] at e1
      exact hg.retag (Nat.ne_of_gt hb) e1
    · rw [miss_retag hr] at e1
      cases e1
      exact hg

/-- An exclusive reference is above all until something else is used, and ended after. -/
theorem Counts.top {t t' g : Nat} {es : List Event} (hc : Counts t es t') : ∀ {s s' : List Item}, g < t → Childless g es →
    runAt Stacked l es s = some s' → OnTop g s → (¬ OthersAt g es l → OnTop g s') ∧ (OthersAt g es l → Ended g s') := by
  induction hc with
  | nil =>
    intro s s' _ _ e h
    cases e
    exact ⟨fun _ => h, fun ⟨_, h', _⟩ => nomatch h'⟩
  | @read t t' u r es hc ih =>
    intro s s' hb hn e hg
    obtain ⟨s1, e1, e2⟩ := Option.bind_eq_some_iff.mp e
    rw [OthersAt.cons_iff]
    by_cases ho : Other g l (.read u r)
    · rw [hit_read ho.2] at e1
      exact ⟨fun h => absurd (.inl ho) h, fun _ => hc.ended_stays hb e2 (hg.read ho.1 e1)⟩
    · have hs : OnTop g s1 := by
        by_cases hr : r.has l = true
        · have : u = g := Classical.byContradiction fun h => ho ⟨h, hr⟩
          subst this
          rw [hit_read hr] at e1
          have := hg.read_own.symm.trans e1
          cases this
          exact hg
        · rw [miss_read hr] at e1
          cases e1
          exact hg
      obtain ⟨i1, i2⟩ := ih hb hn.tail e2 hs
      exact ⟨fun h => i1 fun h' => h (.inr h'), fun h => i2 (h.resolve_left ho)⟩
  | @write t t' u r es hc ih =>
    intro s s' hb hn e hg
    obtain ⟨s1, e1, e2⟩ := Option.bind_eq_some_iff.mp e
    rw [OthersAt.cons_iff]
    by_cases ho : Other g l (.write u r)
    · rw [hit_write ho.2] at e1
      exact ⟨fun h => absurd (.inl ho) h, fun _ => hc.ended_stays hb e2 (hg.write ho.1 e1)⟩
    · have hs : OnTop g s1 := by
        by_cases hr : r.has l = true
        · have : u = g := Classical.byContradiction fun h => ho ⟨h, hr⟩
          subst this
          rw [hit_write hr] at e1
          have := hg.write_own.symm.trans e1
          cases this
          exact hg
        · rw [miss_write hr] at e1
          cases e1
          exact hg
      obtain ⟨i1, i2⟩ := ih hb hn.tail e2 hs
      exact ⟨fun h => i1 fun h' => h (.inr h'), fun h => i2 (h.resolve_left ho)⟩
  | @retag t t' k u r es hc ih =>
    intro s s' hb hn e hg
    obtain ⟨s1, e1, e2⟩ := Option.bind_eq_some_iff.mp e
    have hb' := Nat.lt_succ_of_lt hb
    have hu : u ≠ g := hn k u t r (.head _)
    rw [OthersAt.cons_iff]
    by_cases ho : Other g l (.retag k u t r)
    · rw [hit_retag ho.2] at e1
      exact ⟨fun h => absurd (.inl ho) h, fun _ => hc.ended_stays hb' e2 (hg.retag ho.1 hu (Nat.ne_of_gt hb) e1)⟩
    · have hs : OnTop g s1 := by
        by_cases hr : r.has l = true
        · have : k = .raw := Classical.byContradiction fun h => ho ⟨h, hr⟩
          subst this
          rw [hit_retag hr] at e1
          exact hg.raw hu (Nat.ne_of_gt hb) e1
        · rw [miss_retag hr] at e1
          cases e1
          exact hg
      obtain ⟨i1, i2⟩ := ih hb' hn.tail e2 hs
      exact ⟨fun h => i1 fun h' => h (.inr h'), fun h => i2 (h.resolve_left ho)⟩

theorem Under.made_mut {p t : Nat} {s s' : List Item} (hb : Under t s) (e : stackRetag .excl p t s = some s') : OnTop t s' := by
  obtain ⟨s1, h1, rfl⟩ := Option.map_eq_some_iff.mp e
  exact ⟨s1, rfl, fun i hi => Nat.ne_of_lt (hb i (write_mem h1 i hi))⟩

/-- Both to look and to put. -/
theorem stacked_mut {p : Place} {es fs : List Event} {n n' u a : Nat} {r : Region} (he : Counts 2 es n)
    (hf : Counts (n + 1) fs n') (hn : Childless n fs) (ha : r.has a = true)
    (h : Defined Stacked p ((es ++ [.retag .excl u n r]) ++ fs)) :
    (Defined Stacked p ((es ++ [.retag .excl u n r]) ++ fs ++ [.read n ⟨a, 1⟩]) ↔ ¬ OthersAt n fs a) ∧
    (Defined Stacked p ((es ++ [.retag .excl u n r]) ++ fs ++ [.write n ⟨a, 1⟩]) ↔ ¬ OthersAt n fs a) := by
  obtain ⟨s', hs⟩ := h a
  have hs0 := hs
  rw [runAt_append, runAt_append] at hs
  obtain ⟨s1, h1, h2⟩ := Option.bind_eq_some_iff.mp hs
  obtain ⟨s0, h3, h4⟩ := Option.bind_eq_some_iff.mp h1
  obtain ⟨s2, h5, h6⟩ := Option.bind_eq_some_iff.mp h4
  cases h6
  rw [hit_retag ha] at h5
  obtain ⟨k1, k2⟩ := hf.top (Nat.lt_succ_self n) hn h2 (Under.made_mut (p := u) (he.under (start_under p a) h3) h5)
  have one : ∀ l, (⟨a, 1⟩ : Region).has l = true → l = a := fun l hl => by
    rw [has_iff] at hl
    simp only at hl
    omega
  refine ⟨⟨fun hd hw => ?_, fun hw l => ?_⟩, ⟨fun hd hw => ?_, fun hw l => ?_⟩⟩
  · obtain ⟨s3, h7⟩ := hd a
    rw [runAt_append, hs0, Option.bind_some] at h7
    obtain ⟨s4, h8, _⟩ := Option.bind_eq_some_iff.mp h7
    rw [hit_read (one_has a)] at h8
    have h9 : stackRead n s' = some s4 := h8
    rw [(k2 hw).reads] at h9
    cases h9
  · obtain ⟨s3, h7⟩ := h l
    rw [runAt_append, h7, Option.bind_some]
    by_cases hl : (⟨a, 1⟩ : Region).has l = true
    · obtain rfl := one l hl
      rw [hs0] at h7
      cases h7
      exact ⟨_, runAt_cons ((hit_read hl).trans (k1 hw).read_own)⟩
    · exact ⟨_, runAt_cons (miss_read hl)⟩
  · obtain ⟨s3, h7⟩ := hd a
    rw [runAt_append, hs0, Option.bind_some] at h7
    obtain ⟨s4, h8, _⟩ := Option.bind_eq_some_iff.mp h7
    rw [hit_write (one_has a)] at h8
    have h9 : stackWrite n s' = some s4 := h8
    rw [(k2 hw).writes] at h9
    cases h9
  · obtain ⟨s3, h7⟩ := h l
    rw [runAt_append, h7, Option.bind_some]
    by_cases hl : (⟨a, 1⟩ : Region).has l = true
    · obtain rfl := one l hl
      rw [hs0] at h7
      cases h7
      exact ⟨_, runAt_cons ((hit_write hl).trans (k1 hw).write_own)⟩
    · exact ⟨_, runAt_cons (miss_write hl)⟩

/-! Tree Borrows. -/

/-- `g` is a reference of which none was made. -/
def Alone (g : Nat) (s : List Node) : Prop := ∃ n, find g s = some n ∧ n.id = g ∧ g ∈ n.line ∧
  ∀ m ∈ s, g ∈ m.line → ∀ x ∈ m.names, x = g

theorem Alone.map {g : Nat} {s : List Node} {f : Node → Node} (hf : Steady f) (h : Alone g s) : Alone g (s.map f) := by
  obtain ⟨n, h1, h2, h3, h4⟩ := h
  refine ⟨f n, by rw [find_map fun m => (hf m).2.1, h1]; rfl, (hf n).1.trans h2, (hf n).2.2 ▸ h3, fun m hm => ?_⟩
  obtain ⟨m', hm', rfl⟩ := List.mem_map.mp hm
  rw [(hf m').2.1, (hf m').2.2]
  exact h4 m' hm'

theorem Alone.retag {g p t : Nat} {k : Kind} {s s' : List Node} (hb : Bounded t s) (hp : p ≠ g) (h : Alone g s)
    (e : treeRetag k p t s = some s') : Alone g s' := by
  rcases treeRetag_some e with ⟨_, rfl⟩ | ⟨_, x, s1, hx, h1, rfl⟩
  · obtain ⟨n, h1, h2, h3, h4⟩ := h
    refine ⟨addName p t n, by rw [find_addName (hb.old h1), h1]; rfl, (addName_rest p t n).1.trans h2,
      (addName_rest p t n).2.1 ▸ h3, fun m hm hl x hx => ?_⟩
    obtain ⟨m', hm', rfl⟩ := List.mem_map.mp hm
    rw [(addName_rest p t m').2.1] at hl
    have h5 := h4 m' hm' hl
    unfold addName at hx
    split at hx
    · rename_i hpm
      exact absurd (h5 p hpm) hp
    · exact h5 x hx
  · obtain ⟨y, _, rfl, _⟩ := treeRead_was h1
    have hb1 : Bounded t (s.map (readMap y.line)) := hb.map (readMap_steady _)
    have ha := h.map (readMap_steady y.line)
    obtain ⟨n, h2, h3, h4, h5⟩ := ha
    refine ⟨n, find_newer hb1 rfl h2, h3, h4, fun m hm hl z hz => ?_⟩
    rcases List.mem_cons.mp hm with rfl | hm
    · exfalso
      rcases List.mem_cons.mp hl with e | hl
      · have := (hb1 n (find_names h2).1).2.1 g (find_names h2).2
        omega
      · obtain ⟨n', h6, _, _, h7⟩ := h
        exact hp (h7 x (find_names hx).1 hl p (find_names hx).2)
    · exact h5 m hm hl z hz

/-- The state of a reference of which none was made, after a write. -/
theorem Alone.write {g t : Nat} {s s' : List Node} (ht : t ≠ g) (h : Alone g s) (e : treeWrite t s = some s') :
    Has .disabled g s' := by
  obtain ⟨n, h1, h2, h3, h4⟩ := h
  obtain ⟨x, hx, rfl, _⟩ := treeWrite_was e
  refine ⟨writeMap x.line n, by rw [find_map fun m => (writeMap_steady _ m).2.1, h1]; rfl, ?_, ?_⟩
  · show n.id ∈ n.line
    rw [h2]
    exact h3
  · show (if n.id ∈ x.line then State.active else .disabled) = _
    rw [if_neg fun hl => ht (h4 x (find_names hx).1 (h2 ▸ hl) t (find_names hx).2)]

theorem write_own_see {g : Nat} {s s' : List Node} (e : treeWrite g s = some s') : treeSee g s' := by
  obtain ⟨x, hx, rfl, _⟩ := treeWrite_was e
  refine ⟨writeMap x.line x, by rw [find_map fun m => (writeMap_steady _ m).2.1, hx]; rfl, fun m hm hl => ?_⟩
  obtain ⟨m', hm', rfl⟩ := List.mem_map.mp hm
  have hl' : m'.id ∈ x.line := hl
  show (if m'.id ∈ x.line then State.active else .disabled).mayRead = true
  rw [if_pos hl']
  rfl

theorem OthersWrite.cons {g : Nat} {e : Event} {es : List Event} (h : OthersWrite g es l) : OthersWrite g (e :: es) l := by
  obtain ⟨t, r, h1, h2⟩ := h
  exact ⟨t, r, .tail _ h1, h2⟩

/-- It may be looked at until something else writes, and not after. -/
theorem Counts.alone {t t' g : Nat} {es : List Event} (hc : Counts t es t') : ∀ {s s' : List Node}, Bounded t s →
    Childless g es → runAt Tree l es s = some s' → Alone g s → treeSee g s →
    (¬ OthersWrite g es l → treeSee g s') ∧ (OthersWrite g es l → Has .disabled g s') := by
  induction hc with
  | nil =>
    intro s s' _ _ e _ h
    cases e
    exact ⟨fun _ => h, fun ⟨_, _, h', _⟩ => nomatch h'⟩
  | @read t t' u r es hc ih =>
    intro s s' hb hn e hg hs
    obtain ⟨s1, e1, e2⟩ := Option.bind_eq_some_iff.mp e
    have go : (¬ OthersWrite g es l → treeSee g s') ∧ (OthersWrite g es l → Has .disabled g s') := by
      by_cases hr : r.has l = true
      · rw [hit_read hr] at e1
        obtain ⟨x, _, rfl, _⟩ := treeRead_was e1
        exact ih (hb.map (readMap_steady _)) hn.tail e2 (hg.map (readMap_steady _)) (Up.read_see _ hs)
      · rw [miss_read hr] at e1
        cases e1
        exact ih hb hn.tail e2 hg hs
    refine ⟨fun h => go.1 fun h' => h (OthersWrite.cons h'), fun ⟨a, b, h1, h2⟩ => go.2 ?_⟩
    cases h1 with
    | tail _ h1 => exact ⟨a, b, h1, h2⟩
  | @write t t' u r es hc ih =>
    intro s s' hb hn e hg hs
    obtain ⟨s1, e1, e2⟩ := Option.bind_eq_some_iff.mp e
    by_cases ho : u ≠ g ∧ r.has l = true
    · rw [hit_write ho.2] at e1
      have hd := hg.write ho.1 e1
      obtain ⟨x, _, rfl, _⟩ := treeWrite_was e1
      exact ⟨fun h => absurd ⟨u, r, .head _, ho⟩ h, fun _ => hc.disabled (hb.map (writeMap_steady _)) e2 g hd⟩
    · have go : (¬ OthersWrite g es l → treeSee g s') ∧ (OthersWrite g es l → Has .disabled g s') := by
        by_cases hr : r.has l = true
        · have : u = g := Classical.byContradiction fun h => ho ⟨h, hr⟩
          subst this
          rw [hit_write hr] at e1
          have hs1 := write_own_see e1
          obtain ⟨x, _, rfl, _⟩ := treeWrite_was e1
          exact ih (hb.map (writeMap_steady _)) hn.tail e2 (hg.map (writeMap_steady _)) hs1
        · rw [miss_write hr] at e1
          cases e1
          exact ih hb hn.tail e2 hg hs
      refine ⟨fun h => go.1 fun h' => h (OthersWrite.cons h'), fun ⟨a, b, h1, h2⟩ => go.2 ?_⟩
      cases h1 with
      | head => exact absurd h2 ho
      | tail _ h1 => exact ⟨a, b, h1, h2⟩
  | @retag t t' k u r es hc ih =>
    intro s s' hb hn e hg hs
    obtain ⟨s1, e1, e2⟩ := Option.bind_eq_some_iff.mp e
    have go : (¬ OthersWrite g es l → treeSee g s') ∧ (OthersWrite g es l → Has .disabled g s') := by
      by_cases hr : r.has l = true
      · rw [hit_retag hr] at e1
        obtain ⟨h1, h2, _⟩ := hb.retag e1
        exact ih h1 hn.tail e2 (hg.retag hb (hn k u t r (.head _)) e1) (h2 g hs)
      · rw [miss_retag hr] at e1
        cases e1
        exact ih hb.succ hn.tail e2 hg hs
    refine ⟨fun h => go.1 fun h' => h (OthersWrite.cons h'), fun ⟨a, b, h1, h2⟩ => go.2 ?_⟩
    cases h1 with
    | tail _ h1 => exact ⟨a, b, h1, h2⟩

theorem Bounded.made_mut {p t : Nat} {s s' : List Node} (hb : Bounded t s) (e : treeRetag .excl p t s = some s') :
    treeSee t s' ∧ Alone t s' := by
  rcases treeRetag_some e with ⟨h, _⟩ | ⟨_, x, s1, hx, h1, rfl⟩
  · cases h
  obtain ⟨y, h2, rfl, h3⟩ := treeRead_was h1
  rw [hx] at h2
  cases h2
  have hf : find t ((⟨t, [t], t :: x.line, newState .excl⟩ : Node) :: s.map (readMap x.line)) =
      some ⟨t, [t], t :: x.line, newState .excl⟩ := by
    unfold find
    rw [List.find?_cons]
    simp
  refine ⟨⟨_, hf, fun m hm hl => ?_⟩, _, hf, rfl, .head _, fun m hm hl z hz => ?_⟩
  · rcases List.mem_cons.mp hm with rfl | hm
    · rfl
    · obtain ⟨m', hm', rfl⟩ := List.mem_map.mp hm
      rw [(readMap_steady x.line m').1] at hl
      refine readMap_see _ _ (h3 m' hm' ?_)
      rcases List.mem_cons.mp hl with e | hl
      · have := (hb m' hm').1
        omega
      · exact hl
  · rcases List.mem_cons.mp hm with rfl | hm
    · exact List.mem_singleton.mp hz
    · have := (hb.map (readMap_steady x.line) m hm).2.2 t hl
      exact absurd this (Nat.lt_irrefl t)

theorem tree_mut {p : Place} {es fs : List Event} {n n' u a : Nat} {r : Region} (he : Counts 2 es n)
    (hf : Counts (n + 1) fs n') (hn : Childless n fs) (ha : r.has a = true)
    (h : Defined Tree p ((es ++ [.retag .excl u n r]) ++ fs)) :
    Defined Tree p ((es ++ [.retag .excl u n r]) ++ fs ++ [.read n ⟨a, 1⟩]) ↔ ¬ OthersWrite n fs a := by
  obtain ⟨s', hs⟩ := h a
  have hs0 := hs
  rw [runAt_append, runAt_append] at hs
  obtain ⟨s1, h1, h2⟩ := Option.bind_eq_some_iff.mp hs
  obtain ⟨s0, h3, h4⟩ := Option.bind_eq_some_iff.mp h1
  obtain ⟨s2, h5, h6⟩ := Option.bind_eq_some_iff.mp h4
  cases h6
  rw [hit_retag ha] at h5
  have hb := he.bounded (start_bounded p a) h3
  obtain ⟨m1, m2⟩ := Bounded.made_mut (p := u) hb h5
  obtain ⟨k1, k2⟩ := hf.alone (Bounded.retag (k := .excl) (p := u) hb h5).1 hn h2 m2 m1
  refine ⟨fun hd hw => ?_, fun hw => defined_then h fun s h7 => ?_⟩
  · obtain ⟨s3, h7, see⟩ := then_see hd
    rw [hs0] at h7
    cases h7
    obtain ⟨_, _, h8⟩ := tree_read see
    rw [(k2 hw).unread] at h8
    cases h8
  · rw [hs0] at h7
    cases h7
    exact k1 hw

end Oct.Alias
