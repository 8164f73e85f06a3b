import Verif.Proofs.MutRun
/-
For how long exclusive references may be put to under Tree Borrows.
-/
namespace Oct.Alias
open Spec Sound

/-- All is made of the owner, which is active. -/
def Grounded (s : List Node) : Prop := (∃ n, find ownerTag s = some n ∧ n.line = [ownerTag]) ∧
  ∀ m ∈ s, ownerTag ∈ m.line ∧ (m.id = ownerTag → m.state = .active)

theorem Grounded.read {s : List Node} {x : Node} (hx : x ∈ s) (h : Grounded s) : Grounded (s.map (readMap x.line)) := by
  obtain ⟨⟨n, h1, h2⟩, h3⟩ := h
  refine ⟨⟨readMap x.line n, by rw [find_map fun m => (readMap_steady _ m).2.1, h1]; rfl,
    (readMap_steady _ n).2.2.trans h2⟩, fun m hm => ?_⟩
  obtain ⟨m', hm', rfl⟩ := List.mem_map.mp hm
  rw [(readMap_steady x.line m').1, (readMap_steady x.line m').2.2]
  refine ⟨(h3 m' hm').1, fun e => ?_⟩
  unfold readMap
  rw [if_pos (e ▸ (h3 x hx).1)]
  exact (h3 m' hm').2 e

theorem Grounded.write {s : List Node} {x : Node} (hx : x ∈ s) (h : Grounded s) : Grounded (s.map (writeMap x.line)) := by
  obtain ⟨⟨n, h1, h2⟩, h3⟩ := h
  refine ⟨⟨writeMap x.line n, by rw [find_map fun m => (writeMap_steady _ m).2.1, h1]; rfl, h2⟩, fun m hm => ?_⟩
  obtain ⟨m', hm', rfl⟩ := List.mem_map.mp hm
  refine ⟨(h3 m' hm').1, fun e => ?_⟩
  have e' : m'.id = ownerTag := e
  show (if m'.id ∈ x.line then State.active else .disabled) = _
  rw [if_pos (e' ▸ (h3 x hx).1)]

theorem Grounded.retag {s s' : List Node} {k : Kind} {p t : Nat} (ht : 2 ≤ t) (hb : Bounded t s) (h : Grounded s)
    (e : treeRetag k p t s = some s') : Grounded s' := by
  rcases treeRetag_some e with ⟨_, rfl⟩ | ⟨_, x, s1, hx, h1, rfl⟩
  · obtain ⟨⟨n, h1, h2⟩, h3⟩ := h
    refine ⟨⟨addName p t n, by rw [find_addName (hb.old h1), h1]; rfl, (addName_rest p t n).2.1.trans h2⟩, fun m hm => ?_⟩
    obtain ⟨m', hm', rfl⟩ := List.mem_map.mp hm
    rw [(addName_rest p t m').1, (addName_rest p t m').2.1, (addName_rest p t m').2.2]
    exact h3 m' hm'
  · obtain ⟨y, h2, rfl, _⟩ := treeRead_was h1
    have hb1 : Bounded t (s.map (readMap y.line)) := hb.map (readMap_steady _)
    obtain ⟨⟨n, h3, h4⟩, h5⟩ := h.read (find_names h2).1
    refine ⟨⟨n, find_newer hb1 rfl h3, h4⟩, fun m hm => ?_⟩
    rcases List.mem_cons.mp hm with rfl | hm
    · refine ⟨.tail _ (h.2 x (find_names hx).1).1, fun e => ?_⟩
      have e' : t = 0 := e
      omega
    · exact h5 m hm

/-- Whatever the pointer was made of was not written to yet, or is the owner. -/
def Idle (g : Nat) (s : List Node) : Prop := Up (fun m => m.id = ownerTag ∨ m.state = .reserved) g s

theorem Idle.read {g : Nat} {s : List Node} (line : List Nat) (h : Idle g s) : Idle g (s.map (readMap line)) := by
  obtain ⟨n, h1, h2⟩ := h
  refine ⟨readMap line n, by rw [find_map fun m => (readMap_steady _ m).2.1, h1]; rfl, fun m hm hl => ?_⟩
  obtain ⟨m', hm', rfl⟩ := List.mem_map.mp hm
  rw [(readMap_steady line m').1, (readMap_steady line n).2.2] at hl
  rcases h2 m' hm' hl with e | e
  · exact .inl ((readMap_steady line m').1.trans e)
  · refine .inr ?_
    unfold readMap
    split
    · exact e
    · show m'.state.foreignRead = _
      rw [e]
      rfl

theorem Bounded.raw_up {t p g : Nat} {s : List Node} {P : Node → Prop} (hP : ∀ m m', m.id = m'.id → m.state = m'.state → P m → P m')
    (h : Bounded t s) (hg : Up P g s) : Up P g (s.map (addName p t)) := by
  obtain ⟨y, h1, h2⟩ := hg
  refine ⟨addName p t y, by rw [find_addName (h.old h1), h1]; rfl, fun m hm hl => ?_⟩
  obtain ⟨m', hm', rfl⟩ := List.mem_map.mp hm
  rw [(addName_rest p t y).2.1, (addName_rest p t m').1] at hl
  exact hP m' _ (addName_rest p t m').1.symm (addName_rest p t m').2.2.symm (h2 m' hm' hl)

theorem free_same (m m' : Node) (h : m.id = m'.id) (h' : m.state = m'.state) (hm : m.id = ownerTag ∨ m.state = .reserved) :
    m'.id = ownerTag ∨ m'.state = .reserved := by rw [← h, ← h']; exact hm

theorem Idle.retag {g p t : Nat} {k : Kind} {s s' : List Node} (hb : Bounded t s) (h : Idle g s)
    (e : treeRetag k p t s = some s') : Idle g s' := by
  rcases treeRetag_some e with ⟨_, rfl⟩ | ⟨_, x, s1, hx, h1, rfl⟩
  · exact hb.raw_up free_same h
  · obtain ⟨y, h2, rfl, _⟩ := treeRead_was h1
    exact (hb.map (readMap_steady _) : Bounded t (s.map (readMap y.line))).up rfl rfl (h.read _)

theorem find_made {p t : Nat} {s : List Node} (hb : Bounded t s) :
    find t (s.map (addName p t)) = (find p s).map (addName p t) := by
  unfold find
  rw [List.find?_map]
  congr 1
  induction s with
  | nil => rfl
  | cons m s ih =>
    have hm := (hb m (.head _)).2.1
    have : (decide (t ∈ (addName p t m).names)) = decide (p ∈ m.names) := by
      refine decide_eq_decide.mpr ?_
      unfold addName
      split
      · rename_i h
        exact ⟨fun _ => h, fun _ => .head _⟩
      · rename_i h
        exact ⟨fun h' => absurd (hm t h') (Nat.lt_irrefl t), fun h' => absurd h' h⟩
    rw [List.find?_cons, List.find?_cons]
    simp only [Function.comp, this]
    split
    · rfl
    · exact ih fun m hm => hb m (.tail _ hm)

theorem Idle.step {p t : Nat} {k : Kind} {s s' : List Node} (hk : k ≠ .shared) (hb : Bounded t s) (h : Idle p s)
    (e : treeRetag k p t s = some s') : Idle t s' := by
  obtain ⟨n, h1, h2⟩ := h
  rcases treeRetag_some e with ⟨_, rfl⟩ | ⟨hr, x, s1, hx, h3, rfl⟩
  · refine ⟨addName p t n, by rw [find_made hb, h1]; rfl, fun m hm hl => ?_⟩
    obtain ⟨m', hm', rfl⟩ := List.mem_map.mp hm
    rw [(addName_rest p t n).2.1, (addName_rest p t m').1] at hl
    exact free_same m' _ (addName_rest p t m').1.symm (addName_rest p t m').2.2.symm (h2 m' hm' hl)
  · obtain ⟨y, h4, rfl, _⟩ := treeRead_was h3
    rw [hx] at h4 h1
    cases h4
    cases h1
    have hf : find t ((⟨t, [t], t :: n.line, newState k⟩ : Node) :: s.map (readMap n.line)) =
        some ⟨t, [t], t :: n.line, newState k⟩ := by
      unfold find
      rw [List.find?_cons]
      simp
    refine ⟨_, hf, fun m hm hl => ?_⟩
    rcases List.mem_cons.mp hm with rfl | hm
    · cases k with
      | excl => exact .inr rfl
      | shared => exact absurd rfl hk
      | raw => exact absurd rfl hr
    · obtain ⟨n', h5, h6⟩ := (Idle.read n.line ⟨n, hx, h2⟩ : Idle p _)
      rw [find_map fun m => (readMap_steady _ m).2.1, hx] at h5
      cases h5
      refine h6 m hm ?_
      rw [(readMap_steady n.line n).2.2]
      rcases List.mem_cons.mp hl with e | hl
      · have := (hb.map (readMap_steady n.line) m hm).1
        omega
      · exact hl

variable {l : Nat}

/-- The events make `u` of `p` at `l`, as exclusive, and write nothing. -/
inductive Owned (l : Nat) : List Event → Nat → Nat → Prop where
  | nil {p} : Owned l [] p p
  | read {t r es p u} : Owned l es p u → Owned l (.read t r :: es) p u
  | skip {k t q r es p u} : Owned l es p u → Owned l (.retag k t q r :: es) p u
  | step {k q r es p u} : k ≠ .shared → r.has l = true → Owned l es q u → Owned l (.retag k p q r :: es) p u

theorem Owned.free {es : List Event} {p u : Nat} (ho : Owned l es p u) : ∀ {t t' : Nat} {s s' : List Node}, Counts t es t' →
    Bounded t s → runAt Tree l es s = some s' → Idle p s → Idle u s' := by
  induction ho with
  | nil => intro t t' s s' _ _ e h; cases e; exact h
  | @read v r es p u _ ih =>
    intro t t' s s' hc hb e h
    obtain ⟨s1, e1, e2⟩ := Option.bind_eq_some_iff.mp e
    cases hc with
    | read hc =>
      by_cases hr : r.has l = true
      · rw [hit_read hr] at e1
        obtain ⟨x, _, rfl, _⟩ := treeRead_was e1
        exact ih hc (hb.map (readMap_steady _)) e2 (h.read _)
      · rw [miss_read hr] at e1
        cases e1
        exact ih hc hb e2 h
  | @skip k v q r es p u _ ih =>
    intro t t' s s' hc hb e h
    obtain ⟨s1, e1, e2⟩ := Option.bind_eq_some_iff.mp e
    cases hc with
    | retag hc =>
      by_cases hr : r.has l = true
      · rw [hit_retag hr] at e1
        exact ih hc (hb.retag e1).1 e2 (h.retag hb e1)
      · rw [miss_retag hr] at e1
        cases e1
        exact ih hc hb.succ e2 h
  | @step k q r es p u hk hr _ ih =>
    intro t t' s s' hc hb e h
    obtain ⟨s1, e1, e2⟩ := Option.bind_eq_some_iff.mp e
    cases hc with
    | retag hc =>
      rw [hit_retag hr] at e1
      exact ih hc (hb.retag e1).1 e2 (h.step hk hb e1)

theorem Counts.rooted {t t' : Nat} {es : List Event} (hc : Counts t es t') : ∀ {s s' : List Node}, 2 ≤ t → Bounded t s →
    runAt Tree l es s = some s' → Grounded s → Grounded s' := by
  induction hc with
  | nil => intro s s' _ _ e h; cases e; exact h
  | @read t t' u r es _ ih =>
    intro s s' ht hb e h
    obtain ⟨s1, e1, e2⟩ := Option.bind_eq_some_iff.mp e
    by_cases hr : r.has l = true
    · rw [hit_read hr] at e1
      obtain ⟨x, hx, rfl, _⟩ := treeRead_was e1
      exact ih ht (hb.map (readMap_steady _)) e2 (h.read (find_names hx).1)
    · rw [miss_read hr] at e1
      cases e1
      exact ih ht hb e2 h
  | @write t t' u r es _ ih =>
    intro s s' ht hb e h
    obtain ⟨s1, e1, e2⟩ := Option.bind_eq_some_iff.mp e
    by_cases hr : r.has l = true
    · rw [hit_write hr] at e1
      obtain ⟨x, hx, rfl, _⟩ := treeWrite_was e1
      exact ih ht (hb.map (writeMap_steady _)) e2 (h.write (find_names hx).1)
    · rw [miss_write hr] at e1
      cases e1
      exact ih ht hb e2 h
  | @retag t t' k u r es _ ih =>
    intro s s' ht hb e h
    obtain ⟨s1, e1, e2⟩ := Option.bind_eq_some_iff.mp e
    by_cases hr : r.has l = true
    · rw [hit_retag hr] at e1
      exact ih (Nat.le_succ_of_le ht) (hb.retag e1).1 e2 (h.retag ht hb e1)
    · rw [miss_retag hr] at e1
      cases e1
      exact ih (Nat.le_succ_of_le ht) hb.succ e2 h

/-! After the reference is made. -/

/-- It was written to, and nothing else was used since. -/
def Busy (g : Nat) (s : List Node) : Prop := Up (fun m => m.state = .active) g s

/-- It may not be written to any more. -/
def Shut (g : Nat) (s : List Node) : Prop := Has .frozen g s ∨ Has .disabled g s

theorem Counts.shut {t t' g : Nat} {es : List Event} (hc : Counts t es t') {s s' : List Node} (hb : Bounded t s)
    (e : runAt Tree l es s = some s') (h : Shut g s) : Shut g s' := by
  rcases h with h | h
  · by_cases hw : WrittenAt es l
    · exact .inr (hc.ended hb e hw g h)
    · exact .inl ((hc.kept hb e hw).2 g h)
  · exact .inr (hc.disabled hb e g h)

theorem Busy.read_own {g : Nat} {s s' : List Node} (h : Busy g s) (e : treeRead g s = some s') : Busy g s' := by
  obtain ⟨n, h1, h2⟩ := h
  obtain ⟨x, hx, rfl, _⟩ := treeRead_was e
  rw [h1] at hx
  cases hx
  refine ⟨readMap n.line n, by rw [find_map fun m => (readMap_steady _ m).2.1, h1]; rfl, fun m hm hl => ?_⟩
  obtain ⟨m', hm', rfl⟩ := List.mem_map.mp hm
  rw [(readMap_steady n.line m').1, (readMap_steady n.line n).2.2] at hl
  show (readMap n.line m').state = _
  unfold readMap
  rw [if_pos hl]
  exact h2 m' hm' hl

theorem busy_made {g : Nat} {s s' : List Node} (e : treeWrite g s = some s') : Busy g s' := by
  obtain ⟨x, hx, rfl, _⟩ := treeWrite_was e
  refine ⟨writeMap x.line x, by rw [find_map fun m => (writeMap_steady _ m).2.1, hx]; rfl, fun m hm hl => ?_⟩
  obtain ⟨m', hm', rfl⟩ := List.mem_map.mp hm
  have hl' : m'.id ∈ x.line := hl
  show (if m'.id ∈ x.line then State.active else .disabled) = _
  rw [if_pos hl']

theorem Busy.read {g u : Nat} {s s' : List Node} (hu : u ≠ g) (ha : Alone g s) (h : Busy g s) (e : treeRead u s = some s') :
    Has .frozen g s' := by
  obtain ⟨n, h1, h2, h3, h4⟩ := ha
  obtain ⟨n', h5, h6⟩ := h
  rw [h1] at h5
  cases h5
  obtain ⟨x, hx, rfl, _⟩ := treeRead_was e
  have hl : n.id ∉ x.line := fun hl => hu (h4 x (find_names hx).1 (h2 ▸ hl) u (find_names hx).2)
  refine ⟨readMap x.line n, by rw [find_map fun m => (readMap_steady _ m).2.1, h1]; rfl, ?_, ?_⟩
  · rw [(readMap_steady x.line n).1, (readMap_steady x.line n).2.2, h2]
    exact h3
  · unfold readMap
    rw [if_neg hl]
    show n.state.foreignRead = _
    have : n.state = .active := h6 n (find_names h1).1 (h2 ▸ h3)
    rw [this]
    rfl

theorem Busy.retag {g u t : Nat} {k : Kind} {s s' : List Node} (hk : k ≠ .raw) (hb : Bounded t s) (hu : u ≠ g) (ha : Alone g s)
    (h : Busy g s) (e : treeRetag k u t s = some s') : Has .frozen g s' := by
  rcases treeRetag_some e with ⟨h', _⟩ | ⟨_, x, s1, hx, h1, rfl⟩
  · exact absurd h' hk
  · have := h.read hu ha h1
    obtain ⟨y, h2, rfl, _⟩ := treeRead_was h1
    exact (hb.map (readMap_steady _) : Bounded t (s.map (readMap y.line))).has rfl this

theorem Busy.raw {g u t : Nat} {s s' : List Node} (hb : Bounded t s) (h : Busy g s) (e : treeRetag .raw u t s = some s') :
    Busy g s' := by
  rcases treeRetag_some e with ⟨_, rfl⟩ | ⟨h', _⟩
  · exact hb.raw_up (fun _ _ _ h' hm => h' ▸ hm) h
  · exact absurd rfl h'

/-- Once it was put to, it may be put to until something else is used. -/
theorem Counts.busy {t t' g : Nat} {es : List Event} (hc : Counts t es t') : ∀ {s s' : List Node}, Bounded t s →
    Childless g es → runAt Tree l es s = some s' → Alone g s → Busy g s →
    (¬ OthersAt g es l → Busy g s') ∧ (OthersAt g es l → Shut g s') := by
  induction hc with
  | nil =>
    intro s s' _ _ e _ h
    cases e
    exact ⟨fun _ => h, fun ⟨_, h', _⟩ => nomatch h'⟩
  | @read t t' u r es hc ih =>
    intro s s' hb hn e ha hg
    obtain ⟨s1, e1, e2⟩ := Option.bind_eq_some_iff.mp e
    rw [OthersAt.cons_iff]
    by_cases ho : Other g l (.read u r)
    · rw [hit_read ho.2] at e1
      have hf := hg.read ho.1 ha e1
      obtain ⟨x, _, rfl, _⟩ := treeRead_was e1
      exact ⟨fun h => absurd (.inl ho) h, fun _ => hc.shut (hb.map (readMap_steady _)) e2 (.inl hf)⟩
    · have go : (¬ OthersAt g es l → Busy g s') ∧ (OthersAt g es l → Shut g s') := by
        by_cases hr : r.has l = true
        · have : u = g := Classical.byContradiction fun h => ho ⟨h, hr⟩
          subst this
          rw [hit_read hr] at e1
          have hs := hg.read_own e1
          obtain ⟨x, _, rfl, _⟩ := treeRead_was e1
          exact ih (hb.map (readMap_steady _)) hn.tail e2 (ha.map (readMap_steady _)) hs
        · rw [miss_read hr] at e1
          cases e1
          exact ih hb hn.tail e2 ha hg
      exact ⟨fun h => go.1 fun h' => h (.inr h'), fun h => go.2 (h.resolve_left ho)⟩
  | @write t t' u r es hc ih =>
    intro s s' hb hn e ha hg
    obtain ⟨s1, e1, e2⟩ := Option.bind_eq_some_iff.mp e
    rw [OthersAt.cons_iff]
    by_cases ho : Other g l (.write u r)
    · rw [hit_write ho.2] at e1
      have hf := ha.write ho.1 e1
      obtain ⟨x, _, rfl, _⟩ := treeWrite_was e1
      exact ⟨fun h => absurd (.inl ho) h, fun _ => hc.shut (hb.map (writeMap_steady _)) e2 (.inr hf)⟩
    · have go : (¬ OthersAt g es l → Busy g s') ∧ (OthersAt g es l → Shut g s') := by
        by_cases hr : r.has l = true
        · have : u = g := Classical.byContradiction fun h => ho ⟨h, hr⟩
          subst this
          rw [hit_write hr] at e1
          have hs := busy_made e1
          obtain ⟨x, _, rfl, _⟩ := treeWrite_was e1
          exact ih (hb.map (writeMap_steady _)) hn.tail e2 (ha.map (writeMap_steady _)) hs
        · rw [miss_write hr] at e1
          cases e1
          exact ih hb hn.tail e2 ha hg
      exact ⟨fun h => go.1 fun h' => h (.inr h'), fun h => go.2 (h.resolve_left ho)⟩
  | @retag t t' k u r es hc ih =>
    intro s s' hb hn e ha hg
    obtain ⟨s1, e1, e2⟩ := Option.bind_eq_some_iff.mp e
    have hu : u ≠ g := hn k u t r (.head _)
    rw [OthersAt.cons_iff]
    by_cases ho : Other g l (.retag k u t r)
    · rw [hit_retag ho.2] at e1
      exact ⟨fun h => absurd (.inl ho) h, fun _ => hc.shut (hb.retag e1).1 e2 (.inl (hg.retag ho.1 hb hu ha e1))⟩
    · have go : (¬ OthersAt g es l → Busy g s') ∧ (OthersAt g es l → Shut g s') := by
        by_cases hr : r.has l = true
        · have : k = .raw := Classical.byContradiction fun h => ho ⟨h, hr⟩
          subst this
          rw [hit_retag hr] at e1
          exact ih (Bounded.retag (k := .raw) (p := u) hb e1).1 hn.tail e2 (Alone.retag (k := .raw) (p := u) hb hu ha e1) (hg.raw hb e1)
        · rw [miss_retag hr] at e1
          cases e1
          exact ih hb.succ hn.tail e2 ha hg
      exact ⟨fun h => go.1 fun h' => h (.inr h'), fun h => go.2 (h.resolve_left ho)⟩

theorem spoilt_skip {g : Nat} {e : Event} {es : List Event} (h : ∀ t r, e = .write t r → ¬ r.has l = true) :
    Spoilt g (e :: es) l ↔ Spoilt g es l := by
  constructor
  · rintro (⟨t, r, h1, h2⟩ | ⟨fs, gs, h1, ⟨r, h2, h3⟩, h4⟩)
    · rcases List.mem_cons.mp h1 with rfl | h1
      · exact absurd h2.2 (h t r rfl)
      · exact .inl ⟨t, r, h1, h2⟩
    · cases fs with
      | nil => cases h2
      | cons f fs =>
        cases h1
        rcases List.mem_cons.mp h2 with rfl | h2
        · exact absurd h3 (h g r rfl)
        · exact .inr ⟨fs, gs, rfl, ⟨r, h2, h3⟩, h4⟩
  · rintro (⟨t, r, h1, h2⟩ | ⟨fs, gs, rfl, ⟨r, h2, h3⟩, h4⟩)
    · exact .inl ⟨t, r, .tail _ h1, h2⟩
    · exact .inr ⟨e :: fs, gs, rfl, ⟨r, .tail _ h2, h3⟩, h4⟩

theorem spoilt_own {g : Nat} {r : Region} {es : List Event} (h : r.has l = true) :
    Spoilt g (.write g r :: es) l ↔ OthersAt g es l := by
  constructor
  · rintro (⟨t, r', h1, h2⟩ | ⟨fs, gs, h1, _, ⟨e, h4, h5⟩⟩)
    · rcases List.mem_cons.mp h1 with h1 | h1
      · cases h1
        exact absurd rfl h2.1
      · exact ⟨_, h1, h2⟩
    · have : e ∈ Event.write g r :: es := h1 ▸ List.mem_append_right _ h4
      rcases List.mem_cons.mp this with rfl | h6
      · exact absurd rfl h5.1
      · exact ⟨e, h6, h5⟩
  · exact fun h' => .inr ⟨[.write g r], es, rfl, ⟨r, .head _, h⟩, h'⟩

/-- It may be put to until it is spoilt. -/
theorem Counts.put {t t' g : Nat} {es : List Event} (hc : Counts t es t') : ∀ {s s' : List Node}, Bounded t s →
    Childless g es → runAt Tree l es s = some s' → Alone g s → Idle g s →
    (¬ Spoilt g es l → Idle g s' ∨ Busy g s') ∧ (Spoilt g es l → Shut g s') := by
  induction hc with
  | nil =>
    intro s s' _ _ e _ h
    cases e
    refine ⟨fun _ => .inl h, fun h' => ?_⟩
    rcases h' with ⟨_, _, h', _⟩ | ⟨fs, gs, h1, ⟨_, h2, _⟩, _⟩
    · cases h'
    · rw [(List.append_eq_nil_iff.mp h1.symm).1] at h2
      cases h2
  | @read t t' u r es hc ih =>
    intro s s' hb hn e ha hg
    obtain ⟨s1, e1, e2⟩ := Option.bind_eq_some_iff.mp e
    rw [spoilt_skip (fun _ _ h => by cases h)]
    by_cases hr : r.has l = true
    · rw [hit_read hr] at e1
      obtain ⟨x, _, rfl, _⟩ := treeRead_was e1
      exact ih (hb.map (readMap_steady _)) hn.tail e2 (ha.map (readMap_steady _)) (hg.read _)
    · rw [miss_read hr] at e1
      cases e1
      exact ih hb hn.tail e2 ha hg
  | @write t t' u r es hc ih =>
    intro s s' hb hn e ha hg
    obtain ⟨s1, e1, e2⟩ := Option.bind_eq_some_iff.mp e
    by_cases hr : r.has l = true
    · rw [hit_write hr] at e1
      by_cases hu : u = g
      · subst hu
        rw [spoilt_own hr]
        have hs := busy_made e1
        obtain ⟨x, _, rfl, _⟩ := treeWrite_was e1
        obtain ⟨i1, i2⟩ := hc.busy (hb.map (writeMap_steady _)) hn.tail e2 (ha.map (writeMap_steady _)) hs
        exact ⟨fun h => .inr (i1 h), i2⟩
      · have hf := ha.write hu e1
        obtain ⟨x, _, rfl, _⟩ := treeWrite_was e1
        exact ⟨fun h => absurd (.inl ⟨u, r, .head _, hu, hr⟩) h,
          fun _ => hc.shut (hb.map (writeMap_steady _)) e2 (.inr hf)⟩
    · rw [spoilt_skip (fun _ _ h => by cases h; exact hr)]
      rw [miss_write hr] at e1
      cases e1
      exact ih hb hn.tail e2 ha hg
  | @retag t t' k u r es hc ih =>
    intro s s' hb hn e ha hg
    obtain ⟨s1, e1, e2⟩ := Option.bind_eq_some_iff.mp e
    rw [spoilt_skip (fun _ _ h => by cases h)]
    by_cases hr : r.has l = true
    · rw [hit_retag hr] at e1
      exact ih (hb.retag e1).1 hn.tail e2 (ha.retag hb (hn k u t r (.head _)) e1) (hg.retag hb e1)
    · rw [miss_retag hr] at e1
      cases e1
      exact ih hb.succ hn.tail e2 ha hg

theorem treeWrite_up {g : Nat} {s : List Node} (h : Up (fun m => m.state.mayWrite = true) g s) : ∃ s', treeWrite g s = some s' := by
  obtain ⟨n, h1, h2⟩ := h
  unfold treeWrite
  rw [h1]
  dsimp only
  rw [if_pos (List.all_eq_true.mpr fun m hm => by
    by_cases hl : m.id ∈ n.line
    · simpa [hl] using h2 m hm hl
    · simp [hl])]
  exact ⟨_, rfl⟩

theorem Idle.writes {g : Nat} {s : List Node} (hr : Grounded s) (h : Idle g s) : ∃ s', treeWrite g s = some s' := by
  obtain ⟨n, h1, h2⟩ := h
  refine treeWrite_up ⟨n, h1, fun m hm hl => ?_⟩
  rcases h2 m hm hl with e | e
  · show m.state.mayWrite = true
    rw [(hr.2 m hm).2 e]
    rfl
  · show m.state.mayWrite = true
    rw [e]
    rfl

theorem Busy.writes {g : Nat} {s : List Node} (h : Busy g s) : ∃ s', treeWrite g s = some s' := by
  obtain ⟨n, h1, h2⟩ := h
  refine treeWrite_up ⟨n, h1, fun m hm hl => ?_⟩
  have e : m.state = .active := h2 m hm hl
  show m.state.mayWrite = true
  rw [e]
  rfl

theorem Shut.unwritten {g : Nat} {s : List Node} (h : Shut g s) : treeWrite g s = none := by
  cases e : treeWrite g s with
  | none => rfl
  | some s' =>
    obtain ⟨x, h1, _, h2⟩ := treeWrite_was e
    rcases h with ⟨n, h3, h4, h5⟩ | ⟨n, h3, h4, h5⟩
    all_goals
      rw [h1] at h3
      cases h3
      have := h2 x (find_names h1).1 h4
      rw [h5] at this
      cases this

theorem start_rooted {p : Place} {l : Nat} (h : p.whole.has l = true) :
    Grounded (Tree.start (if p.whole.has l then ownerTag else dataTag)) := by
  rw [if_pos h]
  refine ⟨⟨⟨0, [0], [0], .active⟩, rfl, rfl⟩, fun m hm => ?_⟩
  rcases List.mem_singleton.mp hm with rfl
  exact ⟨.head _, fun _ => rfl⟩

theorem Grounded.free {s : List Node} (h : Grounded s) : Idle ownerTag s := by
  obtain ⟨⟨n, h1, h2⟩, _⟩ := h
  refine ⟨n, h1, fun m _ hl => .inl ?_⟩
  rw [h2] at hl
  exact List.mem_singleton.mp hl

theorem tree_put {p : Place} {es pre fs : List Event} {n₀ n n' u a : Nat} {r : Region} (he : Counts 2 es n₀)
    (hp : Counts n₀ pre n) (hf : Counts (n + 1) fs n') (hn : Childless n fs) (ha : r.has a = true)
    (hw : p.whole.has a = true) (ho : Owned a pre ownerTag u)
    (h : Defined Tree p ((es ++ pre ++ [.retag .excl u n r]) ++ fs)) :
    Defined Tree p ((es ++ pre ++ [.retag .excl u n r]) ++ fs ++ [.write n ⟨a, 1⟩]) ↔ ¬ Spoilt n fs a := by
  obtain ⟨s', hs⟩ := h a
  have hs0 := hs
  rw [runAt_append, runAt_append, runAt_append] at hs
  obtain ⟨s1, h1, h2⟩ := Option.bind_eq_some_iff.mp hs
  obtain ⟨s0, h3, h4⟩ := Option.bind_eq_some_iff.mp h1
  obtain ⟨s2, h5, h6⟩ := Option.bind_eq_some_iff.mp h4
  cases h6
  obtain ⟨s3, h7, h8⟩ := Option.bind_eq_some_iff.mp h3
  rw [hit_retag ha] at h5
  have hb0 := he.bounded (start_bounded p a) h7
  have hr0 := he.rooted (Nat.le_refl 2) (start_bounded p a) h7 (start_rooted hw)
  have hb := hp.bounded hb0 h8
  have hr1 := hp.rooted he.le hb0 h8 hr0
  have hfree := ho.free hp hb0 h8 hr0.free
  have hb1 := (Bounded.retag (k := .excl) (p := u) hb h5).1
  have hr2 := Grounded.retag (k := .excl) (p := u) (Nat.le_trans he.le hp.le) hb hr1 h5
  have hfree1 := Idle.step (k := .excl) (p := u) (fun h => nomatch h) hb hfree h5
  have hr3 := hf.rooted (Nat.le_succ_of_le (Nat.le_trans he.le hp.le)) hb1 h2 hr2
  obtain ⟨k1, k2⟩ := hf.put hb1 hn h2 (Bounded.made_mut (p := u) hb h5).2 hfree1
  refine ⟨fun hd hw => ?_, fun hw l => ?_⟩
  · obtain ⟨s3, h7⟩ := hd a
    rw [runAt_append, hs0, Option.bind_some] at h7
    obtain ⟨s4, h8, _⟩ := Option.bind_eq_some_iff.mp h7
    rw [hit_write (one_has a)] at h8
    have h9 : treeWrite n s' = some s4 := h8
    rw [(k2 hw).unwritten] at h9
    cases h9
  · obtain ⟨s5, h9⟩ := h l
    rw [runAt_append, h9, Option.bind_some]
    by_cases hl : (⟨a, 1⟩ : Region).has l = true
    · have : l = a := by
        rw [has_iff] at hl
        simp only at hl
        omega
      subst this
      rw [hs0] at h9
      cases h9
      obtain ⟨s4, h8⟩ := (k1 hw).elim (Idle.writes hr3) Busy.writes
      exact ⟨_, runAt_cons ((hit_write hl).trans h8)⟩
    · exact ⟨_, runAt_cons (miss_write hl)⟩

variable {σ κ : Type} (D : MutDevice σ κ)

/-- What a call returned last as a `&mut` may be put to until it is spoilt. -/
theorem MutDevice.putTo {o : σ} {cs ds : List κ} {c : κ} {i u : Nat} {pre : List Event} {x : Held} {r : Region}
    (h0 : D.next o = 2)
    (n : Nat) (hp : Counts (D.next (D.after o cs)) pre n) (he : (D.go (D.after o cs) c).2 = pre ++ [.retag .excl u n r])
    (hn : D.next (D.go (D.after o cs) c).1 = n + 1)
    (hh : D.held (D.go (D.after o cs) c).1 = D.held (D.after o cs) ++ [⟨n, r⟩]) {p : Place}
    (hx : (D.held (D.go (D.after o cs) c).1)[(D.held (D.after o cs)).length]? = some x) (hi : i < x.r.size)
    (hw : p.whole.has (x.r.lo + i) = true) (ho : Owned (x.r.lo + i) pre ownerTag u)
    (h : Defined Tree p (D.events o (cs ++ c :: ds))) :
    Defined Tree p (D.events o (cs ++ c :: (ds ++ [D.set (D.held (D.after o cs)).length i]))) ↔
      ¬ Spoilt x.tag (D.events (D.go (D.after o cs) c).1 ds) (x.r.lo + i) := by
  have : x = ⟨n, r⟩ := by
    rw [hh] at hx
    simpa using hx.symm
  subst this
  have e0 : ∀ fs, D.events o (cs ++ c :: fs) = (D.events o cs ++ pre ++ [.retag .excl u n r]) ++
      D.events (D.go (D.after o cs) c).1 fs := fun fs => by
    rw [D.events_append]
    show _ ++ ((D.go (D.after o cs) c).2 ++ _) = _
    rw [he]
    simp only [List.append_assoc]
  have hc : Counts 2 (D.events o cs) (D.next (D.after o cs)) := h0 ▸ D.events_counts o cs
  have hf : Counts (n + 1) (D.events (D.go (D.after o cs) c).1 ds) (D.next (D.after (D.go (D.after o cs) c).1 ds)) :=
    hn ▸ D.events_counts _ ds
  have hl : Childless n (D.events (D.go (D.after o cs) c).1 ds) :=
    D.childless (Nat.le_trans hc.le hp.le) _ ds (by rw [hn]; exact Nat.lt_succ_self n)
  have ha : r.has (r.lo + i) = true := by
    rw [has_iff]
    exact ⟨Nat.le_add_right _ _, Nat.add_lt_add_left hi _⟩
  rw [e0] at h
  rw [e0, D.events_append, D.put (D.still hx ds), ← List.append_assoc]
  exact tree_put hc hp hf hl ha hw ho h

theorem whole_of_buf {p : Place} {a : Nat} (h : p.buf.has a = true) : p.whole.has a = true := by
  rw [has_iff] at *
  exact ⟨h.1, Nat.lt_succ_of_lt h.2⟩

theorem held_last {hs : List Held} {x y : Held} (h : (hs ++ [y])[hs.length]? = some x) : x = y := by
  simpa using h.symm

end Oct.Alias
