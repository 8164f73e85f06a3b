import Verif.Proofs.TreeBorrows
/-
What becomes of references under Tree Borrows, in programs of which nothing is known but that new tags are new.
-/
namespace Oct.Alias
open Spec Sound

/-- Tags are made in order from `t` to `t'`. -/
inductive Counts : Nat → List Event → Nat → Prop where
  | nil {t} : Counts t [] t
  | read {t t' u r es} : Counts t es t' → Counts t (.read u r :: es) t'
  | write {t t' u r es} : Counts t es t' → Counts t (.write u r :: es) t'
  | retag {t t' k u r es} : Counts (t + 1) es t' → Counts t (.retag k u t r :: es) t'

theorem Counts.append {t t₁ t' : Nat} {es fs : List Event} (h : Counts t es t₁) (h' : Counts t₁ fs t') :
    Counts t (es ++ fs) t' := by
  induction h with
  | nil => exact h'
  | read _ ih => exact .read (ih h')
  | write _ ih => exact .write (ih h')
  | retag _ ih => exact .retag (ih h')

/-- Tags from `t` on are not in use. -/
def Bounded (t : Nat) (s : List Node) : Prop := ∀ m ∈ s, m.id < t ∧ (∀ x ∈ m.names, x < t) ∧ (∀ x ∈ m.line, x < t)

theorem Bounded.start {r t : Nat} (h : r < t) : Bounded t (Tree.start r) := fun m hm => by
  rcases List.mem_singleton.mp hm with rfl
  exact ⟨h, fun x hx => by rcases List.mem_singleton.mp hx with rfl; exact h,
    fun x hx => by rcases List.mem_singleton.mp hx with rfl; exact h⟩

theorem Bounded.map {t : Nat} {s : List Node} {f : Node → Node} (hf : Steady f) (h : Bounded t s) : Bounded t (s.map f) :=
  fun m hm => by
    obtain ⟨m', hm', rfl⟩ := List.mem_map.mp hm
    rw [(hf m').1, (hf m').2.1, (hf m').2.2]
    exact h m' hm'

theorem Bounded.push {t : Nat} {s : List Node} {st : State} {line : List Nat} (h : Bounded t s) (hl : ∀ x ∈ line, x < t) :
    Bounded (t + 1) (⟨t, [t], t :: line, st⟩ :: s) := fun m hm => by
  rcases List.mem_cons.mp hm with rfl | hm
  · refine ⟨Nat.lt_succ_self t, fun x hx => ?_, fun x hx => ?_⟩
    · rcases List.mem_singleton.mp hx with rfl
      exact Nat.lt_succ_self _
    · rcases List.mem_cons.mp hx with rfl | hx
      · exact Nat.lt_succ_self _
      · exact Nat.lt_succ_of_lt (hl x hx)
  · obtain ⟨h1, h2, h3⟩ := h m hm
    exact ⟨Nat.lt_succ_of_lt h1, fun x hx => Nat.lt_succ_of_lt (h2 x hx), fun x hx => Nat.lt_succ_of_lt (h3 x hx)⟩

theorem treeRead_was {h : Nat} {s s' : List Node} (e : treeRead h s = some s') :
    ∃ x, find h s = some x ∧ s' = s.map (readMap x.line) ∧ ∀ m ∈ s, m.id ∈ x.line → m.state.mayRead = true := by
  unfold treeRead at e
  cases hx : find h s with
  | none => rw [hx] at e; cases e
  | some x =>
    rw [hx] at e
    dsimp only at e
    split at e
    · rename_i ha
      cases e
      refine ⟨x, rfl, rfl, fun m hm hl => ?_⟩
      have := List.all_eq_true.mp ha m hm
      simpa [hl] using this
    · cases e

theorem treeWrite_was {h : Nat} {s s' : List Node} (e : treeWrite h s = some s') :
    ∃ x, find h s = some x ∧ s' = s.map (writeMap x.line) ∧ ∀ m ∈ s, m.id ∈ x.line → m.state.mayWrite = true := by
  unfold treeWrite at e
  cases hx : find h s with
  | none => rw [hx] at e; cases e
  | some x =>
    rw [hx] at e
    dsimp only at e
    split at e
    · rename_i ha
      cases e
      refine ⟨x, rfl, rfl, fun m hm hl => ?_⟩
      have := List.all_eq_true.mp ha m hm
      simpa [hl] using this
    · cases e

theorem treeRead_see {h : Nat} {s s' : List Node} (e : treeRead h s = some s') : treeSee h s := by
  obtain ⟨x, h1, _, h2⟩ := treeRead_was e
  exact ⟨x, h1, h2⟩

/-- The pointer is this one, in this state. -/
def Has (st : State) (g : Nat) (s : List Node) : Prop := ∃ n, find g s = some n ∧ n.id ∈ n.line ∧ n.state = st

theorem Has.read {st : State} {g : Nat} {s : List Node} (line : List Nat) (hst : st.foreignRead = st) (h : Has st g s) :
    Has st g (s.map (readMap line)) := by
  obtain ⟨n, h1, h2, h3⟩ := h
  refine ⟨readMap line n, by rw [find_map fun m => (readMap_steady line m).2.1, h1]; rfl, ?_, ?_⟩
  · rw [(readMap_steady line n).1, (readMap_steady line n).2.2]
    exact h2
  · unfold readMap
    split
    · exact h3
    · show n.state.foreignRead = st
      rw [h3, hst]

/-- Whoever writes, what may not write is disabled. -/
theorem Has.write {st : State} {g h : Nat} {s s' : List Node} (hst : st.mayWrite = false) (hg : Has st g s)
    (e : treeWrite h s = some s') : Has .disabled g s' := by
  obtain ⟨n, h1, h2, h3⟩ := hg
  obtain ⟨x, _, rfl, h4⟩ := treeWrite_was e
  refine ⟨writeMap x.line n, by rw [find_map fun m => (writeMap_steady _ m).2.1, h1]; rfl, h2, ?_⟩
  have : n.id ∉ x.line := fun hl => by
    have := h4 n (find_names h1).1 hl
    rw [h3, hst] at this
    cases this
  show (if n.id ∈ x.line then State.active else .disabled) = _
  rw [if_neg this]

theorem Has.unread {g : Nat} {s : List Node} (h : Has .disabled g s) : treeRead g s = none := by
  cases e : treeRead g s with
  | none => rfl
  | some s' =>
    obtain ⟨x, h1, _, h2⟩ := treeRead_was e
    obtain ⟨n, h3, h4, h5⟩ := h
    rw [h1] at h3
    cases h3
    have := h2 x (find_names h1).1 h4
    rw [h5] at this
    cases this

/-- A pointer stays the same when another one is made. -/
theorem find_newer {t g : Nat} {s : List Node} {x y : Node} (hs : Bounded t s) (hx : x.names = [t]) (hg : find g s = some y) :
    find g (x :: s) = some y := by
  have := (hs y (find_names hg).1).2.1 g (find_names hg).2
  unfold find at *
  rw [List.find?_cons, hx, show decide (g ∈ [t]) = false by simp; omega]
  exact hg

theorem Bounded.up {t g : Nat} {s : List Node} (hs : Bounded t s) {x : Node} (hi : x.id = t) (hx : x.names = [t])
    {P : Node → Prop} (hu : Up P g s) : Up P g (x :: s) := by
  obtain ⟨y, h1, h2⟩ := hu
  refine ⟨y, find_newer hs hx h1, fun m hm hl => ?_⟩
  rcases List.mem_cons.mp hm with rfl | hm
  · have := (hs y (find_names h1).1).2.2 _ hl
    omega
  · exact h2 m hm hl

theorem Bounded.has {t g : Nat} {st : State} {s : List Node} (hs : Bounded t s) {x : Node} (hx : x.names = [t])
    (h : Has st g s) : Has st g (x :: s) := by
  obtain ⟨y, h1, h2⟩ := h
  exact ⟨y, find_newer hs hx h1, h2⟩

/-- A raw pointer is made. -/
def addName (p q : Nat) (m : Node) : Node := if p ∈ m.names then { m with names := q :: m.names } else m

theorem addName_rest (p q : Nat) (m : Node) : (addName p q m).id = m.id ∧ (addName p q m).line = m.line ∧
    (addName p q m).state = m.state := by
  unfold addName
  split <;> exact ⟨rfl, rfl, rfl⟩

theorem addName_names {p q g : Nat} (h : g ≠ q) (m : Node) : g ∈ (addName p q m).names ↔ g ∈ m.names := by
  unfold addName
  split
  · exact ⟨fun hm => (List.mem_cons.mp hm).resolve_left h, fun hm => .tail _ hm⟩
  · exact Iff.rfl

theorem find_addName {p q g : Nat} (h : g ≠ q) (s : List Node) : find g (s.map (addName p q)) = (find g s).map (addName p q) := by
  unfold find
  rw [List.find?_map]
  congr 2
  funext m
  exact decide_eq_decide.mpr (addName_names h m)

theorem Bounded.raw {t p : Nat} {s : List Node} (h : Bounded t s) : Bounded (t + 1) (s.map (addName p t)) := fun m hm => by
  obtain ⟨m', hm', rfl⟩ := List.mem_map.mp hm
  obtain ⟨h1, h2, h3⟩ := h m' hm'
  rw [(addName_rest p t m').1, (addName_rest p t m').2.1]
  refine ⟨Nat.lt_succ_of_lt h1, fun x hx => ?_, fun x hx => Nat.lt_succ_of_lt (h3 x hx)⟩
  by_cases e : x = t
  · exact e ▸ Nat.lt_succ_self t
  · exact Nat.lt_succ_of_lt (h2 x ((addName_names e m').mp hx))

theorem Bounded.old {t g : Nat} {s : List Node} {y : Node} (h : Bounded t s) (hg : find g s = some y) : g ≠ t :=
  Nat.ne_of_lt ((h y (find_names hg).1).2.1 g (find_names hg).2)

theorem Bounded.raw_see {t p g : Nat} {s : List Node} (h : Bounded t s) (hg : treeSee g s) :
    treeSee g (s.map (addName p t)) := by
  obtain ⟨y, h1, h2⟩ := hg
  refine ⟨addName p t y, by rw [find_addName (h.old h1), h1]; rfl, fun m hm hl => ?_⟩
  obtain ⟨m', hm', rfl⟩ := List.mem_map.mp hm
  rw [(addName_rest p t y).2.1, (addName_rest p t m').1] at hl
  show (addName p t m').state.mayRead = true
  rw [(addName_rest p t m').2.2]
  exact h2 m' hm' hl

theorem Bounded.raw_has {t p g : Nat} {st : State} {s : List Node} (h : Bounded t s) (hg : Has st g s) :
    Has st g (s.map (addName p t)) := by
  obtain ⟨y, h1, h2, h3⟩ := hg
  refine ⟨addName p t y, by rw [find_addName (h.old h1), h1]; rfl, ?_, (addName_rest p t y).2.2.trans h3⟩
  rw [(addName_rest p t y).1, (addName_rest p t y).2.1]
  exact h2

/-- What is new is in one of these states. -/
def newState : Kind → State
  | .excl => .reserved
  | _ => .frozen

theorem treeRetag_some {k : Kind} {p q : Nat} {s s' : List Node} (e : treeRetag k p q s = some s') :
    (k = .raw ∧ s' = s.map (addName p q)) ∨ (k ≠ .raw ∧ ∃ x s1, find p s = some x ∧ treeRead p s = some s1 ∧
      s' = ⟨q, [q], q :: x.line, newState k⟩ :: s1) := by
  cases k with
  | raw =>
    simp only [treeRetag] at e
    split at e
    · cases e
    · cases e
      exact .inl ⟨rfl, rfl⟩
  | excl =>
    simp only [treeRetag] at e
    split at e
    · cases e
    · rename_i x hx
      obtain ⟨s1, h1, rfl⟩ := Option.map_eq_some_iff.mp e
      exact .inr ⟨(fun h => nomatch h), x, s1, hx, h1, rfl⟩
  | shared =>
    simp only [treeRetag] at e
    split at e
    · cases e
    · rename_i x hx
      obtain ⟨s1, h1, rfl⟩ := Option.map_eq_some_iff.mp e
      exact .inr ⟨(fun h => nomatch h), x, s1, hx, h1, rfl⟩

theorem Bounded.retag {k : Kind} {p t : Nat} {s s' : List Node} (hb : Bounded t s) (e : treeRetag k p t s = some s') :
    Bounded (t + 1) s' ∧ (∀ g, treeSee g s → treeSee g s') ∧
      ∀ g st, st.foreignRead = st → Has st g s → Has st g s' := by
  rcases treeRetag_some e with ⟨_, rfl⟩ | ⟨_, x, s1, hx, h1, rfl⟩
  · exact ⟨hb.raw, fun g => hb.raw_see, fun g st _ => hb.raw_has⟩
  · obtain ⟨y, h2, rfl, _⟩ := treeRead_was h1
    have hb1 : Bounded t (s.map (readMap y.line)) := hb.map (readMap_steady _)
    exact ⟨hb1.push (hb x (find_names hx).1).2.2, fun g hg => hb1.up rfl rfl (Up.read_see _ hg),
      fun g st hst hg => hb1.has rfl (hg.read _ hst)⟩

/-- What a reference that was just made is. -/
theorem Bounded.made {p t : Nat} {s s' : List Node} (hb : Bounded t s) (e : treeRetag .shared p t s = some s') :
    treeSee t s' ∧ Has .frozen t s' := by
  rcases treeRetag_some e with ⟨h, _⟩ | ⟨_, x, s1, hx, h1, rfl⟩
  · cases h
  obtain ⟨y, h2, rfl, h3⟩ := treeRead_was h1
  rw [hx] at h2
  cases h2
  have hf : find t ((⟨t, [t], t :: x.line, newState .shared⟩ : Node) :: s.map (readMap x.line)) =
      some ⟨t, [t], t :: x.line, newState .shared⟩ := by
    unfold find
    rw [List.find?_cons]
    simp
  refine ⟨⟨_, hf, fun m hm hl => ?_⟩, _, hf, .head _, rfl⟩
  rcases List.mem_cons.mp hm with rfl | hm
  · rfl
  · obtain ⟨m', hm', rfl⟩ := List.mem_map.mp hm
    rw [(readMap_steady x.line m').1] at hl
    refine readMap_see _ _ (h3 m' hm' ?_)
    rcases List.mem_cons.mp hl with e | hl
    · have := (hb m' hm').1
      omega
    · exact hl

variable {l : Nat}

/-- Tags stay new. -/
theorem Counts.bounded {t t' : Nat} {es : List Event} (hc : Counts t es t') : ∀ {s s' : List Node}, Bounded t s →
    runAt Tree l es s = some s' → Bounded t' s' := by
  induction hc with
  | nil => intro s s' hb e; cases e; exact hb
  | @read t t' u r es _ ih =>
    intro s s' hb e
    obtain ⟨s1, e1, e2⟩ := Option.bind_eq_some_iff.mp e
    refine ih ?_ e2
    by_cases hr : r.has l = true
    · rw [hit_read hr] at e1
      obtain ⟨x, _, rfl, _⟩ := treeRead_was e1
      exact hb.map (readMap_steady _)
    · rw [miss_read hr] at e1
      cases e1
      exact hb
  | @write t t' u r es _ ih =>
    intro s s' hb e
    obtain ⟨s1, e1, e2⟩ := Option.bind_eq_some_iff.mp e
    refine ih ?_ e2
    by_cases hr : r.has l = true
    · rw [hit_write hr] at e1
      obtain ⟨x, _, rfl, _⟩ := treeWrite_was e1
      exact hb.map (writeMap_steady _)
    · rw [miss_write hr] at e1
      cases e1
      exact hb
  | @retag t t' k u r es _ ih =>
    intro s s' hb e
    obtain ⟨s1, e1, e2⟩ := Option.bind_eq_some_iff.mp e
    refine ih ?_ e2
    by_cases hr : r.has l = true
    · rw [hit_retag hr] at e1
      exact (hb.retag e1).1
    · rw [miss_retag hr] at e1
      cases e1
      exact fun m hm => ⟨Nat.lt_succ_of_lt (hb m hm).1, fun x hx => Nat.lt_succ_of_lt ((hb m hm).2.1 x hx),
        fun x hx => Nat.lt_succ_of_lt ((hb m hm).2.2 x hx)⟩

theorem Bounded.succ {t : Nat} {s : List Node} (hb : Bounded t s) : Bounded (t + 1) s := fun m hm =>
  ⟨Nat.lt_succ_of_lt (hb m hm).1, fun x hx => Nat.lt_succ_of_lt ((hb m hm).2.1 x hx),
    fun x hx => Nat.lt_succ_of_lt ((hb m hm).2.2 x hx)⟩

theorem WrittenAt.tail {e : Event} {es : List Event} (h : WrittenAt es l) : WrittenAt (e :: es) l := by
  obtain ⟨a, b, h1, h2⟩ := h
  exact ⟨a, b, .tail _ h1, h2⟩

/-- Until something is written, what may be read may be read; and what is frozen is so. -/
theorem Counts.kept {t t' : Nat} {es : List Event} (hc : Counts t es t') : ∀ {s s' : List Node}, Bounded t s →
    runAt Tree l es s = some s' → ¬ WrittenAt es l →
    (∀ g, treeSee g s → treeSee g s') ∧ ∀ g, Has .frozen g s → Has .frozen g s' := by
  induction hc with
  | nil => intro s s' hb e _; cases e; exact ⟨fun _ h => h, fun _ h => h⟩
  | @read t t' u r es _ ih =>
    intro s s' hb e hw
    obtain ⟨s1, e1, e2⟩ := Option.bind_eq_some_iff.mp e
    by_cases hr : r.has l = true
    · rw [hit_read hr] at e1
      obtain ⟨x, _, rfl, _⟩ := treeRead_was e1
      have := ih (hb.map (readMap_steady _)) e2 fun h => hw (WrittenAt.tail h)
      exact ⟨fun g hg => this.1 g (Up.read_see _ hg), fun g hg => this.2 g (hg.read _ rfl)⟩
    · rw [miss_read hr] at e1
      cases e1
      exact ih hb e2 fun h => hw (WrittenAt.tail h)
  | @write t t' u r es _ ih =>
    intro s s' hb e hw
    obtain ⟨s1, e1, e2⟩ := Option.bind_eq_some_iff.mp e
    have hr : ¬ r.has l = true := fun hr => hw ⟨u, r, .head _, hr⟩
    rw [miss_write hr] at e1
    cases e1
    exact ih hb e2 fun h => hw (WrittenAt.tail h)
  | @retag t t' k u r es _ ih =>
    intro s s' hb e hw
    obtain ⟨s1, e1, e2⟩ := Option.bind_eq_some_iff.mp e
    by_cases hr : r.has l = true
    · rw [hit_retag hr] at e1
      obtain ⟨h1, h2, h3⟩ := hb.retag e1
      have := ih h1 e2 fun h => hw (WrittenAt.tail h)
      exact ⟨fun g hg => this.1 g (h2 g hg), fun g hg => this.2 g (h3 g _ rfl hg)⟩
    · rw [miss_retag hr] at e1
      cases e1
      exact ih hb.succ e2 fun h => hw (WrittenAt.tail h)

/-- What is disabled stays so. -/
theorem Counts.disabled {t t' : Nat} {es : List Event} (hc : Counts t es t') : ∀ {s s' : List Node}, Bounded t s →
    runAt Tree l es s = some s' → ∀ g, Has .disabled g s → Has .disabled g s' := by
  induction hc with
  | nil => intro s s' hb e g h; cases e; exact h
  | @read t t' u r es _ ih =>
    intro s s' hb e g hg
    obtain ⟨s1, e1, e2⟩ := Option.bind_eq_some_iff.mp e
    by_cases hr : r.has l = true
    · rw [hit_read hr] at e1
      obtain ⟨x, _, rfl, _⟩ := treeRead_was e1
      exact ih (hb.map (readMap_steady _)) e2 g (hg.read _ rfl)
    · rw [miss_read hr] at e1
      cases e1
      exact ih hb e2 g hg
  | @write t t' u r es _ ih =>
    intro s s' hb e g hg
    obtain ⟨s1, e1, e2⟩ := Option.bind_eq_some_iff.mp e
    by_cases hr : r.has l = true
    · rw [hit_write hr] at e1
      have hg' := hg.write rfl e1
      obtain ⟨x, _, rfl, _⟩ := treeWrite_was e1
      exact ih (hb.map (writeMap_steady _)) e2 g hg'
    · rw [miss_write hr] at e1
      cases e1
      exact ih hb e2 g hg
  | @retag t t' k u r es _ ih =>
    intro s s' hb e g hg
    obtain ⟨s1, e1, e2⟩ := Option.bind_eq_some_iff.mp e
    by_cases hr : r.has l = true
    · rw [hit_retag hr] at e1
      obtain ⟨h1, _, h3⟩ := hb.retag e1
      exact ih h1 e2 g (h3 g _ rfl hg)
    · rw [miss_retag hr] at e1
      cases e1
      exact ih hb.succ e2 g hg

/-- What is frozen is disabled once something is written. -/
theorem Counts.ended {t t' : Nat} {es : List Event} (hc : Counts t es t') : ∀ {s s' : List Node}, Bounded t s →
    runAt Tree l es s = some s' → WrittenAt es l → ∀ g, Has .frozen g s → Has .disabled g s' := by
  induction hc with
  | nil =>
    intro s s' hb e hw
    obtain ⟨_, _, h, _⟩ := hw
    cases h
  | @read t t' u r es _ ih =>
    intro s s' hb e hw g hg
    obtain ⟨s1, e1, e2⟩ := Option.bind_eq_some_iff.mp e
    have hw' : WrittenAt es l := by
      obtain ⟨a, b, h1, h2⟩ := hw
      cases h1 with
      | tail _ h1 => exact ⟨a, b, h1, h2⟩
    by_cases hr : r.has l = true
    · rw [hit_read hr] at e1
      obtain ⟨x, _, rfl, _⟩ := treeRead_was e1
      exact ih (hb.map (readMap_steady _)) e2 hw' g (hg.read _ rfl)
    · rw [miss_read hr] at e1
      cases e1
      exact ih hb e2 hw' g hg
  | @write t t' u r es hc ih =>
    intro s s' hb e hw g hg
    obtain ⟨s1, e1, e2⟩ := Option.bind_eq_some_iff.mp e
    by_cases hr : r.has l = true
    · rw [hit_write hr] at e1
      have hg' := hg.write rfl e1
      obtain ⟨x, _, rfl, _⟩ := treeWrite_was e1
      exact hc.disabled (hb.map (writeMap_steady _)) e2 g hg'
    · rw [miss_write hr] at e1
      cases e1
      refine ih hb e2 ?_ g hg
      obtain ⟨a, b, h1, h2⟩ := hw
      cases h1 with
      | head => exact absurd h2 hr
      | tail _ h1 => exact ⟨a, b, h1, h2⟩
  | @retag t t' k u r es _ ih =>
    intro s s' hb e hw g hg
    obtain ⟨s1, e1, e2⟩ := Option.bind_eq_some_iff.mp e
    have hw' : WrittenAt es l := by
      obtain ⟨a, b, h1, h2⟩ := hw
      cases h1 with
      | tail _ h1 => exact ⟨a, b, h1, h2⟩
    by_cases hr : r.has l = true
    · rw [hit_retag hr] at e1
      obtain ⟨h1, _, h3⟩ := hb.retag e1
      exact ih h1 e2 hw' g (h3 g _ rfl hg)
    · rw [miss_retag hr] at e1
      cases e1
      exact ih hb.succ e2 hw' g hg

/-! Whole programs. -/

theorem start_bounded (p : Place) (l : Nat) : Bounded 2 (Tree.start (if p.whole.has l then ownerTag else dataTag)) :=
  .start (by split <;> decide)

theorem defined_before {σ : Type} {R : Rules σ} {p : Place} {es fs : List Event} (h : Defined R p (es ++ fs)) : Defined R p es :=
  fun l => by
    obtain ⟨s', hs⟩ := h l
    rw [runAt_append] at hs
    obtain ⟨s, h1, _⟩ := Option.bind_eq_some_iff.mp hs
    exact ⟨s, h1⟩

/-- One read more is defined if it is at its location. -/
theorem defined_then {p : Place} {es : List Event} {g a : Nat} (h : Defined Tree p es)
    (hr : ∀ s, runAt Tree a es (Tree.start (if p.whole.has a then ownerTag else dataTag)) = some s → treeSee g s) :
    Defined Tree p (es ++ [.read g ⟨a, 1⟩]) := fun l => by
  obtain ⟨s, hs⟩ := h l
  rw [runAt_append, hs, Option.bind_some]
  by_cases ha : (⟨a, 1⟩ : Region).has l = true
  · have : l = a := by
      rw [has_iff] at ha
      simp only at ha
      omega
    subst this
    obtain ⟨n, _, h2⟩ := tree_read (hr s hs)
    exact ⟨_, runAt_cons ((hit_read ha).trans h2)⟩
  · exact ⟨_, runAt_cons (miss_read ha)⟩

theorem one_has (a : Nat) : (⟨a, 1⟩ : Region).has a = true := by
  rw [has_iff]
  simp only
  omega

theorem then_see {p : Place} {es : List Event} {g a : Nat} (h : Defined Tree p (es ++ [.read g ⟨a, 1⟩])) :
    ∃ s, runAt Tree a es (Tree.start (if p.whole.has a then ownerTag else dataTag)) = some s ∧ treeSee g s := by
  obtain ⟨s', hs⟩ := h a
  rw [runAt_append] at hs
  obtain ⟨s, h1, h2⟩ := Option.bind_eq_some_iff.mp hs
  obtain ⟨s2, h3, _⟩ := Option.bind_eq_some_iff.mp h2
  rw [hit_read (one_has a)] at h3
  exact ⟨s, h1, treeRead_see h3⟩

/-- What may be read may be read for as long as nothing is written there. -/
theorem tree_kept {p : Place} {es fs : List Event} {n n' g a : Nat} (he : Counts 2 es n) (hf : Counts n fs n')
    (h : Defined Tree p (es ++ fs)) (hr : Defined Tree p (es ++ [.read g ⟨a, 1⟩])) (hw : ¬ WrittenAt fs a) :
    Defined Tree p (es ++ fs ++ [.read g ⟨a, 1⟩]) := by
  refine defined_then h fun s hs => ?_
  obtain ⟨s0, h0, see⟩ := then_see hr
  rw [runAt_append, h0, Option.bind_some] at hs
  exact (hf.kept (he.bounded (start_bounded p a) h0) hs hw).1 g see

/-- A shared reference may be read exactly for as long as nothing is written there. -/
theorem tree_exactly {p : Place} {es fs : List Event} {n n' u a : Nat} {r : Region} (he : Counts 2 es n)
    (hf : Counts (n + 1) fs n') (ha : r.has a = true) (h : Defined Tree p ((es ++ [.retag .shared u n r]) ++ fs)) :
    Defined Tree p ((es ++ [.retag .shared u n r]) ++ fs ++ [.read n ⟨a, 1⟩]) ↔ ¬ WrittenAt fs a := by
  obtain ⟨s', hs⟩ := h a
  rw [runAt_append, runAt_append] at hs
  obtain ⟨s1, h1, h2⟩ := Option.bind_eq_some_iff.mp hs
  obtain ⟨s0, h3, h4⟩ := Option.bind_eq_some_iff.mp h1
  obtain ⟨s2, h5, h6⟩ := Option.bind_eq_some_iff.mp h4
  cases h6
  rw [hit_retag ha] at h5
  have hb := he.bounded (start_bounded p a) h3
  obtain ⟨m1, m2⟩ := hb.made h5
  have hb1 := (Bounded.retag (k := .shared) (p := u) hb h5).1
  have run : runAt Tree a (es ++ [.retag .shared u n r]) (Tree.start (if p.whole.has a then ownerTag else dataTag))
      = some s1 := by rw [runAt_append, h3, Option.bind_some, runAt_cons ((hit_retag ha).trans h5)]; rfl
  refine ⟨fun hd hw => ?_, fun hw => defined_then h fun s hs' => ?_⟩
  · obtain ⟨s3, h7, see⟩ := then_see hd
    rw [runAt_append, run, Option.bind_some, h2] at h7
    cases h7
    obtain ⟨_, _, h8⟩ := tree_read see
    rw [(hf.ended hb1 h2 hw n m2).unread] at h8
    cases h8
  · rw [runAt_append, run, Option.bind_some] at hs'
    exact (hf.kept hb1 hs' hw).1 n m1

end Oct.Alias
