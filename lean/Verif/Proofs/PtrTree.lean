import Verif.Proofs.MutPut
import Verif.Proofs.PtrKept
/-
What becomes of pointers made of exclusive references, under Tree Borrows: the two are one there.
-/
namespace Oct.Alias
open Spec Sound

/-- The pointer by which something happens, or of which one is made. -/
def Event.user : Event → Nat
  | .read t _ => t
  | .write t _ => t
  | .retag _ t _ _ => t

/-- `b` is not used. -/
def Untouched (b : Nat) (es : List Event) : Prop := ∀ e ∈ es, e.user ≠ b

theorem Untouched.tail {b : Nat} {e : Event} {es : List Event} (h : Untouched b (e :: es)) : Untouched b es :=
  fun e he => h e (.tail _ he)

variable {l : Nat}

/-- `g` is a pointer made of the reference `b`, and of neither was another made. -/
def Paired (b g : Nat) (s : List Node) : Prop := ∃ n, find g s = some n ∧ n.id = b ∧ b ∈ n.line ∧
  ∀ m ∈ s, b ∈ m.line → ∀ x ∈ m.names, x = g ∨ x = b

theorem Paired.map {b g : Nat} {s : List Node} {f : Node → Node} (hf : Steady f) (h : Paired b g s) : Paired b g (s.map f) := by
  obtain ⟨n, h1, h2, h3, h4⟩ := h
  refine ⟨f n, by rw [find_map fun m => (hf m).2.1, h1]; rfl, (hf n).1.trans h2, (hf n).2.2 ▸ h3, fun m hm => ?_⟩
  obtain ⟨m', hm', rfl⟩ := List.mem_map.mp hm
  rw [(hf m').2.1, (hf m').2.2]
  exact h4 m' hm'

theorem Paired.retag {b g p t : Nat} {k : Kind} {s s' : List Node} (hb : Bounded t s) (hp : p ≠ g) (hpb : p ≠ b) (h : Paired b g s)
    (e : treeRetag k p t s = some s') : Paired b g s' := by
  rcases treeRetag_some e with ⟨_, rfl⟩ | ⟨_, x, s1, hx, h1, rfl⟩
  · obtain ⟨n, h1, h2, h3, h4⟩ := h
    refine ⟨addName p t n, by rw [find_addName (hb.old h1), h1]; rfl, (addName_rest p t n).1.trans h2,
      (addName_rest p t n).2.1 ▸ h3, fun m hm hl x hx => ?_⟩
    obtain ⟨m', hm', rfl⟩ := List.mem_map.mp hm
    rw [(addName_rest p t m').2.1] at hl
    have h5 := h4 m' hm' hl
    unfold addName at hx
    split at hx
    · rename_i hpm
      exact ((h5 p hpm).elim hp hpb).elim
    · exact h5 x hx
  · obtain ⟨y, _, rfl, _⟩ := treeRead_was h1
    have hb1 : Bounded t (s.map (readMap y.line)) := hb.map (readMap_steady _)
    have ha := h.map (readMap_steady y.line)
    obtain ⟨n, h2, h3, h4, h5⟩ := ha
    refine ⟨n, find_newer hb1 rfl h2, h3, h4, fun m hm hl z hz => ?_⟩
    rcases List.mem_cons.mp hm with rfl | hm
    · exfalso
      rcases List.mem_cons.mp hl with e | hl
      · have := (hb1 n (find_names h2).1).1
        omega
      · obtain ⟨n', h6, _, _, h7⟩ := h
        exact (h7 x (find_names hx).1 hl p (find_names hx).2).elim hp hpb
    · exact h5 m hm hl z hz

theorem Paired.write {b g t : Nat} {s s' : List Node} (ht : t ≠ g) (htb : t ≠ b) (h : Paired b g s) (e : treeWrite t s = some s') :
    Has .disabled g s' := by
  obtain ⟨n, h1, h2, h3, h4⟩ := h
  obtain ⟨x, hx, rfl, _⟩ := treeWrite_was e
  refine ⟨writeMap x.line n, by rw [find_map fun m => (writeMap_steady _ m).2.1, h1]; rfl, ?_, ?_⟩
  · show n.id ∈ n.line
    rw [h2]
    exact h3
  · show (if n.id ∈ x.line then State.active else .disabled) = _
    rw [if_neg fun hl => (h4 x (find_names hx).1 (h2 ▸ hl) t (find_names hx).2).elim ht htb]

/-- It may be looked at until something else writes, and not after. -/
theorem Counts.paired {t t' b g : Nat} {es : List Event} (hc : Counts t es t') : ∀ {s s' : List Node}, Bounded t s →
    Childless g es → Untouched b es → runAt Tree l es s = some s' → Paired b g s → treeSee g s →
    (¬ OthersWrite g es l → treeSee g s') ∧ (OthersWrite g es l → Has .disabled g s') := by
  induction hc with
  | nil =>
    intro s s' _ _ _ e _ h
    cases e
    exact ⟨fun _ => h, fun ⟨_, _, h', _⟩ => nomatch h'⟩
  | @read t t' u r es hc ih =>
    intro s s' hb hn hm e hg hs
    obtain ⟨s1, e1, e2⟩ := Option.bind_eq_some_iff.mp e
    have go : (¬ OthersWrite g es l → treeSee g s') ∧ (OthersWrite g es l → Has .disabled g s') := by
      by_cases hr : r.has l = true
      · rw [hit_read hr] at e1
        obtain ⟨x, _, rfl, _⟩ := treeRead_was e1
        exact ih (hb.map (readMap_steady _)) hn.tail hm.tail e2 (hg.map (readMap_steady _)) (Up.read_see _ hs)
      · rw [miss_read hr] at e1
        cases e1
        exact ih hb hn.tail hm.tail e2 hg hs
    refine ⟨fun h => go.1 fun h' => h (OthersWrite.cons h'), fun ⟨a, b, h1, h2⟩ => go.2 ?_⟩
    cases h1 with
    | tail _ h1 => exact ⟨a, b, h1, h2⟩
  | @write t t' u r es hc ih =>
    intro s s' hb hn hm e hg hs
    obtain ⟨s1, e1, e2⟩ := Option.bind_eq_some_iff.mp e
    by_cases ho : u ≠ g ∧ r.has l = true
    · rw [hit_write ho.2] at e1
      have hd := hg.write ho.1 (hm _ (.head _)) e1
      obtain ⟨x, _, rfl, _⟩ := treeWrite_was e1
      exact ⟨fun h => absurd ⟨u, r, .head _, ho⟩ h, fun _ => hc.disabled (hb.map (writeMap_steady _)) e2 g hd⟩
    · have go : (¬ OthersWrite g es l → treeSee g s') ∧ (OthersWrite g es l → Has .disabled g s') := by
        by_cases hr : r.has l = true
        · have : u = g := Classical.byContradiction fun h => ho ⟨h, hr⟩
          subst this
          rw [hit_write hr] at e1
          have hs1 := write_own_see e1
          obtain ⟨x, _, rfl, _⟩ := treeWrite_was e1
          exact ih (hb.map (writeMap_steady _)) hn.tail hm.tail e2 (hg.map (writeMap_steady _)) hs1
        · rw [miss_write hr] at e1
          cases e1
          exact ih hb hn.tail hm.tail e2 hg hs
      refine ⟨fun h => go.1 fun h' => h (OthersWrite.cons h'), fun ⟨a, b, h1, h2⟩ => go.2 ?_⟩
      cases h1 with
      | head => exact absurd h2 ho
      | tail _ h1 => exact ⟨a, b, h1, h2⟩
  | @retag t t' k u r es hc ih =>
    intro s s' hb hn hm e hg hs
    obtain ⟨s1, e1, e2⟩ := Option.bind_eq_some_iff.mp e
    have go : (¬ OthersWrite g es l → treeSee g s') ∧ (OthersWrite g es l → Has .disabled g s') := by
      by_cases hr : r.has l = true
      · rw [hit_retag hr] at e1
        obtain ⟨h1, h2, _⟩ := hb.retag e1
        exact ih h1 hn.tail hm.tail e2 (hg.retag hb (hn k u t r (.head _)) (hm _ (.head _)) e1) (h2 g hs)
      · rw [miss_retag hr] at e1
        cases e1
        exact ih hb.succ hn.tail hm.tail e2 hg hs
    refine ⟨fun h => go.1 fun h' => h (OthersWrite.cons h'), fun ⟨a, b, h1, h2⟩ => go.2 ?_⟩
    cases h1 with
    | tail _ h1 => exact ⟨a, b, h1, h2⟩

theorem Busy.pair_read {b g u : Nat} {s s' : List Node} (hu : u ≠ g) (hub : u ≠ b) (ha : Paired b g s) (h : Busy g s)
    (e : treeRead u s = some s') : Has .frozen g s' := by
  obtain ⟨n, h1, h2, h3, h4⟩ := ha
  obtain ⟨n', h5, h6⟩ := h
  rw [h1] at h5
  cases h5
  obtain ⟨x, hx, rfl, _⟩ := treeRead_was e
  have hl : n.id ∉ x.line := fun hl => (h4 x (find_names hx).1 (h2 ▸ hl) u (find_names hx).2).elim hu hub
  refine ⟨readMap x.line n, by rw [find_map fun m => (readMap_steady _ m).2.1, h1]; rfl, ?_, ?_⟩
  · rw [(readMap_steady x.line n).1, (readMap_steady x.line n).2.2, h2]
    exact h3
  · unfold readMap
    rw [if_neg hl]
    show n.state.foreignRead = _
    have : n.state = .active := h6 n (find_names h1).1 (h2 ▸ h3)
    rw [this]
    rfl

theorem Busy.pair_retag {b g u t : Nat} {k : Kind} {s s' : List Node} (hk : k ≠ .raw) (hb : Bounded t s) (hu : u ≠ g) (hub : u ≠ b)
    (ha : Paired b g s) (h : Busy g s) (e : treeRetag k u t s = some s') : Has .frozen g s' := by
  rcases treeRetag_some e with ⟨h', _⟩ | ⟨_, x, s1, hx, h1, rfl⟩
  · exact absurd h' hk
  · have := h.pair_read hu hub ha h1
    obtain ⟨y, h2, rfl, _⟩ := treeRead_was h1
    exact (hb.map (readMap_steady _) : Bounded t (s.map (readMap y.line))).has rfl this

/-- Once it was put to, it may be put to until something else is used. -/
theorem Counts.pair_busy {t t' b g : Nat} {es : List Event} (hc : Counts t es t') : ∀ {s s' : List Node}, Bounded t s →
    Childless g es → Untouched b es → runAt Tree l es s = some s' → Paired b g s → Busy g s →
    (¬ OthersAt g es l → Busy g s') ∧ (OthersAt g es l → Shut g s') := by
  induction hc with
  | nil =>
    intro s s' _ _ _ e _ h
    cases e
    exact ⟨fun _ => h, fun ⟨_, h', _⟩ => nomatch h'⟩
  | @read t t' u r es hc ih =>
    intro s s' hb hn hm e ha hg
    obtain ⟨s1, e1, e2⟩ := Option.bind_eq_some_iff.mp e
    rw [OthersAt.cons_iff]
    by_cases ho : Other g l (.read u r)
    · rw [hit_read ho.2] at e1
      have hf := hg.pair_read ho.1 (hm _ (.head _)) ha e1
      obtain ⟨x, _, rfl, _⟩ := treeRead_was e1
      exact ⟨fun h => absurd (.inl ho) h, fun _ => hc.shut (hb.map (readMap_steady _)) e2 (.inl hf)⟩
    · have go : (¬ OthersAt g es l → Busy g s') ∧ (OthersAt g es l → Shut g s') := by
        by_cases hr : r.has l = true
        · have : u = g := Classical.byContradiction fun h => ho ⟨h, hr⟩
          subst this
          rw [hit_read hr] at e1
          have hs := hg.read_own e1
          obtain ⟨x, _, rfl, _⟩ := treeRead_was e1
          exact ih (hb.map (readMap_steady _)) hn.tail hm.tail e2 (ha.map (readMap_steady _)) hs
        · rw [miss_read hr] at e1
          cases e1
          exact ih hb hn.tail hm.tail e2 ha hg
      exact ⟨fun h => go.1 fun h' => h (.inr h'), fun h => go.2 (h.resolve_left ho)⟩
  | @write t t' u r es hc ih =>
    intro s s' hb hn hm e ha hg
    obtain ⟨s1, e1, e2⟩ := Option.bind_eq_some_iff.mp e
    rw [OthersAt.cons_iff]
    by_cases ho : Other g l (.write u r)
    · rw [hit_write ho.2] at e1
      have hf := ha.write ho.1 (hm _ (.head _)) e1
      obtain ⟨x, _, rfl, _⟩ := treeWrite_was e1
      exact ⟨fun h => absurd (.inl ho) h, fun _ => hc.shut (hb.map (writeMap_steady _)) e2 (.inr hf)⟩
    · have go : (¬ OthersAt g es l → Busy g s') ∧ (OthersAt g es l → Shut g s') := by
        by_cases hr : r.has l = true
        · have : u = g := Classical.byContradiction fun h => ho ⟨h, hr⟩
          subst this
          rw [hit_write hr] at e1
          have hs := busy_made e1
          obtain ⟨x, _, rfl, _⟩ := treeWrite_was e1
          exact ih (hb.map (writeMap_steady _)) hn.tail hm.tail e2 (ha.map (writeMap_steady _)) hs
        · rw [miss_write hr] at e1
          cases e1
          exact ih hb hn.tail hm.tail e2 ha hg
      exact ⟨fun h => go.1 fun h' => h (.inr h'), fun h => go.2 (h.resolve_left ho)⟩
  | @retag t t' k u r es hc ih =>
    intro s s' hb hn hm e ha hg
    obtain ⟨s1, e1, e2⟩ := Option.bind_eq_some_iff.mp e
    have hu : u ≠ g := hn k u t r (.head _)
    rw [OthersAt.cons_iff]
    by_cases ho : Other g l (.retag k u t r)
    · rw [hit_retag ho.2] at e1
      exact ⟨fun h => absurd (.inl ho) h, fun _ => hc.shut (hb.retag e1).1 e2 (.inl (hg.pair_retag ho.1 hb hu (hm _ (.head _)) ha e1))⟩
    · have go : (¬ OthersAt g es l → Busy g s') ∧ (OthersAt g es l → Shut g s') := by
        by_cases hr : r.has l = true
        · have : k = .raw := Classical.byContradiction fun h => ho ⟨h, hr⟩
          subst this
          rw [hit_retag hr] at e1
          exact ih (Bounded.retag (k := .raw) (p := u) hb e1).1 hn.tail hm.tail e2 (Paired.retag (k := .raw) (p := u) hb hu (hm _ (.head _)) ha e1) (hg.raw hb e1)
        · rw [miss_retag hr] at e1
          cases e1
          exact ih hb.succ hn.tail hm.tail e2 ha hg
      exact ⟨fun h => go.1 fun h' => h (.inr h'), fun h => go.2 (h.resolve_left ho)⟩

/-- It may be put to until it is spoilt. -/
theorem Counts.pair_put {t t' b g : Nat} {es : List Event} (hc : Counts t es t') : ∀ {s s' : List Node}, Bounded t s →
    Childless g es → Untouched b es → runAt Tree l es s = some s' → Paired b g s → Idle g s →
    (¬ Spoilt g es l → Idle g s' ∨ Busy g s') ∧ (Spoilt g es l → Shut g s') := by
  induction hc with
  | nil =>
    intro s s' _ _ _ e _ h
    cases e
    refine ⟨fun _ => .inl h, fun h' => ?_⟩
    rcases h' with ⟨_, _, h', _⟩ | ⟨fs, gs, h1, ⟨_, h2, _⟩, _⟩
    · cases h'
    · rw [(List.append_eq_nil_iff.mp h1.symm).1] at h2
      cases h2
  | @read t t' u r es hc ih =>
    intro s s' hb hn hm e ha hg
    obtain ⟨s1, e1, e2⟩ := Option.bind_eq_some_iff.mp e
    rw [spoilt_skip (fun _ _ h => by cases h)]
    by_cases hr : r.has l = true
    · rw [hit_read hr] at e1
      obtain ⟨x, _, rfl, _⟩ := treeRead_was e1
      exact ih (hb.map (readMap_steady _)) hn.tail hm.tail e2 (ha.map (readMap_steady _)) (hg.read _)
    · rw [miss_read hr] at e1
      cases e1
      exact ih hb hn.tail hm.tail e2 ha hg
  | @write t t' u r es hc ih =>
    intro s s' hb hn hm e ha hg
    obtain ⟨s1, e1, e2⟩ := Option.bind_eq_some_iff.mp e
    by_cases hr : r.has l = true
    · rw [hit_write hr] at e1
      by_cases hu : u = g
      · subst hu
        rw [spoilt_own hr]
        have hs := busy_made e1
        obtain ⟨x, _, rfl, _⟩ := treeWrite_was e1
        obtain ⟨i1, i2⟩ := hc.pair_busy (hb.map (writeMap_steady _)) hn.tail hm.tail e2 (ha.map (writeMap_steady _)) hs
        exact ⟨fun h => .inr (i1 h), i2⟩
      · have hf := ha.write hu (hm _ (.head _)) e1
        obtain ⟨x, _, rfl, _⟩ := treeWrite_was e1
        exact ⟨fun h => absurd (.inl ⟨u, r, .head _, hu, hr⟩) h,
          fun _ => hc.shut (hb.map (writeMap_steady _)) e2 (.inr hf)⟩
    · rw [spoilt_skip (fun _ _ h => by cases h; exact hr)]
      rw [miss_write hr] at e1
      cases e1
      exact ih hb hn.tail hm.tail e2 ha hg
  | @retag t t' k u r es hc ih =>
    intro s s' hb hn hm e ha hg
    obtain ⟨s1, e1, e2⟩ := Option.bind_eq_some_iff.mp e
    rw [spoilt_skip (fun _ _ h => by cases h)]
    by_cases hr : r.has l = true
    · rw [hit_retag hr] at e1
      exact ih (hb.retag e1).1 hn.tail hm.tail e2 (ha.retag hb (hn k u t r (.head _)) (hm _ (.head _)) e1) (hg.retag hb e1)
    · rw [miss_retag hr] at e1
      cases e1
      exact ih hb.succ hn.tail hm.tail e2 ha hg

theorem Bounded.raw_made {P : Node → Prop} {p t : Nat} {s : List Node} (hP : ∀ m m', m.id = m'.id → m.state = m'.state → P m → P m')
    (hb : Bounded t s) (h : Up P p s) : Up P t (s.map (addName p t)) := by
  obtain ⟨n, h1, h2⟩ := h
  refine ⟨addName p t n, by rw [find_made hb, h1]; rfl, fun m hm hl => ?_⟩
  obtain ⟨m', hm', rfl⟩ := List.mem_map.mp hm
  rw [(addName_rest p t n).2.1, (addName_rest p t m').1] at hl
  exact hP m' _ (addName_rest p t m').1.symm (addName_rest p t m').2.2.symm (h2 m' hm' hl)

theorem Alone.pair {b : Nat} {s s' : List Node} (hb : Bounded (b + 1) s) (h : Alone b s) (see : treeSee b s)
    (e : treeRetag .raw b (b + 1) s = some s') : treeSee (b + 1) s' ∧ Paired b (b + 1) s' := by
  rcases treeRetag_some e with ⟨_, rfl⟩ | ⟨h', _⟩
  · refine ⟨hb.raw_made (fun m m' _ h' hm => h' ▸ hm) see, ?_⟩
    obtain ⟨n, h1, h2, h3, h4⟩ := h
    refine ⟨addName b (b + 1) n, by rw [find_made hb, h1]; rfl, (addName_rest b (b + 1) n).1.trans h2,
      (addName_rest b (b + 1) n).2.1 ▸ h3, fun m hm hl x hx => ?_⟩
    obtain ⟨m', hm', rfl⟩ := List.mem_map.mp hm
    rw [(addName_rest b (b + 1) m').2.1] at hl
    unfold addName at hx
    split at hx
    · rcases List.mem_cons.mp hx with hx | hx
      · exact .inl hx
      · exact .inr (h4 m' hm' hl x hx)
    · exact .inr (h4 m' hm' hl x hx)
  · exact absurd rfl h'

theorem tree_ptr {p : Place} {es pre fs : List Event} {n₀ n n' u a : Nat} {r : Region} (he : Counts 2 es n₀)
    (hp : Counts n₀ pre n) (hf : Counts (n + 2) fs n') (hn : Childless (n + 1) fs) (hm : Untouched n fs) (ha : r.has a = true)
    (hw : p.whole.has a = true) (ho : Owned a pre ownerTag u)
    (h : Defined Tree p ((es ++ pre ++ [.retag .excl u n r, .retag .raw n (n + 1) r]) ++ fs)) :
    (Defined Tree p ((es ++ pre ++ [.retag .excl u n r, .retag .raw n (n + 1) r]) ++ fs ++ [.read (n + 1) ⟨a, 1⟩]) ↔
      ¬ OthersWrite (n + 1) fs a) ∧
    (Defined Tree p ((es ++ pre ++ [.retag .excl u n r, .retag .raw n (n + 1) r]) ++ fs ++ [.write (n + 1) ⟨a, 1⟩]) ↔
      ¬ Spoilt (n + 1) fs a) := by
  obtain ⟨s', hs⟩ := h a
  have hs0 := hs
  rw [runAt_append, runAt_append, runAt_append] at hs
  obtain ⟨s1, h1, h2⟩ := Option.bind_eq_some_iff.mp hs
  obtain ⟨s0, h3, h4⟩ := Option.bind_eq_some_iff.mp h1
  obtain ⟨s2, h5, h6⟩ := Option.bind_eq_some_iff.mp h4
  obtain ⟨s9, h9, h10⟩ := Option.bind_eq_some_iff.mp h6
  cases h10
  obtain ⟨s3, h7, h8⟩ := Option.bind_eq_some_iff.mp h3
  rw [hit_retag ha] at h5 h9
  have hb0 := he.bounded (start_bounded p a) h7
  have hr0 := he.rooted (Nat.le_refl 2) (start_bounded p a) h7 (start_rooted hw)
  have hb := hp.bounded hb0 h8
  have hr1 := hp.rooted he.le hb0 h8 hr0
  have hfree := ho.free hp hb0 h8 hr0.free
  have h2n := Nat.le_trans he.le hp.le
  have hb1 := (Bounded.retag (k := .excl) (p := u) hb h5).1
  have hr2 := Grounded.retag (k := .excl) (p := u) h2n hb hr1 h5
  have hfree1 := Idle.step (k := .excl) (p := u) (fun h => nomatch h) hb hfree h5
  have hb2 := (Bounded.retag (k := .raw) (p := n) hb1 h9).1
  have hr3 := Grounded.retag (k := .raw) (p := n) (Nat.le_succ_of_le h2n) hb1 hr2 h9
  have hfree2 := Idle.step (k := .raw) (p := n) (fun h => nomatch h) hb1 hfree1 h9
  have hr4 := hf.rooted (Nat.le_succ_of_le (Nat.le_succ_of_le h2n)) hb2 h2 hr3
  obtain ⟨m1, m2⟩ := Bounded.made_mut (p := u) hb h5
  obtain ⟨m3, m4⟩ := Alone.pair hb1 m2 m1 h9
  obtain ⟨j1, j2⟩ := hf.paired hb2 hn hm h2 m4 m3
  obtain ⟨k1, k2⟩ := hf.pair_put hb2 hn hm h2 m4 hfree2
  refine ⟨⟨fun hd hw => ?_, fun hw => defined_then h fun s h7 => ?_⟩, fun hd hw => ?_, fun hw l => ?_⟩
  · obtain ⟨s3, h7, see⟩ := then_see hd
    rw [hs0] at h7
    cases h7
    obtain ⟨_, _, h8⟩ := tree_read see
    rw [(j2 hw).unread] at h8
    cases h8
  · rw [hs0] at h7
    cases h7
    exact j1 hw
  · obtain ⟨s3, h7⟩ := hd a
    rw [runAt_append, hs0, Option.bind_some] at h7
    obtain ⟨s4, h8, _⟩ := Option.bind_eq_some_iff.mp h7
    rw [hit_write (one_has a)] at h8
    have h9 : treeWrite (n + 1) s' = some s4 := h8
    rw [(k2 hw).unwritten] at h9
    cases h9
  · obtain ⟨s5, h9⟩ := h l
    rw [runAt_append, h9, Option.bind_some]
    by_cases hl : (⟨a, 1⟩ : Region).has l = true
    · have : l = a := by
        rw [has_iff] at hl
        simp only at hl
        omega
      subst this
      rw [hs0] at h9
      cases h9
      obtain ⟨s4, h8⟩ := (k1 hw).elim (Idle.writes hr4) Busy.writes
      exact ⟨_, runAt_cons ((hit_write hl).trans h8)⟩
    · exact ⟨_, runAt_cons (miss_write hl)⟩

end Oct.Alias
