import Verif.Proofs.PtrRun
import Verif.Proofs.EachKept
/-
What becomes of the pointers that `each_mut` makes, under Tree Borrows.
-/
namespace Oct.Alias
open Spec Sound

/-- It uses late pointers, and its results are late, and older than what is made next. -/
def StridesAll (t : Nat) (m : Make (List Nat)) : Prop := ∀ t', t ≤ t' →
  t' ≤ (m t').2.1 ∧ Keen t (m t').2.2 ∧ ∀ g ∈ (m t').1, t ≤ g ∧ g < (m t').2.1

variable {t : Nat}

theorem StridesAll.strides {m : Make (List Nat)} (h : StridesAll t m) : Strides t m := fun t' ht => ⟨(h t' ht).1, (h t' ht).2.1⟩

theorem StridesTo.bindAll {m : Make Nat} {f : Nat → Make (List Nat)} (h : StridesTo t m) (h' : ∀ a, Late t a → StridesAll t (f a)) :
    StridesAll t (m >>= f) := fun t' ht => by
  obtain ⟨h1, h2, h3, _⟩ := h t' ht
  obtain ⟨h4, h5, h6⟩ := h' _ (.inr h3) _ (Nat.le_trans ht h1)
  exact ⟨Nat.le_trans h1 h4, h2.append h5, h6⟩

theorem Strides.bindAll {α : Type} {m : Make α} {f : α → Make (List Nat)} (h : Strides t m) (h' : ∀ a, StridesAll t (f a)) :
    StridesAll t (m >>= f) := fun t' ht => by
  obtain ⟨h1, h2⟩ := h t' ht
  obtain ⟨h4, h5, h6⟩ := h' (m t').1 _ (Nat.le_trans ht h1)
  exact ⟨Nat.le_trans h1 h4, h2.append h5, h6⟩

theorem StridesTo.cons {m : Make Nat} {f : Make (List Nat)} (h : StridesTo t m) (h' : StridesAll t f) :
    StridesAll t (m >>= fun a => f >>= fun as => Make.pure (a :: as)) := fun t' ht => by
  obtain ⟨h1, h2, h3, h4⟩ := h t' ht
  obtain ⟨h5, h6, h7⟩ := h' _ (Nat.le_trans ht h1)
  refine ⟨Nat.le_trans h1 h5, h2.append (h6.append fun _ he => nomatch he), fun g hg => ?_⟩
  have hg' : g ∈ (m t').1 :: (f (m t').2.1).1 := hg
  show t ≤ g ∧ g < (f (m t').2.1).2.1
  rcases List.mem_cons.mp hg' with rfl | hg'
  · exact ⟨h3, Nat.lt_of_lt_of_le h4 h5⟩
  · exact h7 g hg'

theorem StridesAll.none : StridesAll t (Make.pure []) := fun t' _ => ⟨Nat.le_refl t', (fun _ h => nomatch h), fun _ h => nomatch h⟩

variable (s : Place) {self : Nat}

theorem asPtr_strides (h : Late t self) : StridesTo t (s.asPtr self) := by unfold Place.asPtr; stride
theorem asMutPtr_strides (h : Late t self) : StridesTo t (s.asMutPtr self) := by unfold Place.asMutPtr; stride
theorem len_strides (h : Late t self) : Strides t (s.len self) := by unfold Place.len; stride
theorem asSlice_strides (n : Nat) (h : Late t self) : StridesTo t (s.asSlice n self) :=
  (StridesTo.retag _ _ h).bindTo fun _ h => (asPtr_strides s h).bindTo fun _ h' => (len_strides s h).bindTo fun _ => .retag _ _ h'
theorem asMutSlice_strides (n : Nat) (h : Late t self) : StridesTo t (s.asMutSlice n self) :=
  (StridesTo.retag _ _ h).bindTo fun _ h => (asMutPtr_strides s h).bindTo fun _ h' =>
    (len_strides s h).bindTo fun _ => .retag _ _ h'
theorem copyFromSlice_strides (d n : Nat) (h : Late t self) : Strides t (s.copyFromSlice dataTag d n self) := by
  unfold Place.copyFromSlice; stride

theorem refs_strides (h : Late t self) : ∀ k, StridesAll t (s.refs self k)
  | 0 => .none
  | k + 1 => (asPtr_strides s h).cons (refs_strides h k)

theorem muts_strides (h : Late t self) : ∀ k, StridesAll t (s.muts self k)
  | 0 => .none
  | k + 1 => (asMutPtr_strides s h).cons (muts_strides h k)

theorem eachRef_strides (n : Nat) (h : Late t self) : StridesAll t (s.eachRef n self) :=
  (StridesTo.retag _ _ h).bindAll fun _ h => (Strides.read _ h).bindAll fun _ => refs_strides s h n

theorem eachMut_strides (n : Nat) (h : Late t self) : StridesAll t (s.eachMut n self) :=
  (StridesTo.retag _ _ h).bindAll fun _ h => (Strides.read _ h).bindAll fun _ => muts_strides s h n

theorem single_tag : ∀ (ts : List Nat) (i : Nat), ∀ x ∈ single s i ts, x.tag ∈ ts
  | [], _, _, h => nomatch h
  | t :: ts, i, x, h => by
    rcases List.mem_cons.mp h with rfl | h
    · exact .head _
    · exact .tail _ (single_tag ts (i + 1) x h)

variable {s}

theorem Lost.slice_call {b d : Nat} {o : Owner} (hb : 2 ≤ b) (h : Lost b o) (c : Call) :
    Untouched b (c.go s d o).2 ∧ Lost b (c.go s d o).1 := by
  have A : ∀ {α : Type} {m : Make α}, Strides o.next m → Untouched b (m o.next).2.2 ∧ b < (m o.next).2.1 := fun hm =>
    ⟨(hm _ (Nat.le_refl _)).2.untouched hb h.1, Nat.lt_of_lt_of_le h.1 (hm _ (Nat.le_refl _)).1⟩
  have B : ∀ {m : Make Nat} (r : Region), StridesTo o.next m →
      Untouched b (m o.next).2.2 ∧ b < (m o.next).2.1 ∧ ∀ x ∈ o.held ++ [⟨(m o.next).1, r⟩], x.tag ≠ b := fun r hm => by
    refine ⟨(A hm.strides).1, (A hm.strides).2, fun x hx => ?_⟩
    rcases List.mem_append.mp hx with hx | hx
    · exact h.2 x hx
    · rcases List.mem_singleton.mp hx with rfl
      exact Nat.ne_of_gt (Nat.lt_of_lt_of_le h.1 (hm _ (Nat.le_refl _)).2.2.1)
  have C : ∀ {m : Make (List Nat)}, StridesAll o.next m →
      Untouched b (m o.next).2.2 ∧ b < (m o.next).2.1 ∧ ∀ x ∈ o.held ++ single s 0 (m o.next).1, x.tag ≠ b := fun hm => by
    refine ⟨(A hm.strides).1, (A hm.strides).2, fun x hx => ?_⟩
    rcases List.mem_append.mp hx with hx | hx
    · exact h.2 x hx
    · exact Nat.ne_of_gt (Nat.lt_of_lt_of_le h.1 ((hm _ (Nat.le_refl _)).2.2 _ (single_tag s _ _ x hx)).1)
  cases c with
  | len => exact ⟨(A (len_strides s late_owner)).1, (A (len_strides s late_owner)).2, h.2⟩
  | asSlice => exact B _ (asSlice_strides s _ late_owner)
  | asMutSlice => exact B _ (asMutSlice_strides s _ late_owner)
  | copyFromSlice n => exact ⟨(A (copyFromSlice_strides s _ _ late_owner)).1, (A (copyFromSlice_strides s d n late_owner)).2, h.2⟩
  | eachRef => exact C (eachRef_strides s _ late_owner)
  | eachMut => exact C (eachMut_strides s _ late_owner)
  | get k i =>
    simp only [Call.go]
    split
    · rename_i x hx
      refine ⟨fun e he => ?_, h⟩
      rcases List.mem_singleton.mp he with rfl
      exact h.2 x (List.mem_of_getElem? hx)
    · exact ⟨fun _ he => (by cases he), h⟩
  | set k i =>
    simp only [Call.go]
    split
    · rename_i x hx
      refine ⟨fun e he => ?_, h⟩
      rcases List.mem_singleton.mp he with rfl
      exact h.2 x (List.mem_of_getElem? hx)
    · exact ⟨fun _ he => (by cases he), h⟩

theorem Lost.slice_calls {b d : Nat} (hb : 2 ≤ b) : ∀ (cs : List Call) {o : Owner}, Lost b o → Untouched b (events s d o cs)
  | [], _, _ => fun _ he => (by cases he)
  | c :: cs, _, h => fun e he => (List.mem_append.mp he).elim ((h.slice_call hb c).1 e)
    (Lost.slice_calls hb cs (h.slice_call hb c).2 e)

theorem Dated.slice_call {d : Nat} {o : Owner} (h : Dated o) (c : Call) : Dated (c.go s d o).1 := by
  have A : ∀ {α : Type} {m : Make α}, Strides o.next m → ∀ x ∈ o.held, x.tag < (m o.next).2.1 := fun hm x hx =>
    Nat.lt_of_lt_of_le (h x hx) (hm _ (Nat.le_refl _)).1
  have B : ∀ {m : Make Nat} (r : Region), StridesTo o.next m →
      ∀ x ∈ o.held ++ [⟨(m o.next).1, r⟩], x.tag < (m o.next).2.1 := fun r hm x hx => by
    rcases List.mem_append.mp hx with hx | hx
    · exact A hm.strides x hx
    · rcases List.mem_singleton.mp hx with rfl
      exact (hm _ (Nat.le_refl _)).2.2.2
  have C : ∀ {m : Make (List Nat)}, StridesAll o.next m →
      ∀ x ∈ o.held ++ single s 0 (m o.next).1, x.tag < (m o.next).2.1 := fun hm x hx => by
    rcases List.mem_append.mp hx with hx | hx
    · exact A hm.strides x hx
    · exact ((hm _ (Nat.le_refl _)).2.2 _ (single_tag s _ _ x hx)).2
  cases c with
  | len => exact A (len_strides s late_owner)
  | asSlice => exact B _ (asSlice_strides s _ late_owner)
  | asMutSlice => exact B _ (asMutSlice_strides s _ late_owner)
  | copyFromSlice n => exact A (copyFromSlice_strides s d n late_owner)
  | eachRef => exact C (eachRef_strides s _ late_owner)
  | eachMut => exact C (eachMut_strides s _ late_owner)
  | get k i =>
    simp only [Call.go]
    split <;> exact h
  | set k i =>
    simp only [Call.go]
    split <;> exact h

theorem Dated.slice_calls {d : Nat} : ∀ (cs : List Call) {o : Owner}, Dated o → Dated (ownerAfter s d o cs)
  | [], _, h => h
  | c :: cs, _, h => Dated.slice_calls cs (h.slice_call c)

/-- The loop only makes pointers. -/
theorem muts_retags (p : Place) (h : Nat) : ∀ (k n : Nat), ∀ e ∈ (p.muts h k n).2.2, ∃ a u q r, e = .retag a u q r ∧ (u = h ∨ n ≤ u)
  | 0, _, e, he => by cases he
  | k + 1, n, e, he => by
    have he' : e ∈ [Event.retag .excl h n p.whole, .retag .excl n (n + 1) p.buf, .retag .raw (n + 1) (n + 2) p.buf] ++
        ((p.muts h k (n + 3)).2.2 ++ []) := he
    rw [List.append_nil] at he'
    rcases List.mem_append.mp he' with he' | he'
    · simp only [List.mem_cons, List.not_mem_nil, or_false] at he'
      rcases he' with rfl | rfl | rfl
      · exact ⟨_, _, _, _, rfl, .inl rfl⟩
      · exact ⟨_, _, _, _, rfl, .inr (Nat.le_refl _)⟩
      · exact ⟨_, _, _, _, rfl, .inr (Nat.le_succ _)⟩
    · obtain ⟨a, u, q, r, rfl, h'⟩ := muts_retags p h k (n + 3) e he'
      exact ⟨a, u, q, r, rfl, h'.imp id fun h => by omega⟩

theorem Owned.skips {l p u : Nat} : ∀ {es fs : List Event}, (∀ e ∈ es, ∃ a v q r, e = .retag a v q r) → Owned l fs p u →
    Owned l (es ++ fs) p u
  | [], _, _, h => h
  | e :: es, _, he, h => by
    obtain ⟨a, v, q, r, rfl⟩ := he e (.head _)
    exact .skip (Owned.skips (fun e h => he e (.tail _ h)) h)

theorem OthersWrite.skips {g l : Nat} {es fs : List Event} (he : ∀ e ∈ es, ∃ a v q r, e = .retag a v q r) :
    OthersWrite g (es ++ fs) l ↔ OthersWrite g fs l := by
  constructor
  · rintro ⟨t, r, h1, h2⟩
    rcases List.mem_append.mp h1 with h1 | h1
    · obtain ⟨_, _, _, _, e⟩ := he _ h1
      cases e
    · exact ⟨t, r, h1, h2⟩
  · rintro ⟨t, r, h1, h2⟩
    exact ⟨t, r, List.mem_append_right _ h1, h2⟩

theorem Spoilt.skips {g l : Nat} : ∀ {es fs : List Event}, (∀ e ∈ es, ∃ a v q r, e = .retag a v q r) →
    (Spoilt g (es ++ fs) l ↔ Spoilt g fs l)
  | [], _, _ => Iff.rfl
  | e :: es, fs, he => by
    obtain ⟨a, v, q, r, rfl⟩ := he e (.head _)
    rw [List.cons_append, spoilt_skip (fun _ _ h => by cases h)]
    exact Spoilt.skips fun e h => he e (.tail _ h)

theorem muts_tags_are (p : Place) (h : Nat) : ∀ (k n : Nat), ∀ g ∈ (p.muts h k n).1, ∃ i, g = n + 3 * i + 2
  | 0, _, _, hg => by cases hg
  | k + 1, n, g, hg => by
    have hg' : g ∈ (n + 2) :: (p.muts h k (n + 3)).1 := hg
    rcases List.mem_cons.mp hg' with rfl | hg'
    · exact ⟨0, rfl⟩
    · obtain ⟨i, rfl⟩ := muts_tags_are p h k (n + 3) g hg'
      exact ⟨i + 1, by omega⟩

/-- What `each_mut` of sized slices returned. -/
theorem each_tree {p : Place} {d n : Nat} {cs ds : List Call} {j : Nat} {x : Held}
    (hj : j < ((sliceDevice p d).after (Owner.new n) cs).len)
    (hx : ((sliceDevice p d).go ((sliceDevice p d).after (Owner.new n) cs) .eachMut).1.held[
      ((sliceDevice p d).after (Owner.new n) cs).held.length + j]? = some x) (hb : p.buf.has x.r.lo = true)
    (h : Defined Tree p ((sliceDevice p d).events (Owner.new n) (cs ++ .eachMut :: ds))) :
    (Defined Tree p ((sliceDevice p d).events (Owner.new n)
      (cs ++ .eachMut :: (ds ++ [.get (((sliceDevice p d).after (Owner.new n) cs).held.length + j) 0]))) ↔
      ¬ OthersWrite x.tag ((sliceDevice p d).events ((sliceDevice p d).go ((sliceDevice p d).after (Owner.new n) cs) .eachMut).1 ds)
        x.r.lo) ∧
    (Defined Tree p ((sliceDevice p d).events (Owner.new n)
      (cs ++ .eachMut :: (ds ++ [.set (((sliceDevice p d).after (Owner.new n) cs).held.length + j) 0]))) ↔
      ¬ Spoilt x.tag ((sliceDevice p d).events ((sliceDevice p d).go ((sliceDevice p d).after (Owner.new n) cs) .eachMut).1 ds)
        x.r.lo) := by
  have hdated : Dated ((sliceDevice p d).after (Owner.new n) cs) := by
    rw [slice_after]
    exact Dated.slice_calls cs fun _ hx => nomatch hx
  generalize ho : (sliceDevice p d).after (Owner.new n) cs = o at *
  let D := sliceMut p d
  obtain ⟨k, hk⟩ : ∃ k, o.len = j + 1 + k := ⟨o.len - (j + 1), by omega⟩
  have hx' : x = ⟨o.next + 1 + 3 * j + 2, ⟨p.at_ + j, 1⟩⟩ := by
    have e : ((sliceDevice p d).go o .eachMut).1.held = o.held ++ single p 0 (p.muts o.next o.len (o.next + 1)).1 := rfl
    rw [e, List.getElem?_append_right (Nat.le_add_right _ _), Nat.add_sub_cancel_left, single_get p _ 0 j _ (muts_tag p _ _ _ _ hj)] at hx
    simpa using hx.symm
  subst hx'
  let m := o.next + 1 + 3 * j
  have e0 : ∀ fs, (sliceDevice p d).events (Owner.new n) (cs ++ .eachMut :: fs) =
      ((sliceDevice p d).events (Owner.new n) cs ++ ([.retag .excl ownerTag o.next p.whole, .read o.next p.head] ++
        ((p.muts o.next j (o.next + 1)).2.2 ++ [.retag .excl o.next m p.whole])) ++
        [.retag .excl m (m + 1) p.buf, .retag .raw (m + 1) (m + 1 + 1) p.buf]) ++
      ((p.muts o.next k (m + 3)).2.2 ++ (sliceDevice p d).events ((sliceDevice p d).go o .eachMut).1 fs) := fun fs => by
    have e : ((sliceDevice p d).go o .eachMut).2 = [.retag .excl ownerTag o.next p.whole, .read o.next p.head] ++
        (p.muts o.next o.len (o.next + 1)).2.2 := rfl
    rw [(sliceDevice p d).events_append, ho]
    show _ ++ (((sliceDevice p d).go o .eachMut).2 ++ _) = _
    rw [e, hk, muts_split]
    simp only [List.append_assoc, List.cons_append, List.nil_append]
    rfl
  have hn : (sliceDevice p d).next ((sliceDevice p d).go o .eachMut).1 = m + 3 + 3 * k := by
    show (p.muts o.next o.len (o.next + 1)).2.1 = _
    rw [muts_next, hk]
    show _ = o.next + 1 + 3 * j + 3 + 3 * k
    omega
  have hc0 : Counts 2 ((sliceDevice p d).events (Owner.new n) cs) o.next := by
    have := (sliceDevice p d).events_counts (Owner.new n) cs
    rw [ho] at this
    exact this
  have hmc : ∀ j t, Counts t (p.muts o.next j t).2.2 (t + 3 * j) := fun j t => by
    have := muts_counted p o.next j t
    rw [muts_next] at this
    exact this
  have hc : Counts o.next ([.retag .excl ownerTag o.next p.whole, .read o.next p.head] ++
        ((p.muts o.next j (o.next + 1)).2.2 ++ [.retag .excl o.next m p.whole])) (m + 1) :=
    Counts.retag (.read ((hmc j (o.next + 1)).append (.retag .nil)))
  have hf : Counts (m + 1 + 2) ((p.muts o.next k (m + 3)).2.2 ++
      (sliceDevice p d).events ((sliceDevice p d).go o .eachMut).1 ds) _ :=
    (hmc k (m + 3)).append (hn ▸ (sliceDevice p d).events_counts ((sliceDevice p d).go o .eachMut).1 ds)
  have hle := hc0.le
  have hm : m = o.next + 1 + 3 * j := rfl
  have hl : ∀ g, o.next < g → g < m + 3 → Childless g ((p.muts o.next k (m + 3)).2.2 ++
      (sliceDevice p d).events ((sliceDevice p d).go o .eachMut).1 ds) := fun g h1 h2 =>
    (muts_childless p (by omega) k (m + 3) h2).append (D.childless (by omega) _ ds (by
      show g < (sliceDevice p d).next ((sliceDevice p d).go o .eachMut).1
      omega))
  have hy : ((sliceDevice p d).held ((sliceDevice p d).go o .eachMut).1)[o.held.length + j]? = some ⟨m + 2, ⟨p.at_ + j, 1⟩⟩ := hx
  have hg := (sliceDevice p d).look (i := 0) ((sliceDevice p d).still hy ds)
  have hs := D.put (i := 0) ((sliceDevice p d).still hy ds)
  have hg' : (sliceDevice p d).events ((sliceDevice p d).after ((sliceDevice p d).go o .eachMut).1 ds) [.get (o.held.length + j) 0] = _ := hg
  have hs' : (sliceDevice p d).events ((sliceDevice p d).after ((sliceDevice p d).go o .eachMut).1 ds) [.set (o.held.length + j) 0] = _ := hs
  rw [e0] at h
  have hr : ∀ k t, ∀ e ∈ (p.muts o.next k t).2.2, ∃ a v q r, e = .retag a v q r := fun k t e he => by
    obtain ⟨a, v, q, r, e, _⟩ := muts_retags p o.next k t e he
    exact ⟨a, v, q, r, e⟩
  have hlost : Lost (m + 1) ((sliceDevice p d).go o .eachMut).1 := by
    refine ⟨?_, fun y hy => ?_⟩
    · show m + 1 < (sliceDevice p d).next ((sliceDevice p d).go o .eachMut).1
      omega
    · have hy' : y ∈ o.held ++ single p 0 (p.muts o.next o.len (o.next + 1)).1 := hy
      rcases List.mem_append.mp hy' with hy' | hy'
      · have := hdated y hy'
        omega
      · obtain ⟨i, hi⟩ := muts_tags_are p _ _ _ _ (single_tag p _ _ y hy')
        omega
  have hu : Untouched (m + 1) ((p.muts o.next k (m + 3)).2.2 ++
      (sliceDevice p d).events ((sliceDevice p d).go o .eachMut).1 ds) := fun e he => by
    rcases List.mem_append.mp he with he | he
    · obtain ⟨a, v, q, r, rfl, hv⟩ := muts_retags p o.next k (m + 3) e he
      show v ≠ m + 1
      omega
    · rw [slice_events] at he
      exact Lost.slice_calls (by omega) ds hlost e he
  have hw := whole_has hb
  have howned : Owned (p.at_ + j) ([.retag .excl ownerTag o.next p.whole, .read o.next p.head] ++
        ((p.muts o.next j (o.next + 1)).2.2 ++ [.retag .excl o.next m p.whole])) ownerTag m :=
    .step (fun h => nomatch h) hw (.read (Owned.skips (es := (p.muts o.next j (o.next + 1)).2.2) (hr _ _) (.step (fun h => nomatch h) hw .nil)))
  have key := tree_ptr hc0 hc hf (hl _ (by omega) (by omega)) hu hb hw howned h
  rw [OthersWrite.skips (hr _ _), Spoilt.skips (hr _ _)] at key
  rw [e0, e0, (sliceDevice p d).events_append, (sliceDevice p d).events_append, hg', hs', ← List.append_assoc, ← List.append_assoc,
    ← List.append_assoc, ← List.append_assoc]
  simp only [← List.append_assoc] at key
  simp only [← List.append_assoc]
  exact key

end Oct.Alias
