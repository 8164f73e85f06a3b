import Verif.Proofs.StackedBorrows
import Verif.Proofs.TreeBorrows
/-
That references may not be used when the borrow checker has ended them.
-/
namespace Oct.Alias
open Spec Sound

/-- References before `n` are at the same nodes as before. -/
def Grow (n : Nat) (s s' : List Node) : Prop :=
  ∀ g, g < n → (find g s').map (fun y => (y.id, y.line)) = (find g s).map fun y => (y.id, y.line)

theorem Grow.trans {n m : Nat} {s s' s'' : List Node} (h : Grow n s s') (h' : Grow m s' s'') (hm : n ≤ m) : Grow n s s'' :=
  fun g hg => (h' g (by omega)).trans (h g hg)

theorem Grow.find {n g : Nat} {s s' : List Node} (h : Grow n s s') (hg : g < n) {y : Node} (hy : find g s = some y) :
    ∃ y', find g s' = some y' ∧ y'.id = y.id ∧ y'.line = y.line := by
  have := h g hg
  rw [hy] at this
  cases hf : Alias.find g s' with
  | none => rw [hf] at this; cases this
  | some y' =>
    rw [hf] at this
    simp only [Option.map_some, Option.some.injEq, Prod.mk.injEq] at this
    exact ⟨y', rfl, this⟩

theorem grow_map {f : Node → Node} (hf : Steady f) (n : Nat) (s : List Node) : Grow n s (s.map f) := by
  intro g _
  rw [find_map fun m => (hf m).2.1, Option.map_map]
  congr 1
  funext y
  show ((f y).id, (f y).line) = _
  rw [(hf y).1, (hf y).2.2]

theorem grow_push {n : Nat} {x : Node} (hx : x.names = [n]) (s : List Node) : Grow n s (x :: s) := by
  intro g hg
  have : find g (x :: s) = find g s := by
    unfold find
    rw [List.find?_cons, hx]
    have : decide (g ∈ [n]) = false := by simp; omega
    rw [this]
  rw [this]

theorem grow_raw (h n : Nat) (s : List Node) : Grow n s (s.map (nameMap h n)) := by
  intro g hg
  have : find g (s.map (nameMap h n)) = (find g s).map (nameMap h n) := by
    unfold find
    rw [List.find?_map]
    congr 2
    funext m
    show decide (g ∈ (nameMap h n m).names) = decide (g ∈ m.names)
    unfold nameMap
    split
    · simp only [List.mem_cons]
      have : g ≠ n := by omega
      simp [this]
    · rfl
  rw [this, Option.map_map]
  congr 1
  funext y
  show ((nameMap h n y).id, (nameMap h n y).line) = _
  rw [(nameMap_keeps h n y).1, (nameMap_keeps h n y).2.1]

theorem read_maps {h : Nat} {s s' : List Node} (hr : treeRead h s = some s') :
    ∃ y, find h s = some y ∧ s' = s.map (readMap y.line) := by
  unfold treeRead at hr
  cases hf : find h s with
  | none => rw [hf] at hr; cases hr
  | some y =>
    rw [hf] at hr
    simp only at hr
    split at hr
    · cases hr
      exact ⟨y, rfl, rfl⟩
    · cases hr

theorem write_maps {h : Nat} {s s' : List Node} (hr : treeWrite h s = some s') :
    ∃ y, find h s = some y ∧ s' = s.map (writeMap y.line) := by
  unfold treeWrite at hr
  cases hf : find h s with
  | none => rw [hf] at hr; cases hr
  | some y =>
    rw [hf] at hr
    simp only at hr
    split at hr
    · cases hr
      exact ⟨y, rfl, rfl⟩
    · cases hr

/-- What making a reference makes of the tree. -/
theorem retag_node {k : Kind} {h n : Nat} {s s' : List Node} (hr : Tree.retag k h n s = some s') :
    (∃ y st, find h s = some y ∧ s' = ⟨n, [n], n :: y.line, st⟩ :: s.map (readMap y.line)) ∨ s' = s.map (nameMap h n) := by
  have hr : treeRetag k h n s = some s' := hr
  cases hf : find h s with
  | none => cases k <;> simp [treeRetag, hf] at hr
  | some y =>
    cases k with
    | raw =>
      simp only [treeRetag, hf, Option.some.injEq] at hr
      exact .inr hr.symm
    | excl =>
      simp only [treeRetag, hf] at hr
      cases hd : treeRead h s with
      | none => rw [hd] at hr; cases hr
      | some s1 =>
        rw [hd] at hr
        obtain ⟨y', e, rfl⟩ := read_maps hd
        rw [hf] at e
        cases e
        cases hr
        exact .inl ⟨y, _, rfl, rfl⟩
    | shared =>
      simp only [treeRetag, hf] at hr
      cases hd : treeRead h s with
      | none => rw [hd] at hr; cases hr
      | some s1 =>
        rw [hd] at hr
        obtain ⟨y', e, rfl⟩ := read_maps hd
        rw [hf] at e
        cases e
        cases hr
        exact .inl ⟨y, _, rfl, rfl⟩

theorem grow_retag {k : Kind} {h n : Nat} {s s' : List Node} (hr : Tree.retag k h n s = some s') : Grow n s s' := by
  rcases retag_node hr with ⟨y, st, _, rfl⟩ | rfl
  · exact (grow_map (readMap_steady _) n s).trans (grow_push rfl _) (Nat.le_refl n)
  · exact grow_raw h n s

/-- Every reference is among what it was made of. -/
def Rooted (s : List Node) : Prop := ∀ m ∈ s, m.id ∈ m.line

theorem Rooted.map {f : Node → Node} (hf : ∀ m, (f m).id = m.id ∧ (f m).line = m.line) {s : List Node} (h : Rooted s) :
    Rooted (s.map f) := by
  intro m hm
  obtain ⟨m', hm', rfl⟩ := List.mem_map.mp hm
  rw [(hf m').1, (hf m').2]
  exact h m' hm'

theorem Rooted.act {l : Nat} {e : Event} {s s' : List Node} (h : Rooted s) (he : e.act Tree l s = some s') : Rooted s' := by
  cases e with
  | read t r =>
    simp only [Event.act] at he
    split at he
    · obtain ⟨y, _, rfl⟩ := read_maps he
      exact h.map fun m => ⟨(readMap_steady _ m).1, (readMap_steady _ m).2.2⟩
    · cases he
      exact h
  | write t r =>
    simp only [Event.act] at he
    split at he
    · obtain ⟨y, _, rfl⟩ := write_maps he
      exact h.map (f := writeMap y.line) fun m => ⟨rfl, rfl⟩
    · cases he
      exact h
  | retag k a b r =>
    simp only [Event.act] at he
    split at he
    · rcases retag_node he with ⟨y, st, _, rfl⟩ | rfl
      · intro m hm
        cases hm with
        | head => exact .head _
        | tail _ hm => exact (h.map fun m => ⟨(readMap_steady _ m).1, (readMap_steady _ m).2.2⟩) m hm
      · exact h.map fun m => ⟨(nameMap_keeps _ _ m).1, (nameMap_keeps _ _ m).2.1⟩
    · cases he
      exact h

theorem Rooted.run {l : Nat} : (es : List Event) → {s s' : List Node} → Rooted s → runAt Tree l es s = some s' → Rooted s'
  | [], _, _, h, he => by cases he; exact h
  | e :: es, s, s', h, he => by
    cases ha : e.act Tree l s with
    | none =>
      rw [show runAt Tree l (e :: es) s = (e.act Tree l s).bind _ from rfl, ha] at he
      cases he
    | some s1 =>
      rw [runAt_cons ha] at he
      exact Rooted.run es (h.act ha) he

theorem find_new {n : Nat} {line : List Nat} {st : State} {s : List Node} :
    find n ((⟨n, [n], line, st⟩ : Node) :: s) = some ⟨n, [n], line, st⟩ := by
  unfold find
  rw [List.find?_cons]
  simp

/-- Making a `&mut`, and what it is made of. -/
theorem excl_line {h n : Nat} {s : List Node} (hw : treeW 0 n s) (hf : Fresh 0 h s) :
    ∃ s' y, Tree.retag .excl h n s = some s' ∧ treeW 0 (n + 1) s' ∧ Fresh 0 n s' ∧ (∀ g, Fresh 0 g s → Fresh 0 g s') ∧
      Grow n s s' ∧ find h s = some y ∧ ∃ z, find n s' = some z ∧ z.id = n ∧ z.line = n :: y.line := by
  obtain ⟨s1, a1, a2, _, a3, a4, _⟩ := hw.excl (hf.own hw)
  rcases retag_node a1 with ⟨y, st, e1, e2⟩ | e
  · exact ⟨s1, y, a1, a2, a3 hf, a4, grow_retag a1, e1, ⟨n, [n], n :: y.line, st⟩, by rw [e2]; exact find_new, rfl, rfl⟩
  · have : Tree.retag .excl h n s = some (s.map (nameMap h n)) := by rw [a1, e]
    have hlen : s1.length = s.length + 1 := by
      have hr : treeRetag .excl h n s = some s1 := a1
      obtain ⟨y, hy, _⟩ := hf
      simp only [treeRetag, hy] at hr
      cases hd : treeRead h s with
      | none => rw [hd] at hr; cases hr
      | some s2 =>
        rw [hd] at hr
        obtain ⟨y', _, rfl⟩ := read_maps hd
        cases hr
        simp
    rw [e] at hlen
    simp at hlen

theorem find_raw {h n : Nat} : {s : List Node} → (∀ m ∈ s, n ∉ m.names) →
    find n (s.map (nameMap h n)) = (find h s).map (nameMap h n)
  | [], _ => rfl
  | m :: s, hlt => by
    have ih := find_raw (h := h) fun m hm => hlt m (.tail _ hm)
    have hm := hlt m (.head _)
    unfold find at *
    rw [List.map_cons, List.find?_cons, List.find?_cons]
    by_cases hp : h ∈ m.names
    · have : decide (n ∈ (nameMap h n m).names) = true := by
        unfold nameMap
        rw [if_pos hp]
        simp
      rw [this]
      simp [hp]
    · have : decide (n ∈ (nameMap h n m).names) = false := by
        unfold nameMap
        rw [if_neg hp]
        simp [hm]
      rw [this]
      simp only [hp, decide_false]
      exact ih

theorem raw_line {h n : Nat} {s : List Node} (hw : treeW 0 n s) (h0 : h ≠ 0) (hf : Fresh 0 h s) {y : Node}
    (hy : find h s = some y) :
    ∃ s', Tree.retag .raw h n s = some s' ∧ treeW 0 (n + 1) s' ∧ Fresh 0 n s' ∧ (∀ g, Fresh 0 g s → Fresh 0 g s') ∧
      Grow n s s' ∧ ∃ z, find n s' = some z ∧ z.line = y.line := by
  obtain ⟨s1, a1, a2, a3, a4, _⟩ := hw.raw h0 hf
  refine ⟨s1, a1, a2, a3, a4, grow_retag a1, ?_⟩
  have hr : treeRetag .raw h n s = some s1 := a1
  simp only [treeRetag, hy, Option.some.injEq] at hr
  refine ⟨nameMap h n y, ?_, (nameMap_keeps h n y).2.1⟩
  rw [← hr]
  show find n (s.map (nameMap h n)) = _
  rw [find_raw fun m hm hn => by
    have := (hw.bounds m hm).2.1 n hn
    omega, hy]
  rfl

/-- `as_mut_slice`, where there is an item. -/
theorem tree_mutSlice_line {t : Nat} {s : List Node} (p : Place) (k l : Nat) (hw : treeW 0 t s) (hk : k ≤ p.cap)
    (hi : (p.items k).has l = true) :
    ∃ s', runAt Tree l (p.asMutSlice k 0 t).2.2 s = some s' ∧ treeW 0 (t + 6) s' ∧ treeOwn (t + 5) s' ∧ Grow t s s' ∧
      ∃ z, find (t + 5) s' = some z ∧ z.id = t + 5 ∧ ∀ x ∈ z.line, x = 0 ∨ t ≤ x := by
  have hb := items_buf hk hi
  have hl := buf_whole hb
  have hh : ¬ p.head.has l = true := by
    intro h
    rw [has_iff] at *
    simp only [Place.buf, Place.head] at *
    omega
  show ∃ s', runAt Tree l [.retag .excl 0 t p.whole, .retag .excl t (t + 1) p.whole, .retag .excl (t + 1) (t + 2) p.buf,
    .retag .raw (t + 2) (t + 3) p.buf, .retag .shared t (t + 4) p.whole, .read (t + 4) p.head,
    .retag .excl (t + 3) (t + 5) (p.items k)] s = some s' ∧ _
  obtain ⟨s1, y1, a1, a2, a3, _, a5, a6, z1, a7, _, a8⟩ := excl_line hw hw.fresh
  obtain ⟨s2, y2, b1, b2, b3, b4, b5, b6, z2, b7, _, b8⟩ := excl_line a2 a3
  obtain ⟨s3, y3, c1, c2, c3, c4, c5, c6, z3, c7, _, c8⟩ := excl_line b2 b3
  obtain ⟨s4, d1, d2, d3, d4, d5, z4, d6, d7⟩ := raw_line c2 (by omega) c3 c7
  have ft := d4 t (c4 t (b4 t a3))
  obtain ⟨s5, e1, e2, _, _, e3⟩ := d2.shared (ft.own d2).see
  obtain ⟨s6, y6, f1, f2, f3, _, f5, f6, z6, f7, f8, f9⟩ := excl_line e2 (e3 _ d3)
  refine ⟨s6, ?_, f2, f3.own f2, ?_, z6, f7, f8, ?_⟩
  · rw [runAt_cons ((hit_retag hl).trans a1), runAt_cons ((hit_retag hl).trans b1), runAt_cons ((hit_retag hb).trans c1),
      runAt_cons ((hit_retag hb).trans d1), runAt_cons ((hit_retag hl).trans e1), runAt_cons (miss_read hh),
      runAt_cons ((hit_retag hi).trans f1)]
    rfl
  · exact (((((a5.trans b5 (Nat.le_succ _)).trans c5 (by omega)).trans d5 (by omega)).trans (grow_retag e1)
      (by omega)).trans f5 (by omega))
  · obtain ⟨z5, g1, _, g2⟩ := (grow_retag e1).find (show t + 3 < t + 4 by omega) d6
    rw [f6] at g1
    cases g1
    rw [a7] at b6
    cases b6
    rw [b7] at c6
    cases c6
    rw [hw.find_root] at a6
    cases a6
    rw [f9, g2, d7, c8, b8, a8]
    intro x hx
    simp only [List.mem_cons, List.not_mem_nil, or_false] at hx
    omega

/-- A use of a disabled reference is undefined. -/
theorem tree_disabled {g : Nat} {s : List Node} (hr : Rooted s) (h : ∀ y, find g s = some y → y.state.mayRead = false) :
    treeRead g s = none := by
  unfold treeRead
  cases hf : find g s with
  | none => rfl
  | some y =>
    simp only
    rw [if_neg]
    intro hall
    rw [List.all_eq_true] at hall
    have := hall y (find_names hf).1
    simp [hr y (find_names hf).1, h y hf] at this

theorem tree_frozen {g : Nat} {s : List Node} (hr : Rooted s) (h : ∀ y, find g s = some y → y.state.mayWrite = false) :
    treeWrite g s = none := by
  unfold treeWrite
  cases hf : find g s with
  | none => rfl
  | some y =>
    simp only
    rw [if_neg]
    intro hall
    rw [List.all_eq_true] at hall
    have := hall y (find_names hf).1
    simp [hr y (find_names hf).1, h y hf] at this

/-- After something was written by a new `&mut`, older references may not be used under Tree Borrows. -/
theorem tree_ended {t g k l : Nat} {s : List Node} (p : Place) (hw : treeW 0 t s) (hR : Rooted s) (hk : k ≤ p.cap)
    (hi : (p.items k).has l = true) (hg : g < t) (h0 : g ≠ 0) :
    runAt Tree l ((p.asMutSlice k 0 t).2.2 ++ [.write (t + 5) ⟨l, 1⟩, .read g ⟨l, 1⟩]) s = none := by
  have hl : (⟨l, 1⟩ : Region).has l = true := by rw [has_iff]; simp only; omega
  obtain ⟨s1, a1, a2, a3, a4, z, a5, _, a6⟩ := tree_mutSlice_line p k l hw hk hi
  obtain ⟨z', b1, b2⟩ := tree_write a3
  rw [a5] at b1
  cases b1
  rw [runAt_append, a1, Option.bind_some, runAt_cons ((hit_write hl).trans b2)]
  have hR1 : Rooted s1 := hR.run _ a1
  have hR2 : Rooted (s1.map (writeMap z.line)) := hR1.map (f := writeMap z.line) fun m => ⟨rfl, rfl⟩
  show (Event.act Tree l (.read g ⟨l, 1⟩) _).bind _ = none
  rw [hit_read hl]
  show (treeRead g _).bind _ = none
  rw [tree_disabled hR2 fun y hy => ?_]
  · rfl
  · rw [find_map fun m => (writeMap_steady _ m).2.1] at hy
    cases hf : find g s1 with
    | none => rw [hf] at hy; cases hy
    | some y1 =>
      rw [hf] at hy
      cases hy
      have he := a4 g hg
      rw [hf] at he
      cases hf0 : find g s with
      | none => rw [hf0] at he; cases he
      | some y0 =>
        rw [hf0] at he
        simp only [Option.map_some, Option.some.injEq, Prod.mk.injEq] at he
        obtain ⟨m1, m2⟩ := find_names hf0
        have hlt := (hw.bounds y0 m1).1
        have hne : y0.id ≠ 0 := by
          intro e
          have := hw.root y0 m1 e
          rw [this] at m2
          simp at m2
          exact h0 m2
        have hnot : y1.id ∉ z.line := by
          intro h
          have := a6 _ h
          omega
        show (if y1.id ∈ z.line then State.active else State.disabled).mayRead = false
        rw [if_neg hnot]
        rfl

/-- After something was written by a `&mut`, and the owner was looked at, nothing may be written by it under Tree
Borrows. -/
theorem tree_looked {t k l : Nat} {s : List Node} (p : Place) (hw : treeW 0 t s) (hR : Rooted s) (hk : k ≤ p.cap)
    (hi : (p.items k).has l = true) :
    runAt Tree l ((p.asMutSlice k 0 t).2.2 ++ (.write (t + 5) ⟨l, 1⟩ :: ((p.len 0 (t + 6)).2.2 ++
      [.write (t + 5) ⟨l, 1⟩]))) s = none := by
  have hl : (⟨l, 1⟩ : Region).has l = true := by rw [has_iff]; simp only; omega
  have hb := items_buf hk hi
  have hwl := buf_whole hb
  have hh : ¬ p.head.has l = true := by
    intro h
    rw [has_iff] at *
    simp only [Place.buf, Place.head] at *
    omega
  obtain ⟨s1, a1, a2, a3, a4, z, a5, ha, a6⟩ := tree_mutSlice_line p k l hw hk hi
  obtain ⟨z', b1, b2⟩ := tree_write a3
  rw [a5] at b1
  cases b1
  have hw2 := a2.after_write a5
  obtain ⟨s3, c1, _⟩ := hw2.shared (hw2.fresh.own hw2).see
  have hR3 : Rooted s3 := by
    have := Rooted.act (l := l) (e := .retag .shared 0 (t + 6) p.whole) ((hR.run _ a1).map (f := writeMap z.line)
      fun m => ⟨rfl, rfl⟩) ((hit_retag hwl).trans c1)
    exact this
  rw [runAt_append, a1, Option.bind_some, runAt_cons ((hit_write hl).trans b2), runAt_append]
  show (runAt Tree l [.retag .shared 0 (t + 6) p.whole, .read (t + 6) p.head] _).bind _ = none
  rw [runAt_cons ((hit_retag hwl).trans c1), runAt_cons (miss_read hh)]
  show (Event.act Tree l (.write (t + 5) ⟨l, 1⟩) s3).bind _ = none
  rw [hit_write hl]
  show (treeWrite (t + 5) s3).bind _ = none
  rw [tree_frozen hR3 fun y hy => ?_]
  · rfl
  · rcases retag_node c1 with ⟨r, st, e1, e2⟩ | e
    · rw [hw2.find_root] at e1
      cases e1
      have : find (t + 5) s3 = some (readMap [0] (writeMap z.line z)) := by
        rw [e2]
        have hf : find (t + 5) ((s1.map (writeMap z.line)).map (readMap [0])) = some (readMap [0] (writeMap z.line z)) := by
          rw [find_map fun m => (readMap_steady _ m).2.1, find_map fun m => (writeMap_steady _ m).2.1, a5]
          rfl
        exact treeW.find_push (hw2.after_read hw2.find_root) rfl hf
      rw [this] at hy
      cases hy
      unfold readMap
      rw [if_neg (show ¬ (writeMap z.line z).id ∈ [0] by
        show ¬ z.id ∈ [0]
        rw [ha]
        simp)]
      show (if z.id ∈ z.line then State.active else State.disabled).foreignRead.mayWrite = false
      split <;> rfl
    · have hlen : s3.length = (s1.map (writeMap z.line)).length + 1 := by
        have hr : treeRetag .shared 0 (t + 6) (s1.map (writeMap z.line)) = some s3 := c1
        simp only [treeRetag, hw2.find_root] at hr
        cases hd : treeRead 0 (s1.map (writeMap z.line)) with
        | none => rw [hd] at hr; cases hr
        | some s4 =>
          rw [hd] at hr
          obtain ⟨y', _, rfl⟩ := read_maps hd
          cases hr
          simp
      rw [e] at hlen
      simp at hlen

/-- `as_mut_slice`, where there is an item, under Stacked Borrows. -/
theorem stack_mutSlice_state {t : Nat} {s : List Item} (p : Place) (k l : Nat) (hw : stackW 0 t s) (hk : k ≤ p.cap)
    (hi : (p.items k).has l = true) : runAt Stacked l (p.asMutSlice k 0 t).2.2 s =
      some [⟨t + 5, .unique⟩, ⟨t + 3, .sharedRW⟩, ⟨t + 2, .disabled⟩, ⟨t + 1, .disabled⟩, ⟨t, .unique⟩, ⟨0, .unique⟩] := by
  have hb := items_buf hk hi
  have hl := buf_whole hb
  show runAt Stacked l (.retag .excl 0 t p.whole :: ((p.asMutPtr t (t + 1)).2.2 ++ ((p.len t (t + 4)).2.2 ++
    [.retag .excl (t + 3) (t + 5) (p.items k)]))) s = _
  rw [runAt_cons ((hit_retag hl).trans hw.excl), runAt_append, show runAt Stacked l (p.asMutPtr t (t + 1)).2.2
    [⟨t, .unique⟩, ⟨0, .unique⟩] = _ from stack_asMutPtr hl [] (by simp) ⟨0, .unique⟩, if_pos hb, Option.bind_some,
    runAt_append]
  have h1 : stackRead t [⟨t + 1 + 2, .sharedRW⟩, ⟨t + 1 + 1, .unique⟩, ⟨t + 1, .unique⟩, ⟨t, .unique⟩, ⟨0, .unique⟩] =
      some [⟨t + 1 + 2, .sharedRW⟩, ⟨t + 1 + 1, .disabled⟩, ⟨t + 1, .disabled⟩, ⟨t, .unique⟩, ⟨0, .unique⟩] := by
    simp [stackRead_cons, Item.reads, Item.disable, Nat.add_assoc]
  have h2 : Stacked.retag .excl (t + 3) (t + 5) [⟨t + 4, .sharedRO⟩, ⟨t + 1 + 2, .sharedRW⟩, ⟨t + 1 + 1, .disabled⟩,
      ⟨t + 1, .disabled⟩, ⟨t, .unique⟩, ⟨0, .unique⟩] =
      some [⟨t + 5, .unique⟩, ⟨t + 3, .sharedRW⟩, ⟨t + 2, .disabled⟩, ⟨t + 1, .disabled⟩, ⟨t, .unique⟩,
        ⟨0, .unique⟩] := by
    simp [Stacked, stackRetag, stackWrite, cut, Item.writes, peers, Nat.add_assoc]
  rw [stack_len hl h1, Option.bind_some, runAt_cons ((hit_retag hi).trans h2)]
  rfl

theorem stack_ended {t g k l : Nat} {s : List Item} (p : Place) (hw : stackW 0 t s) (hk : k ≤ p.cap)
    (hi : (p.items k).has l = true) (hg : g < t) (h0 : g ≠ 0) :
    runAt Stacked l ((p.asMutSlice k 0 t).2.2 ++ [.write (t + 5) ⟨l, 1⟩, .read g ⟨l, 1⟩]) s = none := by
  have hl : (⟨l, 1⟩ : Region).has l = true := by rw [has_iff]; simp only; omega
  rw [runAt_append, stack_mutSlice_state p k l hw hk hi, Option.bind_some, runAt_cons ((hit_write hl).trans
    (show stackWrite (t + 5) _ = _ from stack_own_write ⟨_, _, rfl, .inl rfl⟩))]
  show (Event.act Stacked l (.read g ⟨l, 1⟩) _).bind _ = none
  rw [hit_read hl]
  show (stackRead g _).bind _ = none
  rw [stack_dead_read]
  · rfl
  · intro i hi
    simp only [List.mem_cons, List.not_mem_nil, or_false] at hi
    rcases hi with rfl | rfl | rfl | rfl | rfl | rfl <;> simp only <;> omega

theorem stack_looked {t k l : Nat} {s : List Item} (p : Place) (hw : stackW 0 t s) (hk : k ≤ p.cap)
    (hi : (p.items k).has l = true) :
    runAt Stacked l ((p.asMutSlice k 0 t).2.2 ++ (.write (t + 5) ⟨l, 1⟩ :: ((p.len 0 (t + 6)).2.2 ++
      [.write (t + 5) ⟨l, 1⟩]))) s = none := by
  have hl : (⟨l, 1⟩ : Region).has l = true := by rw [has_iff]; simp only; omega
  have ht := hw.1
  rw [runAt_append, stack_mutSlice_state p k l hw hk hi, Option.bind_some, runAt_cons ((hit_write hl).trans
    (show stackWrite (t + 5) _ = _ from stack_own_write ⟨_, _, rfl, .inl rfl⟩)), runAt_append]
  have h1 : stackRead 0 [⟨t + 5, .unique⟩, ⟨t + 3, .sharedRW⟩, ⟨t + 2, .disabled⟩, ⟨t + 1, .disabled⟩, ⟨t, .unique⟩,
      ⟨0, .unique⟩] = some [⟨t + 5, .disabled⟩, ⟨t + 3, .sharedRW⟩, ⟨t + 2, .disabled⟩, ⟨t + 1, .disabled⟩,
      ⟨t, .disabled⟩, ⟨0, .unique⟩] := by
    have : t ≠ 0 := by omega
    simp [stackRead_cons, Item.reads, Item.disable, this]
  rw [stack_len (buf_whole (items_buf hk hi)) h1, Option.bind_some]
  show (Event.act Stacked l (.write (t + 5) ⟨l, 1⟩) _).bind _ = none
  rw [hit_write hl]
  show (stackWrite (t + 5) _).bind _ = none
  have : t ≠ 0 := by omega
  simp [stackWrite, cut, Item.writes]

/-- Nor looked at. -/
theorem stack_looked_get {t k l : Nat} {s : List Item} (p : Place) (hw : stackW 0 t s) (hk : k ≤ p.cap)
    (hi : (p.items k).has l = true) :
    runAt Stacked l ((p.asMutSlice k 0 t).2.2 ++ (.write (t + 5) ⟨l, 1⟩ :: ((p.len 0 (t + 6)).2.2 ++
      [.read (t + 5) ⟨l, 1⟩]))) s = none := by
  have hl : (⟨l, 1⟩ : Region).has l = true := by rw [has_iff]; simp only; omega
  have ht := hw.1
  rw [runAt_append, stack_mutSlice_state p k l hw hk hi, Option.bind_some, runAt_cons ((hit_write hl).trans
    (show stackWrite (t + 5) _ = _ from stack_own_write ⟨_, _, rfl, .inl rfl⟩)), runAt_append]
  have h1 : stackRead 0 [⟨t + 5, .unique⟩, ⟨t + 3, .sharedRW⟩, ⟨t + 2, .disabled⟩, ⟨t + 1, .disabled⟩, ⟨t, .unique⟩,
      ⟨0, .unique⟩] = some [⟨t + 5, .disabled⟩, ⟨t + 3, .sharedRW⟩, ⟨t + 2, .disabled⟩, ⟨t + 1, .disabled⟩,
      ⟨t, .disabled⟩, ⟨0, .unique⟩] := by
    have : t ≠ 0 := by omega
    simp [stackRead_cons, Item.reads, Item.disable, this]
  rw [stack_len (buf_whole (items_buf hk hi)) h1, Option.bind_some]
  show (Event.act Stacked l (.read (t + 5) ⟨l, 1⟩) _).bind _ = none
  rw [hit_read hl]
  show (stackRead (t + 5) _).bind _ = none
  have : t ≠ 0 := by omega
  simp [stackRead, cut, Item.reads]

/-! Programs. -/

theorem events_append (p : Place) (d : Nat) : (cs ds : List Call) → (o : Owner) →
    events p d o (cs ++ ds) = events p d o cs ++ events p d (ownerAfter p d o cs) ds
  | [], _, _ => rfl
  | c :: cs, ds, o => by
    show (c.go p d o).2 ++ events p d (c.go p d o).1 (cs ++ ds) = ((c.go p d o).2 ++ events p d (c.go p d o).1 cs) ++ _
    rw [events_append p d cs ds, List.append_assoc]
    rfl

/-- No reference has the tag of an owner. -/
theorem go_tags {p : Place} {d : Nat} {o : Owner} (h2 : 2 ≤ o.next) (ht : ∀ x ∈ o.held, 2 ≤ x.tag) (c : Call) :
    ∀ x ∈ (c.go p d o).1.held, 2 ≤ x.tag := by
  have refs : ∀ k n, ∀ t ∈ (p.refs o.next k n).1, n ≤ t := by
    intro k
    induction k with
    | zero => exact fun n t ht => nomatch ht
    | succ k ih =>
      intro n t ht
      rcases List.mem_cons.mp (show t ∈ (n + 2) :: (p.refs o.next k (n + 3)).1 from ht) with rfl | ht
      · omega
      · have := ih (n + 3) t ht
        omega
  have muts : ∀ k n, ∀ t ∈ (p.muts o.next k n).1, n ≤ t := by
    intro k
    induction k with
    | zero => exact fun n t ht => nomatch ht
    | succ k ih =>
      intro n t ht
      rcases List.mem_cons.mp (show t ∈ (n + 2) :: (p.muts o.next k (n + 3)).1 from ht) with rfl | ht
      · omega
      · have := ih (n + 3) t ht
        omega
  cases c with
  | len => exact ht
  | copyFromSlice n => exact ht
  | asSlice =>
    intro x hx
    rcases List.mem_append.mp hx with hx | hx
    · exact ht x hx
    · rcases List.mem_singleton.mp hx with rfl
      show 2 ≤ o.next + 5
      omega
  | asMutSlice =>
    intro x hx
    rcases List.mem_append.mp hx with hx | hx
    · exact ht x hx
    · rcases List.mem_singleton.mp hx with rfl
      show 2 ≤ o.next + 5
      omega
  | eachRef =>
    intro x hx
    rcases List.mem_append.mp hx with hx | hx
    · exact ht x hx
    · have := refs o.len (o.next + 1) x.tag (single_mem p 0 _ x hx).1
      omega
  | eachMut =>
    intro x hx
    rcases List.mem_append.mp hx with hx | hx
    · exact ht x hx
    · have := muts o.len (o.next + 1) x.tag (single_mem p 0 _ x hx).1
      omega
  | get k i =>
    have : (Call.go p d o (.get k i)).1 = o := by
      simp only [Call.go]
      split <;> rfl
    rw [this]
    exact ht
  | set k i =>
    have : (Call.go p d o (.set k i)).1 = o := by
      simp only [Call.go]
      split <;> rfl
    rw [this]
    exact ht

theorem Sound.run_holds {σ : Type} {R : Rules σ} {rule : Loan → Prop} (S : Sound R rule) {p : Place} {d : Nat}
    (hd : Apart p d) : (cs : List Call) → (o : Owner) → (loans : List Loan) → Agree p o loans →
    (∀ x ∈ o.held, 2 ≤ x.tag) → Checked rule p.cap o.len loans cs →
    ∃ loans', Agree p (ownerAfter p d o cs) loans' ∧ (∀ x ∈ (ownerAfter p d o cs).held, 2 ≤ x.tag) ∧
      ∀ (l : Nat) (s : σ), S.Holds p o loans l s →
        ∃ s', runAt R l (events p d o cs) s = some s' ∧ S.Holds p (ownerAfter p d o cs) loans' l s'
  | [], _, loans, hA, ht, _ => ⟨loans, hA, ht, fun _ s h => ⟨s, rfl, h⟩⟩
  | c :: cs, o, loans, hA, ht, hC => by
    obtain ⟨hA', hlen, _⟩ := hA.step (d := d) c hC.1
    have hC2 := hC.2
    rw [← hlen] at hC2
    obtain ⟨loans', h1, h2, h3⟩ := S.run_holds hd cs _ _ hA' (go_tags hA.next ht c) hC2
    refine ⟨loans', h1, h2, fun l s hs => ?_⟩
    obtain ⟨s1, h4, h5⟩ := S.step hd hA c hC.1 l s hs
    obtain ⟨s2, h6, h7⟩ := h3 l s1 h5
    refine ⟨s2, ?_, h7⟩
    show runAt R l ((c.go p d o).2 ++ events p d (c.go p d o).1 cs) s = _
    rw [runAt_append, h4]
    exact h6

theorem defined_prefix {σ : Type} {R : Rules σ} {p : Place} {es fs : List Event} (h : Defined R p (es ++ fs)) :
    Defined R p es := by
  intro l
  obtain ⟨s', h⟩ := h l
  rw [runAt_append] at h
  cases hr : runAt R l es (R.start (if p.whole.has l = true then ownerTag else dataTag)) with
  | none => rw [hr] at h; cases h
  | some s1 => exact ⟨s1, rfl⟩

/-- The calls that end all references that were returned before. -/
theorem ended_events (p : Place) (d : Nat) (o : Owner) {k : Nat} {x : Held} (hx : o.held[k]? = some x) (i j : Nat)
    (same : x.r.lo + i = p.at_ + j) :
    events p d o [.asMutSlice, .set o.held.length j, .get k i] =
      (p.asMutSlice o.len 0 o.next).2.2 ++ [.write (o.next + 5) ⟨p.at_ + j, 1⟩, .read x.tag ⟨p.at_ + j, 1⟩] := by
  have hk : k < o.held.length := (List.getElem?_eq_some_iff.mp hx).1
  have h1 : (o.held ++ [(⟨o.next + 5, p.items o.len⟩ : Held)])[o.held.length]? = some ⟨o.next + 5, p.items o.len⟩ := by
    simp
  have h2 : (o.held ++ [(⟨o.next + 5, p.items o.len⟩ : Held)])[k]? = some x := by
    rw [List.getElem?_append_left hk, hx]
  show (p.asMutSlice o.len 0 o.next).2.2 ++ ((Call.go p d ⟨o.len, o.next + 6, o.held ++ [⟨o.next + 5, p.items o.len⟩]⟩
    (.set o.held.length j)).2 ++ ((Call.go p d (Call.go p d ⟨o.len, o.next + 6, o.held ++ [⟨o.next + 5, p.items o.len⟩]⟩
    (.set o.held.length j)).1 (.get k i)).2 ++ [])) = _
  simp only [Call.go, h1, h2, same]
  rfl

theorem looked_events (p : Place) (d : Nat) (o : Owner) (j : Nat) :
    events p d o [.asMutSlice, .set o.held.length j, .len, .set o.held.length j] =
      (p.asMutSlice o.len 0 o.next).2.2 ++ (.write (o.next + 5) ⟨p.at_ + j, 1⟩ :: ((p.len 0 (o.next + 6)).2.2 ++
        [.write (o.next + 5) ⟨p.at_ + j, 1⟩])) := by
  have h1 : (o.held ++ [(⟨o.next + 5, p.items o.len⟩ : Held)])[o.held.length]? = some ⟨o.next + 5, p.items o.len⟩ := by
    simp
  show (p.asMutSlice o.len 0 o.next).2.2 ++ ((Call.go p d ⟨o.len, o.next + 6, o.held ++ [⟨o.next + 5, p.items o.len⟩]⟩
    (.set o.held.length j)).2 ++ ((Call.go p d (Call.go p d ⟨o.len, o.next + 6, o.held ++ [⟨o.next + 5, p.items o.len⟩]⟩
    (.set o.held.length j)).1 .len).2 ++ ((Call.go p d (Call.go p d (Call.go p d ⟨o.len, o.next + 6,
    o.held ++ [⟨o.next + 5, p.items o.len⟩]⟩ (.set o.held.length j)).1 .len).1 (.set o.held.length j)).2 ++ []))) = _
  simp only [Call.go, h1]
  rfl

theorem looked_get_events (p : Place) (d : Nat) (o : Owner) (j : Nat) :
    events p d o [.asMutSlice, .set o.held.length j, .len, .get o.held.length j] =
      (p.asMutSlice o.len 0 o.next).2.2 ++ (.write (o.next + 5) ⟨p.at_ + j, 1⟩ :: ((p.len 0 (o.next + 6)).2.2 ++
        [.read (o.next + 5) ⟨p.at_ + j, 1⟩])) := by
  have h1 : (o.held ++ [(⟨o.next + 5, p.items o.len⟩ : Held)])[o.held.length]? = some ⟨o.next + 5, p.items o.len⟩ := by
    simp
  show (p.asMutSlice o.len 0 o.next).2.2 ++ ((Call.go p d ⟨o.len, o.next + 6, o.held ++ [⟨o.next + 5, p.items o.len⟩]⟩
    (.set o.held.length j)).2 ++ ((Call.go p d (Call.go p d ⟨o.len, o.next + 6, o.held ++ [⟨o.next + 5, p.items o.len⟩]⟩
    (.set o.held.length j)).1 .len).2 ++ ((Call.go p d (Call.go p d (Call.go p d ⟨o.len, o.next + 6,
    o.held ++ [⟨o.next + 5, p.items o.len⟩]⟩ (.set o.held.length j)).1 .len).1 (.get o.held.length j)).2 ++ []))) = _
  simp only [Call.go, h1]
  rfl

theorem item_at {p : Place} {n j : Nat} (h : j < n) : (p.items n).has (p.at_ + j) = true := by
  rw [has_iff]
  simp only [Place.items]
  omega

/-- Where both end, if there is no way to go on from a state that is reached. -/
theorem Sound.stuck {σ : Type} {R : Rules σ} {rule : Loan → Prop} (S : Sound R rule) {p : Place} {d : Nat} (hd : Apart p d)
    {n : Nat} (hn : n ≤ p.cap) {cs ds : List Call} (hc : Checked anyLoan p.cap n [] cs) {j : Nat}
    (hj : j < (ownerAfter p d (Owner.new n) cs).len)
    (h : ∀ s, runAt R (p.at_ + j) (events p d (Owner.new n) cs) (R.start ownerTag) = some s →
      S.W ownerTag (ownerAfter p d (Owner.new n) cs).next s → (ownerAfter p d (Owner.new n) cs).len ≤ p.cap →
      (∀ x ∈ (ownerAfter p d (Owner.new n) cs).held, 2 ≤ x.tag ∧ x.tag < (ownerAfter p d (Owner.new n) cs).next) →
      runAt R (p.at_ + j) (events p d (ownerAfter p d (Owner.new n) cs) ds) s = none) :
    ¬ Defined R p (events p d (Owner.new n) (cs ++ ds)) := by
  intro hdef
  rw [events_append] at hdef
  have hc' := (S.defined_iff hd n hn cs hc).mp (defined_prefix hdef)
  obtain ⟨loans', h1, h2, h3⟩ := S.run_holds hd cs (Owner.new n) [] (agree_new p n hn) (fun _ hx => nomatch hx) hc'
  have hlen := h1.len
  have hroot : p.whole.has (p.at_ + j) = true := buf_whole (items_buf hlen (item_at hj))
  obtain ⟨s', h4, h5⟩ := h3 (p.at_ + j) _ (S.holds_new p n (p.at_ + j))
  rw [show rootAt p (p.at_ + j) = ownerTag from if_pos hroot] at h4
  have hw := h5.1
  rw [show rootAt p (p.at_ + j) = ownerTag from if_pos hroot] at hw
  obtain ⟨s'', h6⟩ := hdef (p.at_ + j)
  rw [if_pos hroot, runAt_append, h4, Option.bind_some, h s' h4 hw hlen fun x hx => ⟨h2 x hx, ?_⟩] at h6
  · cases h6
  · obtain ⟨i, hi⟩ := List.getElem?_of_mem hx
    have hil : i < loans'.length := by
      rw [← h1.same]
      exact (List.getElem?_eq_some_iff.mp hi).1
    exact (h1.each _ (zip_at hi (List.getElem?_eq_getElem hil))).2.1

end Oct.Alias
