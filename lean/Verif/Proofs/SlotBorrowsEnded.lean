import Verif.Proofs.SlotBorrowsRun
import Verif.Proofs.BorrowsEnded
/-
What pointers to the buffer of a slot end, and what ends them.
-/
namespace Oct.Alias
open Spec Sound

variable {p : Place} {t l : Nat}

theorem here (l : Nat) : (⟨l, 1⟩ : Region).has l = true := by rw [has_iff]; simp only; omega

theorem buf_at {j : Nat} (hj : j < p.cap) : p.buf.has (p.at_ + j) = true := by
  rw [has_iff]
  simp only [Place.buf]
  omega

theorem buf_not_head (h : p.buf.has l = true) : ¬ p.head.has l = true := by
  intro h'
  rw [has_iff] at *
  simp only [Place.buf, Place.head] at *
  omega

/-- `as_mut_ptr`, where there is an octet. -/
theorem slotMutPtr_at {σ : Type} {R : Rules σ} (hb : p.buf.has l = true) (s : σ) :
    runAt R l (p.slotMutPtr 0 t).2.2 s =
      (R.retag .excl 0 (t + 1) s).bind fun s => R.retag .raw (t + 1) (t + 2) s := by
  show runAt R l [.retag .excl 0 t p.head, .read t p.head, .retag .excl 0 (t + 1) p.buf,
    .retag .raw (t + 1) (t + 2) p.buf] s = _
  rw [runAt_cons (miss_retag (buf_not_head hb)), runAt_cons (miss_read (buf_not_head hb))]
  show (Event.act R l _ s).bind _ = _
  rw [hit_retag hb]
  congr 1
  funext s1
  show (Event.act R l _ s1).bind _ = _
  rw [hit_retag hb]
  cases R.retag .raw (t + 1) (t + 2) s1 <;> rfl

/-- `set_len`, where there is an octet. -/
theorem slotSetLen_at {σ : Type} {R : Rules σ} (hb : p.buf.has l = true) (s : σ) :
    runAt R l (p.setLen 0 t).2.2 s = (R.retag .shared 0 (t + 2) s).bind fun s => R.retag .shared 0 (t + 5) s := by
  have hh := buf_not_head hb
  show runAt R l [.retag .excl 0 t p.head, .retag .shared t (t + 1) p.head, .read (t + 1) p.head,
    .retag .shared 0 (t + 2) p.buf, .retag .excl t (t + 3) p.head, .retag .shared (t + 3) (t + 4) p.head,
    .read (t + 4) p.head, .retag .shared 0 (t + 5) p.buf, .write (t + 3) p.head] s = _
  rw [runAt_cons (miss_retag hh), runAt_cons (miss_retag hh), runAt_cons (miss_read hh)]
  show (Event.act R l _ s).bind _ = _
  rw [hit_retag hb]
  congr 1
  funext s1
  rw [runAt_cons (miss_retag hh), runAt_cons (miss_retag hh), runAt_cons (miss_read hh)]
  show (Event.act R l _ s1).bind _ = _
  rw [hit_retag hb]
  cases R.retag .shared 0 (t + 5) s1 with
  | none => rfl
  | some s2 =>
    rw [Option.bind_some, runAt_cons (miss_write hh)]
    rfl

/-- `len`, where there is an octet. -/
theorem slotLen_miss {σ : Type} {R : Rules σ} (hb : p.buf.has l = true) (s : σ) :
    runAt R l (p.slotLen 0 t).2.2 s = some s := by
  show runAt R l [.retag .shared 0 t p.head, .read t p.head] s = _
  rw [runAt_cons (miss_retag (buf_not_head hb)), runAt_cons (miss_read (buf_not_head hb))]
  rfl

/-! Stacked Borrows. -/

theorem stack_point {s : List Item} (hw : stackW 0 t s) (hb : p.buf.has l = true) :
    runAt Stacked l (p.slotMutPtr 0 t).2.2 s = some [⟨t + 2, .sharedRW⟩, ⟨t + 1, .unique⟩, ⟨0, .unique⟩] := by
  rw [slotMutPtr_at hb, show Stacked.retag .excl 0 (t + 1) s = _ from hw.excl, Option.bind_some]
  simp [Stacked, stackRetag, cut, Item.writes, peers]

theorem stack_point_write :
    Stacked.write (t + 2) [⟨t + 2, .sharedRW⟩, ⟨t + 1, .unique⟩, ⟨0, .unique⟩] =
      some [⟨t + 2, .sharedRW⟩, ⟨t + 1, .unique⟩, ⟨0, .unique⟩] :=
  stack_own_write ⟨_, _, rfl, .inr rfl⟩

theorem stack_point_ended {g : Nat} {s : List Item} (hw : stackW 0 t s) (hb : p.buf.has l = true) (hg : g < t)
    (h0 : g ≠ 0) :
    runAt Stacked l ((p.slotMutPtr 0 t).2.2 ++ [.write (t + 2) ⟨l, 1⟩, .read g ⟨l, 1⟩]) s = none := by
  rw [runAt_append, stack_point hw hb, Option.bind_some, runAt_cons ((hit_write (here l)).trans stack_point_write)]
  show (Event.act Stacked l (.read g ⟨l, 1⟩) _).bind _ = none
  rw [hit_read (here l)]
  show (stackRead g _).bind _ = none
  rw [stack_dead_read]
  · rfl
  · intro i hi
    simp only [List.mem_cons, List.not_mem_nil, or_false] at hi
    rcases hi with rfl | rfl | rfl <;> simp only <;> omega

theorem stack_point_kept {s : List Item} (hw : stackW 0 t s) (hb : p.buf.has l = true) :
    ∃ s', runAt Stacked l ((p.slotMutPtr 0 t).2.2 ++ (.write (t + 2) ⟨l, 1⟩ :: ((p.setLen 0 (t + 3)).2.2 ++
      [.write (t + 2) ⟨l, 1⟩]))) s = some s' := by
  have h0 := hw.1
  rw [runAt_append, stack_point hw hb, Option.bind_some, runAt_cons ((hit_write (here l)).trans stack_point_write),
    runAt_append, slotSetLen_at hb]
  have h1 : Stacked.retag .shared 0 (t + 3 + 2) [⟨t + 2, .sharedRW⟩, ⟨t + 1, .unique⟩, ⟨0, .unique⟩] =
      some [⟨t + 5, .sharedRO⟩, ⟨t + 2, .sharedRW⟩, ⟨t + 1, .disabled⟩, ⟨0, .unique⟩] := by
    simp [Stacked, stackRetag, stackRead_cons, Item.reads, Item.disable]
  have h2 : Stacked.retag .shared 0 (t + 3 + 5) [⟨t + 5, .sharedRO⟩, ⟨t + 2, .sharedRW⟩, ⟨t + 1, .disabled⟩,
      ⟨0, .unique⟩] = some [⟨t + 8, .sharedRO⟩, ⟨t + 5, .sharedRO⟩, ⟨t + 2, .sharedRW⟩, ⟨t + 1, .disabled⟩,
      ⟨0, .unique⟩] := by
    simp [Stacked, stackRetag, stackRead_cons, Item.reads, Item.disable]
  rw [h1, Option.bind_some, h2, Option.bind_some]
  refine ⟨[⟨t + 2, .sharedRW⟩, ⟨t + 1, .disabled⟩, ⟨0, .unique⟩], ?_⟩
  show (Event.act Stacked l (.write (t + 2) ⟨l, 1⟩) _).bind _ = _
  rw [hit_write (here l)]
  simp [Stacked, stackWrite, cut, Item.writes, peers, runAt]

/-! Tree Borrows. -/

theorem tree_point {s : List Node} (hw : treeW 0 t s) (hb : p.buf.has l = true) :
    ∃ s' z, runAt Tree l (p.slotMutPtr 0 t).2.2 s = some s' ∧ treeW 0 (t + 3) s' ∧ treeOwn (t + 2) s' ∧ Grow t s s' ∧
      find (t + 2) s' = some z ∧ z.id = t + 1 ∧ z.line = [t + 1, 0] := by
  have h0 : 0 < t := hw.1
  obtain ⟨s1, y1, a1, a2, a3, _, a5, a6, z1, a7, a8, a9⟩ := excl_line (treeW.mono (Nat.le_succ t) hw) hw.fresh
  obtain ⟨s2, d1, d2, d3, d4, d5, z2, d6, d7⟩ := raw_line a2 (by omega) a3 a7
  rw [hw.find_root] at a6
  cases a6
  refine ⟨s2, z2, ?_, d2, d3.own d2, (fun g hg => (d5 g (by omega)).trans (a5 g (by omega))), d6, ?_, ?_⟩
  · rw [slotMutPtr_at hb, a1]
    exact d1
  · have hr : treeRetag .raw (t + 1) (t + 1 + 1) s1 = some s2 := d1
    simp only [treeRetag, a7, Option.some.injEq] at hr
    have : find (t + 2) s2 = some (nameMap (t + 1) (t + 2) z1) := by
      rw [← hr]
      show find (t + 2) (s1.map (nameMap (t + 1) (t + 2))) = _
      rw [find_raw fun m hm hn => by
        have := (a2.bounds m hm).2.1 (t + 2) hn
        omega, a7]
      rfl
    have e : some z2 = some (nameMap (t + 1) (t + 2) z1) := d6.symm.trans this
    cases e
    rw [(nameMap_keeps _ _ z1).1, a8]
  · rw [d7, a9]

theorem tree_point_ended {g : Nat} {s : List Node} (hw : treeW 0 t s) (hR : Rooted s) (hb : p.buf.has l = true)
    (hg : g < t) (h0 : g ≠ 0) :
    runAt Tree l ((p.slotMutPtr 0 t).2.2 ++ [.write (t + 2) ⟨l, 1⟩, .read g ⟨l, 1⟩]) s = none := by
  obtain ⟨s1, z, a1, a2, a3, a4, a5, _, a6⟩ := tree_point hw hb
  obtain ⟨z', b1, b2⟩ := tree_write a3
  rw [a5] at b1
  cases b1
  rw [runAt_append, a1, Option.bind_some, runAt_cons ((hit_write (here l)).trans b2)]
  have hR2 : Rooted (s1.map (writeMap z.line)) := (hR.run _ a1).map (f := writeMap z.line) fun m => ⟨rfl, rfl⟩
  show (Event.act Tree l (.read g ⟨l, 1⟩) _).bind _ = none
  rw [hit_read (here l)]
  show (treeRead g _).bind _ = none
  rw [tree_disabled hR2 fun y hy => ?_]
  · rfl
  · rw [find_map fun m => (writeMap_steady _ m).2.1] at hy
    cases hf : find g s1 with
    | none => rw [hf] at hy; cases hy
    | some y1 =>
      rw [hf] at hy
      cases hy
      have he := a4 g hg
      rw [hf] at he
      cases hf0 : find g s with
      | none => rw [hf0] at he; cases he
      | some y0 =>
        rw [hf0] at he
        simp only [Option.map_some, Option.some.injEq, Prod.mk.injEq] at he
        obtain ⟨m1, m2⟩ := find_names hf0
        have hlt := (hw.bounds y0 m1).1
        have hne : y0.id ≠ 0 := by
          intro e
          have := hw.root y0 m1 e
          rw [this] at m2
          simp at m2
          exact h0 m2
        have hnot : y1.id ∉ z.line := by
          rw [a6]
          simp only [List.mem_cons, List.not_mem_nil, or_false]
          omega
        show (if y1.id ∈ z.line then State.active else State.disabled).mayRead = false
        rw [if_neg hnot]
        rfl

/-- Making a `&` of the owner freezes all other references. -/
theorem tree_looks {n g : Nat} {s : List Node} (hw : treeW 0 n s) {y : Node} (hy : find g s = some y) (hi : y.id ≠ 0) :
    ∃ s', Tree.retag .shared 0 n s = some s' ∧ treeW 0 (n + 1) s' ∧
      ∃ y', find g s' = some y' ∧ y'.id = y.id ∧ y'.state = y.state.foreignRead := by
  obtain ⟨s1, a1, a2, _⟩ := hw.shared (hw.fresh.own hw).see
  refine ⟨s1, a1, a2, readMap [0] y, ?_, (readMap_steady _ y).1, ?_⟩
  · have hr : treeRetag .shared 0 n s = some s1 := a1
    simp only [treeRetag, hw.find_root] at hr
    cases hd : treeRead 0 s with
    | none => rw [hd] at hr; cases hr
    | some s2 =>
      rw [hd] at hr
      obtain ⟨r, e, rfl⟩ := read_maps hd
      rw [hw.find_root] at e
      cases e
      cases hr
      have hf : find g (s.map (readMap [0])) = some (readMap [0] y) := by
        rw [find_map fun m => (readMap_steady _ m).2.1, hy]
        rfl
      exact treeW.find_push (hw.after_read hw.find_root) rfl hf
  · unfold readMap
    rw [if_neg (by simp [hi])]

theorem tree_point_kept {s : List Node} (hw : treeW 0 t s) (hR : Rooted s) (hb : p.buf.has l = true) :
    runAt Tree l ((p.slotMutPtr 0 t).2.2 ++ (.write (t + 2) ⟨l, 1⟩ :: ((p.setLen 0 (t + 3)).2.2 ++
      [.write (t + 2) ⟨l, 1⟩]))) s = none := by
  obtain ⟨s1, z, a1, a2, a3, a4, a5, a6, a7⟩ := tree_point hw hb
  obtain ⟨z', b1, b2⟩ := tree_write a3
  rw [a5] at b1
  cases b1
  have hw2 := a2.after_write a5
  have hz : find (t + 2) (s1.map (writeMap z.line)) = some (writeMap z.line z) := by
    rw [find_map fun m => (writeMap_steady _ m).2.1, a5]
    rfl
  obtain ⟨s3, c1, c2, y3, c3, c4, c5⟩ := tree_looks (treeW.mono (show t + 3 ≤ t + 3 + 2 by omega) hw2) hz
    (by show z.id ≠ 0; omega)
  obtain ⟨s4, d1, d2, y4, d3, d4, d5⟩ := tree_looks (treeW.mono (show t + 3 + 2 + 1 ≤ t + 3 + 5 by omega) c2) c3
    (by rw [c4]; show z.id ≠ 0; omega)
  have e : runAt Tree l (p.setLen 0 (t + 3)).2.2 (s1.map (writeMap z.line)) = some s4 := by
    rw [slotSetLen_at hb, c1]
    exact d1
  have hR4 : Rooted s4 := ((hR.run _ a1).map (f := writeMap z.line) fun m => ⟨rfl, rfl⟩).run _ e
  rw [runAt_append, a1, Option.bind_some, runAt_cons ((hit_write (here l)).trans b2), runAt_append, e, Option.bind_some]
  show (Event.act Tree l (.write (t + 2) ⟨l, 1⟩) s4).bind _ = none
  rw [hit_write (here l)]
  show (treeWrite (t + 2) s4).bind _ = none
  rw [tree_frozen hR4 fun y hy => ?_]
  · rfl
  · rw [d3] at hy
    cases hy
    rw [d5, c5]
    show ((if z.id ∈ z.line then State.active else State.disabled).foreignRead).foreignRead.mayWrite = false
    split <;> rfl

/-! Programs. -/

theorem point_ended_events (p : Place) (d : Nat) (o : Owner) {k : Nat} {x : Held} (hx : o.held[k]? = some x) (i j : Nat)
    (same : x.r.lo + i = p.at_ + j) :
    slotEvents p d o [.asMutPtr, .set o.held.length j, .get k i] =
      (p.slotMutPtr 0 o.next).2.2 ++ [.write (o.next + 2) ⟨p.at_ + j, 1⟩, .read x.tag ⟨p.at_ + j, 1⟩] := by
  have hk : k < o.held.length := (List.getElem?_eq_some_iff.mp hx).1
  have h1 : (o.held ++ [(⟨o.next + 2, p.buf⟩ : Held)])[o.held.length]? = some ⟨o.next + 2, p.buf⟩ := by
    simp
  have h2 : (o.held ++ [(⟨o.next + 2, p.buf⟩ : Held)])[k]? = some x := by
    rw [List.getElem?_append_left hk, hx]
  show (p.slotMutPtr 0 o.next).2.2 ++ ((SlotCall.go p d ⟨o.len, o.next + 3, o.held ++ [⟨o.next + 2, p.buf⟩]⟩
    (.set o.held.length j)).2 ++ ((SlotCall.go p d (SlotCall.go p d ⟨o.len, o.next + 3, o.held ++
    [⟨o.next + 2, p.buf⟩]⟩ (.set o.held.length j)).1 (.get k i)).2 ++ [])) = _
  simp only [SlotCall.go, h1, h2, same]
  rfl

theorem point_kept_events (p : Place) (d : Nat) (o : Owner) (j q : Nat) :
    slotEvents p d o [.asMutPtr, .set o.held.length j, .setLen q, .set o.held.length j] =
      (p.slotMutPtr 0 o.next).2.2 ++ (.write (o.next + 2) ⟨p.at_ + j, 1⟩ :: ((p.setLen 0 (o.next + 3)).2.2 ++
        [.write (o.next + 2) ⟨p.at_ + j, 1⟩])) := by
  have h1 : (o.held ++ [(⟨o.next + 2, p.buf⟩ : Held)])[o.held.length]? = some ⟨o.next + 2, p.buf⟩ := by
    simp
  show (p.slotMutPtr 0 o.next).2.2 ++ ((SlotCall.go p d ⟨o.len, o.next + 3, o.held ++ [⟨o.next + 2, p.buf⟩]⟩
    (.set o.held.length j)).2 ++ slotEvents p d (SlotCall.go p d ⟨o.len, o.next + 3, o.held ++
    [⟨o.next + 2, p.buf⟩]⟩ (.set o.held.length j)).1 [.setLen q, .set o.held.length j]) = _
  simp only [SlotCall.go, h1, slotEvents]
  rfl

theorem point_len_events (p : Place) (d : Nat) (o : Owner) (j : Nat) :
    slotEvents p d o [.asMutPtr, .set o.held.length j, .len, .set o.held.length j] =
      (p.slotMutPtr 0 o.next).2.2 ++ (.write (o.next + 2) ⟨p.at_ + j, 1⟩ :: ((p.slotLen 0 (o.next + 3)).2.2 ++
        [.write (o.next + 2) ⟨p.at_ + j, 1⟩])) := by
  have h1 : (o.held ++ [(⟨o.next + 2, p.buf⟩ : Held)])[o.held.length]? = some ⟨o.next + 2, p.buf⟩ := by
    simp
  show (p.slotMutPtr 0 o.next).2.2 ++ ((SlotCall.go p d ⟨o.len, o.next + 3, o.held ++ [⟨o.next + 2, p.buf⟩]⟩
    (.set o.held.length j)).2 ++ slotEvents p d (SlotCall.go p d ⟨o.len, o.next + 3, o.held ++
    [⟨o.next + 2, p.buf⟩]⟩ (.set o.held.length j)).1 [.len, .set o.held.length j]) = _
  simp only [SlotCall.go, h1, slotEvents]
  rfl

/-- A pointer is made, written by, and written by again after another call: all is well if it is where this is. -/
theorem Nest.goes {σ : Type} {R : Rules σ} {rule : Loan → Prop} {S : Sound R rule} (N : Nest S) {d : Nat}
    (hd : Behind p d) {n : Nat} (hn : n ≤ p.cap) {cs : List SlotCall} (hc : SlotChecked p.cap n [] cs) {j : Nat}
    (hj : j < p.cap) (c : SlotCall) (hp : ∀ loans, SlotPermits p.cap loans c)
    (hk : ∀ o, (c.go p d o).1.held = o.held)
    (h : ∀ s, S.W ownerTag (slotAfter p d (Owner.new n) cs).next s →
      ∃ s', runAt R (p.at_ + j) (slotEvents p d (slotAfter p d (Owner.new n) cs)
        [.asMutPtr, .set (slotAfter p d (Owner.new n) cs).held.length j, c,
          .set (slotAfter p d (Owner.new n) cs).held.length j]) s = some s') :
    Defined R p (slotEvents p d (Owner.new n) (cs ++ [.asMutPtr, .set (slotAfter p d (Owner.new n) cs).held.length j, c,
      .set (slotAfter p d (Owner.new n) cs).held.length j])) := by
  intro l
  rw [Nest.slotEvents_append]
  obtain ⟨loans, h1, _, h3⟩ := N.run_holds hd cs (Owner.new n) [] ⟨agree_new p n hn, fun _ hx => nomatch hx⟩
    (fun _ hx => nomatch hx) hc
  obtain ⟨s1, h4, h5⟩ := h3 l _ (S.holds_new p n l)
  rw [runAt_append, h4, Option.bind_some]
  generalize slotAfter p d (Owner.new n) cs = o at *
  by_cases e : l = p.at_ + j
  · subst e
    have hw := h5.1
    rw [show rootAt p (p.at_ + j) = ownerTag from if_pos (buf_whole (buf_at hj))] at hw
    exact h s1 hw
  · have hm : ¬ (⟨p.at_ + j, 1⟩ : Region).has l = true := by
      rw [has_iff]
      simp only
      omega
    obtain ⟨s2, a1, a2⟩ := N.step hd h1 .asMutPtr trivial s1 h5
    obtain ⟨s3, b1, _⟩ := N.step hd (h1.step (d := d) .asMutPtr trivial).1 c (hp _) s2 a2
    have hg : (SlotCall.go p d o .asMutPtr).1.held[o.held.length]? = some ⟨o.next + 2, p.buf⟩ := by
      show (o.held ++ [(⟨o.next + 2, p.buf⟩ : Held)])[o.held.length]? = _
      simp
    have hg2 := hg
    rw [← hk] at hg2
    refine ⟨s3, ?_⟩
    have e1 : SlotCall.go p d (SlotCall.go p d o .asMutPtr).1 (.set o.held.length j) =
        ((SlotCall.go p d o .asMutPtr).1, [.write (o.next + 2) ⟨p.at_ + j, 1⟩]) := by
      show (match (SlotCall.go p d o .asMutPtr).1.held[o.held.length]? with | some x => _ | none => _) = _
      rw [hg]
      rfl
    have e2 : (SlotCall.go p d (c.go p d (SlotCall.go p d o .asMutPtr).1).1 (.set o.held.length j)).2 =
        [.write (o.next + 2) ⟨p.at_ + j, 1⟩] := by
      generalize (c.go p d (SlotCall.go p d o .asMutPtr).1).1 = o2 at hg2
      simp only [SlotCall.go, hg2]
      rfl
    show runAt R l ((SlotCall.go p d o .asMutPtr).2 ++ ((SlotCall.go p d (SlotCall.go p d o .asMutPtr).1
      (.set o.held.length j)).2 ++ slotEvents p d (SlotCall.go p d (SlotCall.go p d o .asMutPtr).1
      (.set o.held.length j)).1 [c, .set o.held.length j])) s1 = _
    rw [e1, runAt_append, a1, Option.bind_some]
    show runAt R l (.write (o.next + 2) ⟨p.at_ + j, 1⟩ :: ((c.go p d (SlotCall.go p d o .asMutPtr).1).2 ++
      ((SlotCall.go p d (c.go p d (SlotCall.go p d o .asMutPtr).1).1 (.set o.held.length j)).2 ++ []))) s2 = _
    rw [runAt_cons (miss_write hm), runAt_append, b1, Option.bind_some, e2, List.append_nil, runAt_cons (miss_write hm)]
    rfl

/-- The length may be looked at in between, under both. -/
theorem Nest.point_len {σ : Type} {R : Rules σ} {rule : Loan → Prop} {S : Sound R rule} (N : Nest S) {t : Nat} {s : σ}
    (hw : S.W 0 t s) (hb : p.buf.has l = true) :
    ∃ s', runAt R l ((p.slotMutPtr 0 t).2.2 ++ (.write (t + 2) ⟨l, 1⟩ :: ((p.slotLen 0 (t + 3)).2.2 ++
      [.write (t + 2) ⟨l, 1⟩]))) s = some s' := by
  obtain ⟨s1, a1, a2, a3⟩ := N.pointer (buf_whole hb) hw
  obtain ⟨s2, b1, b2, b3, _⟩ := S.write_own a2 (a3 hb)
  obtain ⟨s3, c1, _⟩ := S.write_own b2 b3
  refine ⟨s3, ?_⟩
  rw [runAt_append, a1, Option.bind_some, runAt_cons ((hit_write (here l)).trans b1), runAt_append, slotLen_miss hb,
    Option.bind_some, runAt_cons ((hit_write (here l)).trans c1)]
  rfl

end Oct.Alias
