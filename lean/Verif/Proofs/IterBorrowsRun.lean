import Verif.Proofs.IterBorrows
/-
That whole programs that own an iterator are defined, and what their calls read and write.
-/
namespace Oct.Alias
open Spec Sound

/-- The owner, as that of a sized slice of the items up to the last that is left. -/
abbrev Cursor.owner (c : Cursor) : Owner := ⟨c.pos + c.len, c.next, c.held⟩

/-- What holds of the owner of an iterator and the borrow checker. -/
def IterAgree (p : Place) (c : Cursor) (loans : List Loan) : Prop := Agree p c.owner loans ∧ ∀ x ∈ loans, x.last = true

theorem iterNext_next (p : Place) (len i h n : Nat) : n ≤ (p.iterNext len i h n).2.1 := by
  by_cases hl : len = 0
  · subst hl
    exact Nat.le_succ n
  · rw [iterNext_some p hl]
    exact Nat.le_add_right n 3

theorem iterNth_next (p : Place) (pos len i h n : Nat) : n ≤ (p.iterNth pos len i h n).2.1 := by
  by_cases hl : i > len
  · rw [iterNth_none p hl]
    exact Nat.le_succ n
  · rw [iterNth_some p hl]
    show n ≤ n + 4 + (i - 1) + 2
    omega

theorem iterClone_next (p : Place) (pos len h n : Nat) : (p.iterClone pos len h n).2.1 = n + 1 + 3 * len :=
  iterClones_next p n len pos (n + 1)

theorem nth_go_none {p : Place} {o : Cursor} {i : Nat} (h : i > o.len) : IterCall.go p o (.nth i) =
    ({ o with next := (p.iterNth o.pos o.len i 0 o.next).2.1 }, (p.iterNth o.pos o.len i 0 o.next).2.2) := if_pos h

theorem nth_go_some {p : Place} {o : Cursor} {i : Nat} (h : ¬ i > o.len) : IterCall.go p o (.nth i) =
    ({ o with pos := o.pos + i, len := o.len - i, next := (p.iterNth o.pos o.len i 0 o.next).2.1 },
      (p.iterNth o.pos o.len i 0 o.next).2.2) := if_neg h

theorem nth_go_events (p : Place) (o : Cursor) (i : Nat) : (IterCall.go p o (.nth i)).2 =
    (p.iterNth o.pos o.len i 0 o.next).2.2 := by
  by_cases h : i > o.len
  · rw [nth_go_none h]
  · rw [nth_go_some h]

theorem nth_go_next (p : Place) (o : Cursor) (i : Nat) : (IterCall.go p o (.nth i)).1.next =
    (p.iterNth o.pos o.len i 0 o.next).2.1 := by
  by_cases h : i > o.len
  · rw [nth_go_none h]
  · rw [nth_go_some h]

theorem nth_go_held (p : Place) (o : Cursor) (i : Nat) : (IterCall.go p o (.nth i)).1.held = o.held := by
  by_cases h : i > o.len
  · rw [nth_go_none h]
  · rw [nth_go_some h]

theorem iterGet_owner (p : Place) (o : Cursor) (k i : Nat) : (IterCall.go p o (.get k i)).1 = o := by
  show (match o.held[k]? with | some x => (o, _) | none => (o, _)).1 = o
  cases o.held[k]? <;> rfl

theorem iterSet_owner (p : Place) (o : Cursor) (k i : Nat) : (IterCall.go p o (.set k i)).1 = o := by
  show (match o.held[k]? with | some x => (o, _) | none => (o, _)).1 = o
  cases o.held[k]? <;> rfl

theorem IterAgree.step {p : Place} {o : Cursor} {loans : List Loan} (h : IterAgree p o loans) (c : IterCall) :
    IterAgree p (c.go p o).1 (iterLoansAfter o.len loans c) ∧ (c.go p o).1.len = iterLenAfter o.len c ∧
      o.next ≤ (c.go p o).1.next := by
  obtain ⟨h, hlast⟩ := h
  have lb : ∀ x ∈ loans.map Loan.beside, x.last = true := fun x hx => by
    obtain ⟨y, hy, rfl⟩ := List.mem_map.mp hx
    exact hlast y hy
  have le : ∀ x ∈ loans.map Loan.ended, x.last = true := fun x hx => by
    obtain ⟨y, hy, rfl⟩ := List.mem_map.mp hx
    exact hlast y hy
  have hl : o.pos + o.len ≤ p.cap := h.len
  cases c with
  | asSlice =>
    refine ⟨⟨h.grow weaker_beside (n := o.next + 4) (hs := [⟨o.next + 3, ⟨p.at_ + o.pos, o.len⟩⟩])
      (ls := [⟨o.len, false, true, true⟩]) (fun y _ z hz ha => ⟨beside_shared y ha, by rw [List.mem_singleton.mp hz]⟩)
      (List.pairwise_singleton _ _) (Nat.le_add_right _ _) hl rfl fun x hx => ?_, fun x hx => ?_⟩, rfl,
      Nat.le_add_right o.next 4⟩
    · rcases List.mem_singleton.mp hx with rfl
      exact ⟨rfl, by show o.next + 3 < o.next + 4; omega, Nat.le_add_right _ _,
        by show p.at_ + o.pos + o.len ≤ p.at_ + p.cap; omega⟩
    · rcases List.mem_append.mp hx with hx | hx
      · exact lb x hx
      · rw [List.mem_singleton.mp hx]
  | asMutSlice =>
    refine ⟨⟨h.grow weaker_ended (n := o.next + 4) (hs := [⟨o.next + 3, ⟨p.at_ + o.pos, o.len⟩⟩])
      (ls := [⟨o.len, true, true, true⟩]) (fun _ _ _ _ ha => nomatch ha)
      (List.pairwise_singleton _ _) (Nat.le_add_right _ _) hl rfl fun x hx => ?_, fun x hx => ?_⟩, rfl,
      Nat.le_add_right o.next 4⟩
    · rcases List.mem_singleton.mp hx with rfl
      exact ⟨rfl, by show o.next + 3 < o.next + 4; omega, Nat.le_add_right _ _,
        by show p.at_ + o.pos + o.len ≤ p.at_ + p.cap; omega⟩
    · rcases List.mem_append.mp hx with hx | hx
      · exact le x hx
      · rw [List.mem_singleton.mp hx]
  | next =>
    have hn := iterNext_next p o.len o.pos 0 o.next
    refine ⟨⟨h.keep weaker_ended hn ?_, le⟩, rfl, hn⟩
    show (if o.len = 0 then o.pos else o.pos + 1) + (o.len - 1) ≤ p.cap
    split <;> omega
  | nextBack =>
    have hn := iterNext_next p o.len (o.pos + o.len - 1) 0 o.next
    refine ⟨⟨h.keep weaker_ended hn ?_, le⟩, rfl, hn⟩
    show o.pos + (o.len - 1) ≤ p.cap
    omega
  | nth i =>
    have hn := iterNth_next p o.pos o.len i 0 o.next
    by_cases hi : i > o.len
    · rw [nth_go_none hi]
      exact ⟨⟨h.keep weaker_ended hn hl, le⟩, (if_neg (by omega)).symm, hn⟩
    · rw [nth_go_some hi]
      exact ⟨⟨h.keep weaker_ended hn (show o.pos + i + (o.len - i) ≤ p.cap by omega), le⟩, (if_pos (by omega)).symm, hn⟩
  | clone =>
    have hn : o.next ≤ (p.iterClone o.pos o.len 0 o.next).2.1 := by
      rw [iterClone_next]
      omega
    exact ⟨⟨h.keep weaker_beside hn hl, lb⟩, rfl, hn⟩
  | sizeHint => exact ⟨⟨h.keep weaker_beside (Nat.le_succ _) hl, lb⟩, rfl, Nat.le_succ _⟩
  | get k i =>
    rw [iterGet_owner]
    exact ⟨⟨h, hlast⟩, rfl, Nat.le_refl _⟩
  | set k i =>
    rw [iterSet_owner]
    exact ⟨⟨h, hlast⟩, rfl, Nat.le_refl _⟩

theorem iterEvents_append (p : Place) : (cs ds : List IterCall) → (o : Cursor) →
    iterEvents p o (cs ++ ds) = iterEvents p o cs ++ iterEvents p (iterAfter p o cs) ds
  | [], _, _ => rfl
  | c :: cs, ds, o => by
    show (c.go p o).2 ++ iterEvents p (c.go p o).1 (cs ++ ds) = ((c.go p o).2 ++ iterEvents p (c.go p o).1 cs) ++ _
    rw [iterEvents_append p cs ds, List.append_assoc]
    rfl

theorem iter_tags {p : Place} {o : Cursor} (h2 : 2 ≤ o.next) (ht : ∀ x ∈ o.held, 2 ≤ x.tag) (c : IterCall) :
    ∀ x ∈ (c.go p o).1.held, 2 ≤ x.tag := by
  have one : ∀ (t : Nat) (r : Region), 2 ≤ t → ∀ x ∈ o.held ++ [⟨t, r⟩], 2 ≤ x.tag := by
    intro t r h x hx
    rcases List.mem_append.mp hx with hx | hx
    · exact ht x hx
    · rw [List.mem_singleton.mp hx]
      exact h
  cases c with
  | asSlice => exact one (o.next + 3) _ (by omega)
  | asMutSlice => exact one (o.next + 3) _ (by omega)
  | nth i =>
    rw [nth_go_held]
    exact ht
  | get k i =>
    rw [iterGet_owner]
    exact ht
  | set k i =>
    rw [iterSet_owner]
    exact ht
  | _ => exact ht

namespace Glance
variable {σ : Type} {R : Rules σ} {rule : Loan → Prop} {S : Sound R rule} {N : Nest S} (G : Glance N) {p : Place} {l : Nat}

include G in
/-- A call that compiles keeps what holds at a location. -/
theorem step {o : Cursor} {loans : List Loan} (hA : IterAgree p o loans) (c : IterCall)
    (hc : IterPermits p.cap o.len loans c) (s : σ) (hH : S.Holds p o.owner loans l s) :
    ∃ s', runAt R l (c.go p o).2 s = some s' ∧ S.Holds p (c.go p o).1.owner (iterLoansAfter o.len loans c) l s' := by
  have hw := hH.1
  have hlen : o.pos + o.len ≤ p.cap := hA.1.len
  cases c with
  | asSlice =>
    obtain ⟨s', h1, c1, e1⟩ := S.iterSlice_at hlen hw
    refine ⟨s', h1, c1.2.1, S.stands_append (o := o.owner) (by simp [hA.1.same]) (S.stands_beside hH.2 c1) fun x hx => ?_⟩
    rcases List.mem_singleton.mp hx with rfl
    exact fun _ hr => ⟨fun h => absurd (S.rule_last _ rfl) h, fun _ => e1 hr⟩
  | asMutSlice =>
    by_cases hl : p.whole.has l = true
    · have hroot : rootAt p l = 0 := if_pos hl
      rw [hroot] at hw
      obtain ⟨s', h1, w1, e1⟩ := G.iterMutSlice hl hlen hw
      refine ⟨s', h1, by rw [hroot]; exact w1,
        S.stands_append (o := o.owner) (by simp [hA.1.same]) S.stands_ended fun x hx => ?_⟩
      rcases List.mem_singleton.mp hx with rfl
      exact fun _ hr => ⟨fun h => absurd (S.rule_last _ rfl) h, fun _ => e1 hr⟩
    · exact ⟨s, (iterMutSlice_confined hlen _ _).miss hl s, S.mono (Nat.le_add_right o.next 4) hw,
        S.stands_outside (hA.step .asMutSlice).1.1 hl s⟩
  | next =>
    have hi : o.len ≠ 0 → o.pos < p.cap := fun h => by omega
    by_cases hl : p.whole.has l = true
    · have hroot : rootAt p l = 0 := if_pos hl
      rw [hroot] at hw
      obtain ⟨s', h1, w1⟩ := G.iterNext hl hi hw
      exact ⟨s', h1, by rw [hroot]; exact w1, S.stands_ended (o := o.owner)⟩
    · exact ⟨s, (iterNext_confined hi _ _).miss hl s, S.mono (iterNext_next p _ _ _ _) hw, S.stands_ended (o := o.owner)⟩
  | nextBack =>
    have hi : o.len ≠ 0 → o.pos + o.len - 1 < p.cap := fun h => by omega
    by_cases hl : p.whole.has l = true
    · have hroot : rootAt p l = 0 := if_pos hl
      rw [hroot] at hw
      obtain ⟨s', h1, w1⟩ := G.iterNext hl hi hw
      exact ⟨s', h1, by rw [hroot]; exact w1, S.stands_ended (o := o.owner)⟩
    · exact ⟨s, (iterNext_confined hi _ _).miss hl s, S.mono (iterNext_next p _ _ _ _) hw, S.stands_ended (o := o.owner)⟩
  | nth i =>
    rw [nth_go_events]
    have hst : ∀ s' : σ, ∀ x ∈ (IterCall.go p o (.nth i)).1.owner.held.zip (loans.map Loan.ended), S.Stands l s' x := by
      intro s'
      show ∀ x ∈ (IterCall.go p o (.nth i)).1.held.zip _, _
      rw [nth_go_held]
      exact S.stands_ended (o := o.owner)
    have hwn : ∀ r s', S.W r (p.iterNth o.pos o.len i 0 o.next).2.1 s' →
        S.W r (IterCall.go p o (.nth i)).1.owner.next s' := by
      intro r s' h
      show S.W r (IterCall.go p o (.nth i)).1.next s'
      rw [nth_go_next]
      exact h
    by_cases hl : p.whole.has l = true
    · have hroot : rootAt p l = 0 := if_pos hl
      rw [hroot] at hw
      obtain ⟨s', h1, w1⟩ := G.iterNth hl hlen hc.2 hw
      exact ⟨s', h1, by rw [hroot]; exact hwn _ _ w1, hst s'⟩
    · exact ⟨s, (iterNth_confined hlen hc.2 _ _).miss hl s, hwn _ _ (S.mono (iterNth_next p _ _ _ _ _) hw), hst s⟩
  | clone =>
    obtain ⟨s', h1, c1⟩ := S.iterClone_at (pos := o.pos) (len := o.len) hlen hw
    refine ⟨s', h1, ?_, S.stands_beside (o := o.owner) hH.2 c1⟩
    show S.W _ (p.iterClone o.pos o.len 0 o.next).2.1 s'
    rw [iterClone_next]
    exact c1.2.1
  | sizeHint =>
    obtain ⟨s', h1, c1, _⟩ := S.iterHint_at (p := p) (l := l) hw
    exact ⟨s', h1, c1.2.1, S.stands_beside (o := o.owner) hH.2 c1⟩
  | get k i =>
    obtain ⟨x, hx, ha, hi⟩ := hc
    obtain ⟨y, hy⟩ := zip_other hA.1.same hx
    have hgo : IterCall.go p o (.get k i) = (o, [.read y.tag ⟨y.r.lo + i, 1⟩]) := by
      simp only [IterCall.go, show o.held[k]? = some y from hy]
    rw [hgo]
    exact (S.use_ok hA.1 hH (zip_at hy hx) ha (S.rule_last _ (hA.2 x (List.mem_of_getElem? hx))) i hi).1
  | set k i =>
    obtain ⟨x, hx, ha, he, hi⟩ := hc
    obtain ⟨y, hy⟩ := zip_other hA.1.same hx
    have hgo : IterCall.go p o (.set k i) = (o, [.write y.tag ⟨y.r.lo + i, 1⟩]) := by
      simp only [IterCall.go, show o.held[k]? = some y from hy]
    rw [hgo]
    exact (S.use_ok hA.1 hH (zip_at hy hx) ha (S.rule_last _ (hA.2 x (List.mem_of_getElem? hx))) i hi).2 he

include G in
theorem run_holds : (cs : List IterCall) → (o : Cursor) → (loans : List Loan) →
    IterAgree p o loans → (∀ x ∈ o.held, 2 ≤ x.tag) → IterChecked p.cap o.len loans cs →
    ∃ loans', IterAgree p (iterAfter p o cs) loans' ∧ (∀ x ∈ (iterAfter p o cs).held, 2 ≤ x.tag) ∧
      ∀ (l : Nat) (s : σ), S.Holds p o.owner loans l s →
        ∃ s', runAt R l (iterEvents p o cs) s = some s' ∧ S.Holds p (iterAfter p o cs).owner loans' l s'
  | [], _, loans, hA, ht, _ => ⟨loans, hA, ht, fun _ s h => ⟨s, rfl, h⟩⟩
  | c :: cs, o, loans, hA, ht, hC => by
    obtain ⟨hA', hlen, _⟩ := hA.step c
    have hC2 := hC.2
    rw [← hlen] at hC2
    obtain ⟨loans', h1, h2, h3⟩ := run_holds cs _ _ hA' (iter_tags hA.1.next ht c) hC2
    refine ⟨loans', h1, h2, fun l s hs => ?_⟩
    obtain ⟨s1, h4, h5⟩ := G.step hA c hC.1 s hs
    obtain ⟨s2, h6, h7⟩ := h3 l s1 h5
    refine ⟨s2, ?_, h7⟩
    show runAt R l ((c.go p o).2 ++ iterEvents p (c.go p o).1 cs) s = _
    rw [runAt_append, h4]
    exact h6

theorem agree_cursor {n : Nat} (hn : n ≤ p.cap) : IterAgree p (Cursor.new n) [] :=
  ⟨⟨by show 0 + n ≤ p.cap; omega, Nat.le_refl 2, rfl, (fun _ hx => nomatch hx), .nil⟩, fun _ hx => nomatch hx⟩

variable (S) in
theorem holds_cursor (n : Nat) : S.Holds p (Cursor.new n).owner [] l (R.start (rootAt p l)) :=
  ⟨(S.holds_new p n l).1, fun _ hx => nomatch hx⟩

include G in
theorem iter_defined (n : Nat) (hn : n ≤ p.cap) (cs : List IterCall) (hC : IterChecked p.cap n [] cs) :
    Defined R p (iterEvents p (Cursor.new n) cs) := fun l => by
  obtain ⟨_, _, _, h⟩ := G.run_holds cs (Cursor.new n) [] (agree_cursor hn) (fun _ hx => nomatch hx) hC
  obtain ⟨s', h1, _⟩ := h l _ (holds_cursor S n)
  exact ⟨s', h1⟩

include G in
/-- Where both end, if there is no way to go on from a state that is reached. -/
theorem stuck {n : Nat} (hn : n ≤ p.cap) {cs ds : List IterCall} (hc : IterChecked p.cap n [] cs) {j : Nat}
    (hj : j < p.cap)
    (h : ∀ s, runAt R (p.at_ + j) (iterEvents p (Cursor.new n) cs) (R.start ownerTag) = some s →
      S.W ownerTag (iterAfter p (Cursor.new n) cs).next s →
      (∀ x ∈ (iterAfter p (Cursor.new n) cs).held, 2 ≤ x.tag ∧ x.tag < (iterAfter p (Cursor.new n) cs).next) →
      runAt R (p.at_ + j) (iterEvents p (iterAfter p (Cursor.new n) cs) ds) s = none) :
    ¬ Defined R p (iterEvents p (Cursor.new n) (cs ++ ds)) := by
  intro hdef
  rw [iterEvents_append] at hdef
  obtain ⟨loans', h1, h2, h3⟩ := G.run_holds cs (Cursor.new n) [] (agree_cursor hn) (fun _ hx => nomatch hx) hc
  have hroot : p.whole.has (p.at_ + j) = true := buf_whole (buf_at hj)
  obtain ⟨s', h4, h5⟩ := h3 (p.at_ + j) _ (holds_cursor S n)
  rw [show rootAt p (p.at_ + j) = ownerTag from if_pos hroot] at h4
  have hw := h5.1
  rw [show rootAt p (p.at_ + j) = ownerTag from if_pos hroot] at hw
  obtain ⟨s'', h6⟩ := hdef (p.at_ + j)
  rw [if_pos hroot, runAt_append, h4, Option.bind_some, h s' h4 hw fun x hx => ⟨h2 x hx, ?_⟩] at h6
  · cases h6
  · obtain ⟨i, hi⟩ := List.getElem?_of_mem hx
    have hil : i < loans'.length := by
      rw [← h1.1.same]
      exact (List.getElem?_eq_some_iff.mp hi).1
    exact (h1.1.each _ (zip_at hi (List.getElem?_eq_getElem hil))).2.1

end Glance

/-! What calls read and write. -/

theorem iterDrops_written (p : Place) (h l : Nat) : (k pos n : Nat) →
    (WrittenAt (p.iterDrops h pos k n).2.2 l ↔ p.at_ + pos ≤ l ∧ l < p.at_ + pos + k)
  | 0, pos, n => by
    refine ⟨fun h => absurd h written_nil, fun h => ?_⟩
    omega
  | k + 1, pos, n => by
    rw [iterDrops_succ, written_retag, written_write, iterDrops_written p h l k, has_iff]
    simp only
    omega

theorem iterDrops_unread (p : Place) (h l : Nat) : (k pos n : Nat) → ¬ ReadAt (p.iterDrops h pos k n).2.2 l
  | 0, _, _ => read_nil
  | k + 1, pos, n => by
    rw [iterDrops_succ, read_retag, read_write]
    exact iterDrops_unread p h l k _ _

theorem iterClones_read (p : Place) (h l : Nat) : (k pos n : Nat) →
    (ReadAt (p.iterClones h pos k n).2.2 l ↔ p.at_ + pos ≤ l ∧ l < p.at_ + pos + k)
  | 0, pos, n => by
    refine ⟨fun h => absurd h read_nil, fun h => ?_⟩
    omega
  | k + 1, pos, n => by
    rw [iterClones_succ, read_retag, read_retag, read_retag, read_read, iterClones_read p h l k, has_iff]
    simp only
    omega

theorem iterClones_unwritten (p : Place) (h l : Nat) : (k pos n : Nat) → ¬ WrittenAt (p.iterClones h pos k n).2.2 l
  | 0, _, _ => written_nil
  | k + 1, pos, n => by
    rw [iterClones_succ, written_retag, written_retag, written_retag, written_read]
    exact iterClones_unwritten p h l k _ _

theorem iterClone_list (p : Place) (pos len h n : Nat) : (p.iterClone pos len h n).2.2 =
    .retag .shared h n p.whole :: .read n p.head :: (p.iterClones n pos len (n + 1)).2.2 := rfl

theorem iter_read (p : Place) (o : Cursor) (c : IterCall) (hget : ∀ h i, c ≠ .get h i) (hset : ∀ h i, c ≠ .set h i)
    (l : Nat) : ReadAt (c.go p o).2 l ↔ IterReads p o.pos o.len c l := by
  cases c with
  | get h i => exact absurd rfl (hget h i)
  | set h i => exact absurd rfl (hset h i)
  | next =>
    show ReadAt (p.iterNext o.len o.pos 0 o.next).2.2 l ↔ p.head.has l = true ∨ (0 < o.len ∧ l = p.at_ + o.pos)
    by_cases hz : o.len = 0
    · rw [hz, iterNext_none]
      simp only [read_retag, read_read, read_nil, or_false, Nat.lt_irrefl, false_and]
    · rw [iterNext_some p hz]
      simp only [read_retag, read_read, read_write, read_nil, or_false, has_iff]
      omega
  | nextBack =>
    show ReadAt (p.iterNext o.len (o.pos + o.len - 1) 0 o.next).2.2 l ↔
      p.head.has l = true ∨ (0 < o.len ∧ l + 1 = p.at_ + o.pos + o.len)
    by_cases hz : o.len = 0
    · rw [hz, iterNext_none]
      simp only [read_retag, read_read, read_nil, or_false, Nat.lt_irrefl, false_and]
    · rw [iterNext_some p hz]
      simp only [read_retag, read_read, read_write, read_nil, or_false, has_iff]
      omega
  | nth i =>
    rw [nth_go_events]
    show _ ↔ p.head.has l = true ∨ (i ≤ o.len ∧ l = p.at_ + i)
    by_cases hz : i > o.len
    · rw [iterNth_none p hz]
      simp only [read_retag, read_read, read_nil, or_false]
      rw [or_iff_left (by omega)]
    · rw [iterNth_some p hz]
      simp only [read_append, read_retag, read_read, read_write, read_nil, or_false, has_iff, iterDrops_unread, false_or]
      omega
  | clone =>
    show ReadAt (p.iterClone o.pos o.len 0 o.next).2.2 l ↔
      p.head.has l = true ∨ (p.at_ + o.pos ≤ l ∧ l < p.at_ + o.pos + o.len)
    rw [iterClone_list, read_retag, read_read, iterClones_read]
  | asSlice =>
    show ReadAt [.retag .shared 0 o.next p.whole, .retag .shared o.next (o.next + 1) p.buf,
      .retag .shared (o.next + 1) (o.next + 2) p.buf, .read o.next p.head,
      .retag .shared (o.next + 2) (o.next + 3) ⟨p.at_ + o.pos, o.len⟩] l ↔ p.head.has l = true ∨ False
    simp only [read_retag, read_read, read_nil]
  | asMutSlice =>
    show ReadAt (p.iterMutSlice o.pos o.len 0 o.next).2.2 l ↔ p.head.has l = true ∨ False
    rw [iterMutSlice_list]
    simp only [read_retag, read_read, read_nil]
  | sizeHint =>
    show ReadAt [.retag .shared 0 o.next p.whole, .read o.next p.head] l ↔ p.head.has l = true ∨ False
    simp only [read_retag, read_read, read_nil]

theorem iter_written (p : Place) (o : Cursor) (c : IterCall) (hset : ∀ h i, c ≠ .set h i) (l : Nat) :
    WrittenAt (c.go p o).2 l ↔ IterWrites p o.pos o.len c l := by
  cases c with
  | set h i => exact absurd rfl (hset h i)
  | get h i =>
    refine ⟨?_, fun h => h.elim⟩
    rintro ⟨t, r, hm, _⟩
    simp only [IterCall.go] at hm
    split at hm
    · cases List.mem_singleton.mp hm
    · cases hm
  | next =>
    show WrittenAt (p.iterNext o.len o.pos 0 o.next).2.2 l ↔ 0 < o.len ∧ p.head.has l = true
    by_cases hz : o.len = 0
    · rw [hz, iterNext_none]
      simp only [written_retag, written_read, written_nil, Nat.lt_irrefl, false_and]
    · rw [iterNext_some p hz]
      simp only [written_retag, written_read, written_write, written_nil, or_false]
      exact ⟨fun h => ⟨by omega, h⟩, fun h => h.2⟩
  | nextBack =>
    show WrittenAt (p.iterNext o.len (o.pos + o.len - 1) 0 o.next).2.2 l ↔ 0 < o.len ∧ p.head.has l = true
    by_cases hz : o.len = 0
    · rw [hz, iterNext_none]
      simp only [written_retag, written_read, written_nil, Nat.lt_irrefl, false_and]
    · rw [iterNext_some p hz]
      simp only [written_retag, written_read, written_write, written_nil, or_false]
      exact ⟨fun h => ⟨by omega, h⟩, fun h => h.2⟩
  | nth i =>
    rw [nth_go_events]
    show _ ↔ i ≤ o.len ∧ (p.head.has l = true ∨ (p.at_ + o.pos ≤ l ∧ l + 1 < p.at_ + o.pos + i))
    by_cases hz : i > o.len
    · rw [iterNth_none p hz]
      simp only [written_retag, written_read, written_nil, false_iff]
      omega
    · rw [iterNth_some p hz]
      simp only [written_append, written_retag, written_read, written_write, written_nil, or_false, false_or, has_iff,
        iterDrops_written]
      omega
  | clone =>
    show WrittenAt (p.iterClone o.pos o.len 0 o.next).2.2 l ↔ False
    rw [iterClone_list, written_retag, written_read]
    exact ⟨iterClones_unwritten p _ l _ _ _, False.elim⟩
  | asSlice =>
    show WrittenAt [.retag .shared 0 o.next p.whole, .retag .shared o.next (o.next + 1) p.buf,
      .retag .shared (o.next + 1) (o.next + 2) p.buf, .read o.next p.head,
      .retag .shared (o.next + 2) (o.next + 3) ⟨p.at_ + o.pos, o.len⟩] l ↔ False
    simp only [written_retag, written_read, written_nil]
  | asMutSlice =>
    show WrittenAt (p.iterMutSlice o.pos o.len 0 o.next).2.2 l ↔ False
    rw [iterMutSlice_list]
    simp only [written_retag, written_read, written_nil]
  | sizeHint =>
    show WrittenAt [.retag .shared 0 o.next p.whole, .read o.next p.head] l ↔ False
    simp only [written_retag, written_read, written_nil]

end Oct.Alias
