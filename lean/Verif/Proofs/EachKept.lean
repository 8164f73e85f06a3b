import Verif.Proofs.PtrKept
/-
What becomes of the pointers that `each_mut` makes, under Stacked Borrows.
-/
namespace Oct.Alias
open Spec Sound

theorem muts_split (p : Place) (h : Nat) : ∀ (j k n : Nat), (p.muts h (j + 1 + k) n).2.2 =
    (p.muts h j n).2.2 ++ ([.retag .excl h (n + 3 * j) p.whole, .retag .excl (n + 3 * j) (n + 3 * j + 1) p.buf,
      .retag .raw (n + 3 * j + 1) (n + 3 * j + 1 + 1) p.buf] ++ (p.muts h k (n + 3 * j + 3)).2.2)
  | 0, k, n => by
    rw [Nat.zero_add, Nat.add_comm 1 k]
    show (p.asMutPtr h n).2.2 ++ ((p.muts h k (n + 3)).2.2 ++ []) = _
    rw [List.append_nil]
    rfl
  | j + 1, k, n => by
    rw [show j + 1 + 1 + k = (j + 1 + k) + 1 by omega]
    show (p.asMutPtr h n).2.2 ++ ((p.muts h (j + 1 + k) (n + 3)).2.2 ++ []) =
      ((p.asMutPtr h n).2.2 ++ ((p.muts h j (n + 3)).2.2 ++ [])) ++ _
    rw [muts_split p h j k (n + 3), List.append_nil, List.append_nil, List.append_assoc,
      show n + 3 + 3 * j = n + 3 * (j + 1) by omega]

theorem muts_tag (p : Place) (h : Nat) : ∀ (j k n : Nat), j < k → (p.muts h k n).1[j]? = some (n + 3 * j + 2)
  | 0, k + 1, n, _ => rfl
  | j + 1, k + 1, n, hj => by
    show ((n + 2) :: (p.muts h k (n + 3)).1)[j + 1]? = _
    rw [List.getElem?_cons_succ, muts_tag p h j k (n + 3) (Nat.lt_of_succ_lt_succ hj),
      show n + 3 + 3 * j = n + 3 * (j + 1) by omega]

/-- The pointers are made of the reference to the slice and of new ones. -/
theorem muts_childless (p : Place) {h g : Nat} (hg : g ≠ h) : ∀ (k n : Nat), g < n → Childless g (p.muts h k n).2.2
  | 0, _, _ => fun _ _ _ _ hm => (by cases hm)
  | k + 1, n, hn => fun a u q r hm => by
    have hm' : Event.retag a u q r ∈ [Event.retag .excl h n p.whole, .retag .excl n (n + 1) p.buf,
        .retag .raw (n + 1) (n + 2) p.buf] ++ ((p.muts h k (n + 3)).2.2 ++ []) := hm
    rw [List.append_nil] at hm'
    rcases List.mem_append.mp hm' with hm' | hm'
    · simp only [List.mem_cons, List.not_mem_nil, or_false, Event.retag.injEq] at hm'
      rcases hm' with ⟨_, rfl, _⟩ | ⟨_, rfl, _⟩ | ⟨_, rfl, _⟩
      · exact hg.symm
      · omega
      · omega
    · exact muts_childless p hg k (n + 3) (by omega) a u q r hm'

theorem Childless.append {g : Nat} {es fs : List Event} (h : Childless g es) (h' : Childless g fs) : Childless g (es ++ fs) :=
  fun k u q r hm => (List.mem_append.mp hm).elim (h k u q r) (h' k u q r)

theorem TakenAt.append {g l : Nat} {es fs : List Event} : TakenAt g (es ++ fs) l ↔ TakenAt g es l ∨ TakenAt g fs l := by
  induction es with
  | nil =>
    refine ⟨.inr, fun h => h.resolve_left fun h => ?_⟩
    rcases h with ⟨_, _, h, _⟩ | ⟨_, _, _, h, _⟩ <;> cases h
  | cons e es ih => rw [List.cons_append, TakenAt.cons_iff, TakenAt.cons_iff, ih, or_assoc]

theorem taken_muts (p : Place) {h g l : Nat} (hl : p.whole.has l = true) (k n : Nat) : TakenAt g (p.muts h k n).2.2 l ↔ k ≠ 0 := by
  cases k with
  | zero =>
    refine ⟨fun h => ?_, fun h => absurd rfl h⟩
    rcases h with ⟨_, _, h, _⟩ | ⟨_, _, _, h, _⟩ <;> cases h
  | succ k => exact ⟨fun _ => Nat.succ_ne_zero k, fun _ => .inr ⟨h, n, p.whole, .head _, hl⟩⟩

theorem whole_has {p : Place} {l : Nat} (h : p.buf.has l = true) : p.whole.has l = true := by
  rw [has_iff] at h ⊢
  simp only [Place.buf, Place.whole] at h ⊢
  omega

/-- What `each_mut` of sized slices returned. -/
theorem each_ptr {p : Place} {d n : Nat} {cs ds : List Call} {j : Nat} {x : Held}
    (hj : j < ((sliceDevice p d).after (Owner.new n) cs).len)
    (hx : ((sliceDevice p d).go ((sliceDevice p d).after (Owner.new n) cs) .eachMut).1.held[
      ((sliceDevice p d).after (Owner.new n) cs).held.length + j]? = some x) (hb : p.buf.has x.r.lo = true)
    (h : Defined Stacked p ((sliceDevice p d).events (Owner.new n) (cs ++ .eachMut :: ds))) :
    (Defined Stacked p ((sliceDevice p d).events (Owner.new n)
      (cs ++ .eachMut :: (ds ++ [.get (((sliceDevice p d).after (Owner.new n) cs).held.length + j) 0]))) ↔
      j + 1 = ((sliceDevice p d).after (Owner.new n) cs).len ∧
      ¬ TakenAt x.tag ((sliceDevice p d).events ((sliceDevice p d).go ((sliceDevice p d).after (Owner.new n) cs) .eachMut).1 ds)
        x.r.lo) ∧
    (Defined Stacked p ((sliceDevice p d).events (Owner.new n)
      (cs ++ .eachMut :: (ds ++ [.set (((sliceDevice p d).after (Owner.new n) cs).held.length + j) 0]))) ↔
      j + 1 = ((sliceDevice p d).after (Owner.new n) cs).len ∧
      ¬ TakenAt x.tag ((sliceDevice p d).events ((sliceDevice p d).go ((sliceDevice p d).after (Owner.new n) cs) .eachMut).1 ds)
        x.r.lo) := by
  generalize ho : (sliceDevice p d).after (Owner.new n) cs = o at *
  let D := sliceMut p d
  obtain ⟨k, hk⟩ : ∃ k, o.len = j + 1 + k := ⟨o.len - (j + 1), by omega⟩
  have hx' : x = ⟨o.next + 1 + 3 * j + 2, ⟨p.at_ + j, 1⟩⟩ := by
    have e : ((sliceDevice p d).go o .eachMut).1.held = o.held ++ single p 0 (p.muts o.next o.len (o.next + 1)).1 := rfl
    rw [e, List.getElem?_append_right (Nat.le_add_right _ _), Nat.add_sub_cancel_left, single_get p _ 0 j _ (muts_tag p _ _ _ _ hj)] at hx
    simpa using hx.symm
  subst hx'
  let m := o.next + 1 + 3 * j
  have e0 : ∀ fs, (sliceDevice p d).events (Owner.new n) (cs ++ .eachMut :: fs) =
      ((sliceDevice p d).events (Owner.new n) cs ++ ([.retag .excl ownerTag o.next p.whole, .read o.next p.head] ++
        ((p.muts o.next j (o.next + 1)).2.2 ++ [.retag .excl o.next m p.whole])) ++
        [.retag .excl m (m + 1) p.buf, .retag .raw (m + 1) (m + 1 + 1) p.buf]) ++
      ((p.muts o.next k (m + 3)).2.2 ++ (sliceDevice p d).events ((sliceDevice p d).go o .eachMut).1 fs) := fun fs => by
    have e : ((sliceDevice p d).go o .eachMut).2 = [.retag .excl ownerTag o.next p.whole, .read o.next p.head] ++
        (p.muts o.next o.len (o.next + 1)).2.2 := rfl
    rw [(sliceDevice p d).events_append, ho]
    show _ ++ (((sliceDevice p d).go o .eachMut).2 ++ _) = _
    rw [e, hk, muts_split]
    simp only [List.append_assoc, List.cons_append, List.nil_append]
    rfl
  have hn : (sliceDevice p d).next ((sliceDevice p d).go o .eachMut).1 = m + 3 + 3 * k := by
    show (p.muts o.next o.len (o.next + 1)).2.1 = _
    rw [muts_next, hk]
    show _ = o.next + 1 + 3 * j + 3 + 3 * k
    omega
  have hc0 : Counts 2 ((sliceDevice p d).events (Owner.new n) cs) o.next := by
    have := (sliceDevice p d).events_counts (Owner.new n) cs
    rw [ho] at this
    exact this
  have hmc : ∀ j t, Counts t (p.muts o.next j t).2.2 (t + 3 * j) := fun j t => by
    have := muts_counted p o.next j t
    rw [muts_next] at this
    exact this
  have hc : Counts 2 ((sliceDevice p d).events (Owner.new n) cs ++ ([.retag .excl ownerTag o.next p.whole, .read o.next p.head] ++
        ((p.muts o.next j (o.next + 1)).2.2 ++ [.retag .excl o.next m p.whole]))) (m + 1) :=
    hc0.append (Counts.retag (.read ((hmc j (o.next + 1)).append (.retag .nil))))
  have hf : Counts (m + 1 + 2) ((p.muts o.next k (m + 3)).2.2 ++
      (sliceDevice p d).events ((sliceDevice p d).go o .eachMut).1 ds) _ :=
    (hmc k (m + 3)).append (hn ▸ (sliceDevice p d).events_counts ((sliceDevice p d).go o .eachMut).1 ds)
  have hle := hc0.le
  have hm : m = o.next + 1 + 3 * j := rfl
  have hl : ∀ g, o.next < g → g < m + 3 → Childless g ((p.muts o.next k (m + 3)).2.2 ++
      (sliceDevice p d).events ((sliceDevice p d).go o .eachMut).1 ds) := fun g h1 h2 =>
    (muts_childless p (by omega) k (m + 3) h2).append (D.childless (by omega) _ ds (by
      show g < (sliceDevice p d).next ((sliceDevice p d).go o .eachMut).1
      omega))
  have hy : ((sliceDevice p d).held ((sliceDevice p d).go o .eachMut).1)[o.held.length + j]? = some ⟨m + 2, ⟨p.at_ + j, 1⟩⟩ := hx
  have hg := (sliceDevice p d).look (i := 0) ((sliceDevice p d).still hy ds)
  have hs := D.put (i := 0) ((sliceDevice p d).still hy ds)
  have hg' : (sliceDevice p d).events ((sliceDevice p d).after ((sliceDevice p d).go o .eachMut).1 ds) [.get (o.held.length + j) 0] = _ := hg
  have hs' : (sliceDevice p d).events ((sliceDevice p d).after ((sliceDevice p d).go o .eachMut).1 ds) [.set (o.held.length + j) 0] = _ := hs
  rw [e0] at h
  have key := stacked_ptr hc hf (hl _ (by omega) (by omega)) (hl _ (by omega) (by omega)) hb h
  have hi : ∀ es, (¬ TakenAt (m + 1 + 1) ((p.muts o.next k (m + 3)).2.2 ++ es) (p.at_ + j)) ↔
      (j + 1 = o.len ∧ ¬ TakenAt (m + 2) es (p.at_ + j)) := fun es => by
    rw [TakenAt.append, taken_muts p (whole_has hb), not_or, hk]
    exact and_congr_left fun _ => by omega
  rw [hi] at key
  rw [e0, e0, (sliceDevice p d).events_append, (sliceDevice p d).events_append, hg', hs', ← List.append_assoc, ← List.append_assoc,
    ← List.append_assoc, ← List.append_assoc]
  simp only [← List.append_assoc] at key
  simp only [← List.append_assoc]
  exact key

end Oct.Alias
