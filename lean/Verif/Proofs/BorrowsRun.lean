import Verif.Proofs.Borrows
/-
That whole programs are defined, given what aliasing rules make of each method.
-/
namespace Oct.Alias
open Spec Sound

/-- Where an event is. -/
def Event.region : Event → Region
  | .retag _ _ _ r => r
  | .read _ r => r
  | .write _ r => r

theorem runAt_miss {σ : Type} {R : Rules σ} {l : Nat} : (es : List Event) → (s : σ) →
    (∀ e ∈ es, ¬ e.region.has l = true) → runAt R l es s = some s
  | [], _, _ => rfl
  | e :: es, s, h => by
    have : e.act R l s = some s := by
      have h := h e (.head _)
      cases e with
      | retag k a b r => exact if_neg h
      | read t r => exact if_neg h
      | write t r => exact if_neg h
    rw [runAt_cons this]
    exact runAt_miss es s fun e he => h e (.tail _ he)

theorem buf_whole {p : Place} {l : Nat} (h : p.buf.has l = true) : p.whole.has l = true := by
  rw [has_iff] at *
  simp only [Place.buf, Place.whole] at *
  omega

theorem head_whole {p : Place} {l : Nat} (h : p.head.has l = true) : p.whole.has l = true := by
  rw [has_iff] at *
  simp only [Place.head, Place.whole] at *
  omega

theorem items_buf {p : Place} {l n : Nat} (hn : n ≤ p.cap) (h : (p.items n).has l = true) : p.buf.has l = true := by
  rw [has_iff] at *
  simp only [Place.items, Place.buf] at *
  omega

/-- All events are in the sized slice. -/
abbrev Within (p : Place) (es : List Event) : Prop :=
  ∀ e ∈ es, e.region = p.whole ∨ e.region = p.buf ∨ e.region = p.head

theorem Within.miss {p : Place} {es : List Event} (h : Within p es) {l : Nat} (hl : ¬ p.whole.has l = true) :
    ∀ e ∈ es, ¬ e.region.has l = true := by
  intro e he hr
  rcases h e he with h | h | h <;> rw [h] at hr
  · exact hl hr
  · exact hl (buf_whole hr)
  · exact hl (head_whole hr)

theorem Within.append {p : Place} {es fs : List Event} (h : Within p es) (h' : Within p fs) : Within p (es ++ fs) :=
  fun e he => (List.mem_append.mp he).elim (h e) (h' e)

theorem asPtr_within (p : Place) (h t : Nat) : Within p (p.asPtr h t).2.2 := by
  intro e he
  simp only [show (p.asPtr h t).2.2 = [.retag .shared h t p.whole, .retag .shared t (t + 1) p.buf,
    .retag .shared (t + 1) (t + 2) p.buf] from rfl, List.mem_cons, List.not_mem_nil, or_false] at he
  rcases he with rfl | rfl | rfl
  · exact .inl rfl
  · exact .inr (.inl rfl)
  · exact .inr (.inl rfl)

theorem asMutPtr_within (p : Place) (h t : Nat) : Within p (p.asMutPtr h t).2.2 := by
  intro e he
  simp only [show (p.asMutPtr h t).2.2 = [.retag .excl h t p.whole, .retag .excl t (t + 1) p.buf,
    .retag .raw (t + 1) (t + 2) p.buf] from rfl, List.mem_cons, List.not_mem_nil, or_false] at he
  rcases he with rfl | rfl | rfl
  · exact .inl rfl
  · exact .inr (.inl rfl)
  · exact .inr (.inl rfl)

theorem len_within (p : Place) (h t : Nat) : Within p (p.len h t).2.2 := by
  intro e he
  simp only [show (p.len h t).2.2 = [.retag .shared h t p.whole, .read t p.head] from rfl, List.mem_cons,
    List.not_mem_nil, or_false] at he
  rcases he with rfl | rfl
  · exact .inl rfl
  · exact .inr (.inr rfl)

theorem refs_within (p : Place) (h : Nat) : (k t : Nat) → Within p (p.refs h k t).2.2
  | 0, _ => fun _ he => nomatch he
  | k + 1, t => by
    show Within p ((p.asPtr h t).2.2 ++ ((p.refs h k (t + 3)).2.2 ++ []))
    rw [List.append_nil]
    exact (asPtr_within p h t).append (refs_within p h k (t + 3))

theorem muts_within (p : Place) (h : Nat) : (k t : Nat) → Within p (p.muts h k t).2.2
  | 0, _ => fun _ he => nomatch he
  | k + 1, t => by
    show Within p ((p.asMutPtr h t).2.2 ++ ((p.muts h k (t + 3)).2.2 ++ []))
    rw [List.append_nil]
    exact (asMutPtr_within p h t).append (muts_within p h k (t + 3))

theorem eachRef_within (p : Place) (k h t : Nat) : Within p (p.eachRef k h t).2.2 := by
  show Within p ([.retag .shared h t p.whole, .read t p.head] ++ (p.refs t k (t + 1)).2.2)
  refine Within.append (fun e he => ?_) (refs_within p t k (t + 1))
  simp only [List.mem_cons, List.not_mem_nil, or_false] at he
  rcases he with rfl | rfl
  · exact .inl rfl
  · exact .inr (.inr rfl)

theorem eachMut_within (p : Place) (k h t : Nat) : Within p (p.eachMut k h t).2.2 := by
  show Within p ([.retag .excl h t p.whole, .read t p.head] ++ (p.muts t k (t + 1)).2.2)
  refine Within.append (fun e he => ?_) (muts_within p t k (t + 1))
  simp only [List.mem_cons, List.not_mem_nil, or_false] at he
  rcases he with rfl | rfl
  · exact .inl rfl
  · exact .inr (.inr rfl)

theorem zip_at {α β : Type} : {xs : List α} → {ys : List β} → {k : Nat} → {x : α} → {y : β} → xs[k]? = some x →
    ys[k]? = some y → (x, y) ∈ xs.zip ys
  | [], _, _, _, _, h, _ => by simp at h
  | _ :: _, [], _, _, _, _, h => by simp at h
  | a :: xs, b :: ys, 0, _, _, h, h' => by
    simp only [List.getElem?_cons_zero, Option.some.injEq] at h h'
    subst h h'
    exact .head _
  | a :: xs, b :: ys, k + 1, _, _, h, h' => by
    simp only [List.getElem?_cons_succ] at h h'
    exact .tail _ (zip_at h h')

theorem zip_other {α β : Type} {xs : List α} {ys : List β} (hl : xs.length = ys.length) {k : Nat} {y : β}
    (h : ys[k]? = some y) : ∃ x, xs[k]? = some x := by
  have : k < ys.length := (List.getElem?_eq_some_iff.mp h).1
  exact ⟨xs[k], List.getElem?_eq_getElem (by omega)⟩

namespace Sound
variable {σ : Type} {R : Rules σ} {rule : Loan → Prop} (S : Sound R rule)

/-- Outside of the sized slice there are no references to items. -/
theorem stands_outside {p : Place} {o : Owner} {loans : List Loan} (hA : Agree p o loans) {l : Nat}
    (hl : ¬ p.whole.has l = true) (s : σ) : ∀ x ∈ o.held.zip loans, S.Stands l s x := by
  intro x hx _ hr
  refine absurd ?_ hl
  obtain ⟨_, _, h3, h4⟩ := hA.each x hx
  rw [has_iff] at *
  simp only [Place.whole] at *
  omega

/-- What a call by `&self` leaves of the references before. -/
theorem stands_beside {o : Owner} {loans : List Loan} {l r n m : Nat} {s s' : σ}
    (hS : ∀ x ∈ o.held.zip loans, S.Stands l s x) (hc : S.Calm r n m s s') :
    ∀ x ∈ o.held.zip (loans.map Loan.beside), S.Stands l s' x := by
  intro x hx ha hr
  rw [List.zip_map_right] at hx
  obtain ⟨y, hy, rfl⟩ := List.mem_map.mp hx
  have he : y.2.excl = false := beside_shared y.2 ha
  have hy' := (hS y hy (weaker_beside y.2 |>.2.2 ha) hr).2 (S.rule_shared _ he)
  rw [if_neg (by rw [he]; decide)] at hy'
  refine ⟨fun h => absurd (S.rule_shared (Prod.map id Loan.beside y).2 he) h, fun _ => ?_⟩
  show if y.2.excl = true then S.Own y.1.tag s' else S.See y.1.tag s'
  rw [if_neg (by rw [he]; decide)]
  exact hc.2.2.1 _ hy'

/-- What a call by `&mut self` leaves of the references before. -/
theorem stands_ended {o : Owner} {loans : List Loan} {l : Nat} {s' : σ} :
    ∀ x ∈ o.held.zip (loans.map Loan.ended), S.Stands l s' x := by
  intro x hx ha
  rw [List.zip_map_right] at hx
  obtain ⟨y, hy, rfl⟩ := List.mem_map.mp hx
  exact nomatch ha

theorem stands_append {o : Owner} {hs : List Held} {loans ls : List Loan} (h : o.held.length = loans.length) {l : Nat}
    {s : σ} (h1 : ∀ x ∈ o.held.zip loans, S.Stands l s x) (h2 : ∀ x ∈ hs.zip ls, S.Stands l s x) :
    ∀ x ∈ (o.held ++ hs).zip (loans ++ ls), S.Stands l s x := by
  intro x hx
  rw [List.zip_append h] at hx
  exact (List.mem_append.mp hx).elim (h1 x) (h2 x)

/-- A use of a reference that may be used. -/
theorem use_ok {p : Place} {o : Owner} {loans : List Loan} (hA : Agree p o loans) {l : Nat} {s : σ}
    (hH : S.Holds p o loans l s) {x : Held × Loan} (hx : x ∈ o.held.zip loans) (ha : x.2.alive = true) (hr : rule x.2)
    (i : Nat) (hi : i < x.2.size) :
    (∃ s', runAt R l [.read x.1.tag ⟨x.1.r.lo + i, 1⟩] s = some s' ∧ S.Holds p o loans l s') ∧
    (x.2.excl = true → ∃ s', runAt R l [.write x.1.tag ⟨x.1.r.lo + i, 1⟩] s = some s' ∧ S.Holds p o loans l s') := by
  by_cases hl : (⟨x.1.r.lo + i, 1⟩ : Region).has l = true
  · have hxl : x.1.r.has l = true := by
      have := (hA.each x hx).1
      rw [has_iff] at *
      simp only at *
      omega
    have hst := (hH.2 x hx ha hxl).2 hr
    have other : ∀ s', (∀ g, S.Dead g s → S.Dead g s') → (x.2.excl = false → ∀ g, S.See g s → S.See g s') →
        (if x.2.excl = true then S.Own x.1.tag s' else S.See x.1.tag s') →
        ∀ y ∈ o.held.zip loans, S.Stands l s' y := by
      intro s' hd hs' hown y hy hya hyl
      have hy' := hH.2 y hy hya hyl
      refine ⟨fun h => hd _ (hy'.1 h), fun hyr => ?_⟩
      rcases pairwise_mem hA.free hx hy with rfl | hf
      · exact hown
      · have hf : Free x y := hf.elim id Free.symm
        rcases hf ha hya with ⟨e1, e2⟩ | hn
        · have := hy'.2 hyr
          rw [if_neg (by rw [e2]; decide)] at this ⊢
          exact hs' e1 _ this
        · exact absurd ⟨hxl, hyl⟩ (hn l)
    constructor
    · cases he : x.2.excl with
      | true =>
        rw [if_pos he] at hst
        obtain ⟨s', h1, h2, h3, h4⟩ := S.read_own hH.1 hst
        refine ⟨s', by rw [runAt_cons (hit_read hl |>.trans h1)]; rfl, h2,
          other s' h4 (fun h => by rw [he] at h; cases h) (by rw [if_pos he]; exact h3)⟩
      | false =>
        rw [if_neg (by rw [he]; decide)] at hst
        obtain ⟨s', h1, h2, h3, h4⟩ := S.read_see hH.1 (.inr hst)
        refine ⟨s', by rw [runAt_cons (hit_read hl |>.trans h1)]; rfl, h2,
          other s' h4 (fun _ => h3) (by rw [if_neg (by rw [he]; decide)]; exact h3 _ hst)⟩
    · intro he
      rw [if_pos he] at hst
      obtain ⟨s', h1, h2, h3, h4⟩ := S.write_own hH.1 hst
      refine ⟨s', by rw [runAt_cons (hit_write hl |>.trans h1)]; rfl, h2,
        other s' h4 (fun h => by rw [he] at h; cases h) (by rw [if_pos he]; exact h3)⟩
  · exact ⟨⟨s, by rw [runAt_cons (miss_read hl)]; rfl, hH⟩, fun _ => ⟨s, by rw [runAt_cons (miss_write hl)]; rfl, hH⟩⟩

/-- A call that compiles keeps what holds at a location. -/
theorem step {p : Place} {d : Nat} (hd : Apart p d) {o : Owner} {loans : List Loan} (hA : Agree p o loans) (c : Call)
    (hc : Permits rule p.cap loans c) (l : Nat) (s : σ) (hH : S.Holds p o loans l s) :
    ∃ s', runAt R l (c.go p d o).2 s = some s' ∧ S.Holds p (c.go p d o).1 (loansAfter o.len loans c) l s' := by
  obtain ⟨hA', _, hn⟩ := hA.step (d := d) c hc
  by_cases hl : p.whole.has l = true
  · have hw : S.W ownerTag o.next s := by
      have := hH.1
      rwa [show rootAt p l = ownerTag from if_pos hl] at this
    have hroot : rootAt p l = ownerTag := if_pos hl
    cases c with
    | len =>
      obtain ⟨s', h1, c1⟩ := S.len_at p hw hl (.inl rfl)
      exact ⟨s', h1, by rw [hroot]; exact c1.2.1, S.stands_beside hH.2 c1⟩
    | asSlice =>
      obtain ⟨s', h1, c1, e1⟩ := S.asSlice_at p o.len hA.len hw hl
      refine ⟨s', h1, by rw [hroot]; exact c1.2.1,
        S.stands_append (by simp [hA.same]) (S.stands_beside hH.2 c1) fun x hx => ?_⟩
      rcases List.mem_singleton.mp hx with rfl
      exact fun _ hr => ⟨fun h => absurd (S.rule_last _ rfl) h, fun _ => e1 hr⟩
    | asMutSlice =>
      obtain ⟨s', h1, w1, e1, _⟩ := S.mutSlice p o.len l hw hl hA.len
      refine ⟨s', h1, by rw [hroot]; exact w1,
        S.stands_append (by simp [hA.same]) S.stands_ended fun x hx => ?_⟩
      rcases List.mem_singleton.mp hx with rfl
      exact fun _ hr => ⟨fun h => absurd (S.rule_last _ rfl) h, fun _ => e1 hr⟩
    | copyFromSlice n =>
      obtain ⟨s', h1, w1, _⟩ := S.copy p d n l hw hl hc hd
      exact ⟨s', h1, by rw [hroot]; exact w1, S.stands_ended⟩
    | eachRef =>
      obtain ⟨s', h1, c1, e1⟩ := S.eachRef_at p o.len hw hl
      refine ⟨s', h1, by rw [hroot]; exact c1.2.1,
        S.stands_append (by simp [hA.same]) (S.stands_beside hH.2 c1) fun x hx _ hr => ?_⟩
      obtain ⟨m1, m2⟩ := List.of_mem_zip hx
      have he := (loansOf_mem x.2 m2).2
      refine ⟨fun h => absurd (S.rule_shared _ he) h, fun _ => ?_⟩
      rw [if_neg (by rw [he]; decide)]
      refine e1 x.1 m1 hr ?_
      obtain ⟨_, a2, a3, a4⟩ := single_mem p 0 _ x.1 m1
      have hlen : (p.eachRef o.len ownerTag o.next).1.length = o.len := refs_len p _ _ _
      have := hA.len
      rw [has_iff] at *
      simp only [Place.buf] at *
      omega
    | eachMut =>
      obtain ⟨s', h1, w1, e1, _⟩ := S.eachMut p o.len l hw hl hA.len
      refine ⟨s', h1, by rw [hroot]; exact w1,
        S.stands_append (by simp [hA.same]) S.stands_ended fun x hx _ hr => ?_⟩
      have he := (loansOf_mem x.2 (List.of_mem_zip hx).2).2
      rw [if_pos he]
      exact ⟨(e1 x hx hr).2, (e1 x hx hr).1⟩
    | get k i =>
      obtain ⟨x, hx, ha, hi, hr⟩ := hc
      obtain ⟨y, hy⟩ := zip_other hA.same hx
      have hgo : Call.go p d o (.get k i) = (o, [.read y.tag ⟨y.r.lo + i, 1⟩]) := by
        simp only [Call.go, hy]
      rw [hgo]
      exact (S.use_ok hA hH (zip_at hy hx) ha hr i hi).1
    | set k i =>
      obtain ⟨x, hx, ha, he, hi, hr⟩ := hc
      obtain ⟨y, hy⟩ := zip_other hA.same hx
      have hgo : Call.go p d o (.set k i) = (o, [.write y.tag ⟨y.r.lo + i, 1⟩]) := by
        simp only [Call.go, hy]
      rw [hgo]
      exact (S.use_ok hA hH (zip_at hy hx) ha hr i hi).2 he
  · suffices h : ∃ s', runAt R l (c.go p d o).2 s = some s' ∧ S.W (rootAt p l) (c.go p d o).1.next s' by
      obtain ⟨s', h1, h2⟩ := h
      exact ⟨s', h1, h2, S.stands_outside hA' hl s'⟩
    have out : Within p (c.go p d o).2 → ∃ s', runAt R l (c.go p d o).2 s = some s' ∧ S.W (rootAt p l) (c.go p d o).1.next s' :=
      fun h => ⟨s, runAt_miss _ s (h.miss hl), S.mono hn hH.1⟩
    cases c with
    | len => exact out (len_within p _ _)
    | asSlice =>
      refine ⟨s, runAt_miss _ s fun e he => ?_, S.mono hn hH.1⟩
      rcases List.mem_append.mp (show e ∈ ((.retag .shared ownerTag o.next p.whole :: (p.asPtr o.next (o.next + 1)).2.2) ++
        ((p.len o.next (o.next + 4)).2.2 ++ [.retag .shared (o.next + 3) (o.next + 5) (p.items o.len)])) from he) with he | he
      · rcases List.mem_cons.mp he with rfl | he
        · exact hl
        · exact (asPtr_within p _ _).miss hl e he
      · rcases List.mem_append.mp he with he | he
        · exact (len_within p _ _).miss hl e he
        · rcases List.mem_singleton.mp he with rfl
          exact fun h => hl (buf_whole (items_buf hA.len h))
    | asMutSlice =>
      refine ⟨s, runAt_miss _ s fun e he => ?_, S.mono hn hH.1⟩
      rcases List.mem_append.mp (show e ∈ ((.retag .excl ownerTag o.next p.whole :: (p.asMutPtr o.next (o.next + 1)).2.2) ++
        ((p.len o.next (o.next + 4)).2.2 ++ [.retag .excl (o.next + 3) (o.next + 5) (p.items o.len)])) from he) with he | he
      · rcases List.mem_cons.mp he with rfl | he
        · exact hl
        · exact (asMutPtr_within p _ _).miss hl e he
      · rcases List.mem_append.mp he with he | he
        · exact (len_within p _ _).miss hl e he
        · rcases List.mem_singleton.mp he with rfl
          exact fun h => hl (buf_whole (items_buf hA.len h))
    | copyFromSlice n =>
      have hroot : rootAt p l = dataTag := if_neg hl
      have hw := hH.1
      rw [hroot] at hw ⊢
      have hb : ¬ p.buf.has l = true := fun h => hl (buf_whole h)
      have hi : ¬ (p.items n).has l = true := fun h => hb (items_buf hc h)
      have hh : ¬ p.head.has l = true := fun h => hl (head_whole h)
      show ∃ s', runAt R l [.retag .excl ownerTag o.next p.whole, .retag .shared dataTag (o.next + 1) ⟨d, n⟩,
        .retag .excl o.next (o.next + 2) p.buf, .retag .raw (o.next + 2) (o.next + 3) p.buf, .read (o.next + 1) ⟨d, n⟩,
        .write (o.next + 3) (p.items n), .retag .excl o.next (o.next + 4) p.whole, .write (o.next + 4) p.head] s = some s' ∧
        S.W dataTag (o.next + 5) s'
      rw [runAt_cons (miss_retag hl)]
      by_cases hdl : (⟨d, n⟩ : Region).has l = true
      · obtain ⟨s1, h1, c1, e1⟩ := S.shared_at (S.mono (Nat.le_succ o.next) hw) hdl (.inl rfl)
        obtain ⟨s2, h2, c2⟩ := S.read_calm (g := ⟨d, n⟩) (l := l) c1.2.1 (.inr e1)
        refine ⟨s2, ?_, S.mono (Nat.le_add_right (o.next + 2) 3) c2.2.1⟩
        rw [runAt_cons h1, runAt_cons (miss_retag hb), runAt_cons (miss_retag hb), runAt_cons h2, runAt_cons (miss_write hi),
          runAt_cons (miss_retag hl), runAt_cons (miss_write hh)]
        rfl
      · refine ⟨s, ?_, S.mono (Nat.le_add_right o.next 5) hw⟩
        rw [runAt_cons (miss_retag hdl), runAt_cons (miss_retag hb), runAt_cons (miss_retag hb), runAt_cons (miss_read hdl),
          runAt_cons (miss_write hi), runAt_cons (miss_retag hl), runAt_cons (miss_write hh)]
        rfl
    | eachRef => exact out (eachRef_within p _ _ _)
    | eachMut => exact out (eachMut_within p _ _ _)
    | get k i =>
      obtain ⟨x, hx, ha, hi, hr⟩ := hc
      obtain ⟨y, hy⟩ := zip_other hA.same hx
      have hgo : Call.go p d o (.get k i) = (o, [.read y.tag ⟨y.r.lo + i, 1⟩]) := by
        simp only [Call.go, hy]
      rw [hgo]
      obtain ⟨s', h1, h2⟩ := (S.use_ok hA hH (zip_at hy hx) ha hr i hi).1
      exact ⟨s', h1, h2.1⟩
    | set k i =>
      obtain ⟨x, hx, ha, he, hi, hr⟩ := hc
      obtain ⟨y, hy⟩ := zip_other hA.same hx
      have hgo : Call.go p d o (.set k i) = (o, [.write y.tag ⟨y.r.lo + i, 1⟩]) := by
        simp only [Call.go, hy]
      rw [hgo]
      obtain ⟨s', h1, h2⟩ := (S.use_ok hA hH (zip_at hy hx) ha hr i hi).2 he
      exact ⟨s', h1, h2.1⟩

/-- A program that compiles is defined if it keeps to the rule. -/
theorem run_defined {p : Place} {d : Nat} (hd : Apart p d) : (cs : List Call) → (o : Owner) → (loans : List Loan) →
    Agree p o loans → Checked rule p.cap o.len loans cs → ∀ (l : Nat) (s : σ), S.Holds p o loans l s →
    ∃ s', runAt R l (events p d o cs) s = some s'
  | [], _, _, _, _, _, s, _ => ⟨s, rfl⟩
  | c :: cs, o, loans, hA, hC, l, s, hH => by
    obtain ⟨s1, h1, h2⟩ := S.step hd hA c hC.1 l s hH
    obtain ⟨hA', hlen, _⟩ := hA.step (d := d) c hC.1
    have hC2 := hC.2
    rw [← hlen] at hC2
    obtain ⟨s2, h3⟩ := run_defined hd cs _ _ hA' hC2 l s1 h2
    refine ⟨s2, ?_⟩
    show runAt R l ((c.go p d o).2 ++ events p d (c.go p d o).1 cs) s = _
    rw [runAt_append, h1]
    exact h3

/-- A program that compiles is undefined if it does not. -/
theorem run_undefined {p : Place} {d : Nat} (hd : Apart p d) : (cs : List Call) → (o : Owner) → (loans : List Loan) →
    Agree p o loans → Checked anyLoan p.cap o.len loans cs → ¬ Checked rule p.cap o.len loans cs → ∀ (σs : Nat → σ),
    (∀ l, S.Holds p o loans l (σs l)) → ∃ l, runAt R l (events p d o cs) (σs l) = none
  | [], _, _, _, _, hn, _, _ => absurd trivial hn
  | c :: cs, o, loans, hA, hC, hn, σs, hH => by
    have split : ∀ l, runAt R l (events p d o (c :: cs)) (σs l)
        = (runAt R l (c.go p d o).2 (σs l)).bind (runAt R l (events p d (c.go p d o).1 cs)) := fun l => runAt_append R l _ _ _
    by_cases hc : Permits rule p.cap loans c
    · obtain ⟨hA', hlen, _⟩ := hA.step (d := d) c hc
      have hC2 := hC.2
      have hn2 : ¬ Checked rule p.cap (lenAfter o.len c) (loansAfter o.len loans c) cs := fun h => hn ⟨hc, h⟩
      rw [← hlen] at hC2 hn2
      have hs := fun l => S.step hd hA c hc l (σs l) (hH l)
      obtain ⟨τs, hτ⟩ := Classical.axiomOfChoice hs
      obtain ⟨l, h⟩ := run_undefined hd cs _ _ hA' hC2 hn2 τs fun l => (hτ l).2
      refine ⟨l, ?_⟩
      rw [split l, (hτ l).1]
      exact h
    · have dead : ∀ (k i : Nat) (x : Loan), loans[k]? = some x → x.alive = true → i < x.size → ¬ rule x →
          ∃ y : Held, o.held[k]? = some y ∧ R.read y.tag (σs (y.r.lo + i)) = none ∧ R.write y.tag (σs (y.r.lo + i)) = none := by
        intro k i x hx ha hi hr
        obtain ⟨y, hy⟩ := zip_other hA.same hx
        have hm := zip_at hy hx
        have hin : y.r.has (y.r.lo + i) = true := by
          have := (hA.each _ hm).1
          rw [has_iff]
          simp only at this
          omega
        have hd := ((hH (y.r.lo + i)).2 _ hm ha hin).1 hr
        exact ⟨y, hy, S.dead_read hd, S.dead_write hd⟩
      cases c with
      | get k i =>
        obtain ⟨x, hx, ha, hi, _⟩ := hC.1
        obtain ⟨y, hy, h1, _⟩ := dead k i x hx ha hi fun h => hc ⟨x, hx, ha, hi, h⟩
        refine ⟨y.r.lo + i, ?_⟩
        rw [split, show Call.go p d o (.get k i) = (o, [.read y.tag ⟨y.r.lo + i, 1⟩]) by simp only [Call.go, hy]]
        have hin : (⟨y.r.lo + i, 1⟩ : Region).has (y.r.lo + i) = true := by rw [has_iff]; simp only; omega
        show (((Event.read y.tag ⟨y.r.lo + i, 1⟩).act R _ _).bind _).bind _ = none
        rw [hit_read hin, h1]
        rfl
      | set k i =>
        obtain ⟨x, hx, ha, he, hi, _⟩ := hC.1
        obtain ⟨y, hy, _, h1⟩ := dead k i x hx ha hi fun h => hc ⟨x, hx, ha, he, hi, h⟩
        refine ⟨y.r.lo + i, ?_⟩
        rw [split, show Call.go p d o (.set k i) = (o, [.write y.tag ⟨y.r.lo + i, 1⟩]) by simp only [Call.go, hy]]
        have hin : (⟨y.r.lo + i, 1⟩ : Region).has (y.r.lo + i) = true := by rw [has_iff]; simp only; omega
        show (((Event.write y.tag ⟨y.r.lo + i, 1⟩).act R _ _).bind _).bind _ = none
        rw [hit_write hin, h1]
        rfl
      | len => exact absurd hC.1 hc
      | asSlice => exact absurd hC.1 hc
      | asMutSlice => exact absurd hC.1 hc
      | copyFromSlice n => exact absurd hC.1 hc
      | eachRef => exact absurd hC.1 hc
      | eachMut => exact absurd hC.1 hc

theorem agree_new (p : Place) (n : Nat) (hn : n ≤ p.cap) : Agree p (Owner.new n) [] :=
  ⟨hn, Nat.le_refl 2, rfl, (fun _ hx => nomatch hx), .nil⟩

theorem holds_new (p : Place) (n l : Nat) : S.Holds p (Owner.new n) [] l (R.start (rootAt p l)) := by
  refine ⟨S.start ?_, fun _ hx => nomatch hx⟩
  show (if p.whole.has l = true then 0 else 1) < 2
  split <;> decide

include S in
/-- Exactly the programs that keep to the rule are defined. -/
theorem defined_iff {p : Place} {d : Nat} (hd : Apart p d) (n : Nat) (hn : n ≤ p.cap) (cs : List Call)
    (hC : Checked anyLoan p.cap n [] cs) :
    Defined R p (events p d (Owner.new n) cs) ↔ Checked rule p.cap n [] cs := by
  constructor
  · intro h
    refine Classical.byContradiction fun hc => ?_
    obtain ⟨l, hl⟩ := S.run_undefined hd cs (Owner.new n) [] (agree_new p n hn) hC hc (fun l => R.start (rootAt p l))
      (S.holds_new p n)
    obtain ⟨s', h'⟩ := h l
    rw [show R.start (if p.whole.has l = true then ownerTag else dataTag) = R.start (rootAt p l) from rfl, hl] at h'
    cases h'
  · intro h l
    exact S.run_defined hd cs (Owner.new n) [] (agree_new p n hn) h l _ (S.holds_new p n l)

end Sound

end Oct.Alias
