import Verif.Proofs.SlotBorrows
/-
That whole programs that own a slot are defined.
-/
namespace Oct.Alias
open Spec Sound

theorem Agree.grow {p : Place} {o : Owner} {loans : List Loan} (h : Agree p o loans) {f : Loan → Loan} (hf : Weaker f)
    {n len : Nat} {hs : List Held} {ls : List Loan}
    (hb : ∀ y ∈ loans, ∀ z ∈ ls, (f y).alive = true → (f y).excl = false ∧ z.excl = false) (hp : (hs.zip ls).Pairwise Free)
    (hn : o.next ≤ n) (hl : len ≤ p.cap) (hh : hs.length = ls.length)
    (he : ∀ x ∈ hs.zip ls, x.1.r.size = x.2.size ∧ x.1.tag < n ∧ p.at_ ≤ x.1.r.lo ∧
      x.1.r.lo + x.1.r.size ≤ p.at_ + p.cap) :
    Agree p ⟨len, n, o.held ++ hs⟩ (loans.map f ++ ls) := by
  obtain ⟨h1, h2, h3, h4, h5⟩ := h
  refine ⟨hl, Nat.le_trans h2 hn, by simp [h3, hh], fun x hx => ?_, ?_⟩
  · rw [List.zip_append (by simp [h3])] at hx
    rcases List.mem_append.mp hx with hx | hx
    · rw [List.zip_map_right] at hx
      obtain ⟨y, hy, rfl⟩ := List.mem_map.mp hx
      obtain ⟨e1, e2, e3⟩ := h4 y hy
      exact ⟨e1.trans (hf y.2).1.symm, Nat.lt_of_lt_of_le e2 hn, e3⟩
    · exact he x hx
  · show ((o.held ++ hs).zip (loans.map f ++ ls)).Pairwise Free
    rw [List.zip_append (by simp [h3]), List.pairwise_append, List.zip_map_right, List.pairwise_map]
    refine ⟨h5.imp fun {x y} hxy => ?_, hp, fun x hx y hy => ?_⟩
    · intro ha hb
      have hxy := hxy ((hf x.2).2.2 ha) ((hf y.2).2.2 hb)
      rw [← (hf x.2).2.1, ← (hf y.2).2.1] at hxy
      exact hxy
    · obtain ⟨z, hz, rfl⟩ := List.mem_map.mp hx
      intro ha _
      exact .inl (hb z.2 (List.of_mem_zip hz).2 y.2 (List.of_mem_zip hy).2 ha)

theorem Agree.keep {p : Place} {o : Owner} {loans : List Loan} (h : Agree p o loans) {f : Loan → Loan} (hf : Weaker f)
    {n len : Nat} (hn : o.next ≤ n) (hl : len ≤ p.cap) : Agree p ⟨len, n, o.held⟩ (loans.map f) := by
  have := h.grow hf (n := n) (len := len) (hs := []) (ls := []) (fun _ _ _ hz => nomatch hz) .nil hn hl rfl
    (fun x hx => nomatch hx)
  simpa using this

theorem outputWrite_next (p : Place) (d b pos k n : Nat) : n ≤ (p.outputWrite d b pos k n).2.1 := by
  by_cases hf : pos + k ≤ p.cap
  · rw [outputWrite_fit hf]
    exact Nat.le_add_right n 4
  · rw [outputWrite_refused hf]
    exact Nat.le_add_right n 2

theorem outputWrites_next (p : Place) (d b : Nat) : (ns : List Nat) → (pos n : Nat) → n ≤ (p.outputWrites d b pos ns n).2.1
  | [], _, n => Nat.le_refl n
  | k :: ns, pos, n =>
    Nat.le_trans (outputWrite_next p d b pos k n) (outputWrites_next p d b ns _ (p.outputWrite d b pos k n).2.1)

theorem slotWrite_next (p : Place) (d : Nat) (ns : List Nat) (ok : Bool) (n : Nat) : n ≤ (p.slotWrite d ns ok 0 n).2.1 := by
  have h := outputWrites_next p d (n + 1) ns 0 (n + 2)
  cases ok with
  | true =>
    show n ≤ (p.outputWrites d (n + 1) 0 ns (n + 2)).2.1 + 6
    omega
  | false =>
    show n ≤ (p.outputWrites d (n + 1) 0 ns (n + 2)).2.1
    omega

theorem inputReads_next (p : Place) (b : Nat) : (ns : List Nat) → (pos n : Nat) → n ≤ (p.inputReads b pos ns n).2.1
  | [], _, n => Nat.le_refl n
  | k :: ns, pos, n => by
    refine Nat.le_trans ?_ (inputReads_next p b ns _ (p.inputRead b pos k n).2.1)
    by_cases hf : pos + k ≤ p.cap
    · rw [inputRead_fit hf]
      exact Nat.le_add_right n 3
    · rw [inputRead_refused hf]
      exact Nat.le_add_right n 1

theorem beside_last (x : Loan) : x.beside.last = x.last := rfl
theorem ended_last (x : Loan) : x.ended.last = x.last := rfl

/-- What holds of the owner of a slot and the borrow checker. -/
def SlotAgree (p : Place) (o : Owner) (loans : List Loan) : Prop := Agree p o loans ∧ ∀ x ∈ loans, x.last = true

theorem SlotAgree.step {p : Place} {d : Nat} {o : Owner} {loans : List Loan} (h : SlotAgree p o loans) (c : SlotCall)
    (hc : SlotPermits p.cap loans c) : SlotAgree p (c.go p d o).1 (slotLoansAfter p.cap o.len loans c) ∧
      (c.go p d o).1.len = slotLenAfter p.cap o.len c ∧ o.next ≤ (c.go p d o).1.next := by
  obtain ⟨h, hlast⟩ := h
  have lb : ∀ x ∈ loans.map Loan.beside, x.last = true := fun x hx => by
    obtain ⟨y, hy, rfl⟩ := List.mem_map.mp hx
    exact hlast y hy
  have le : ∀ x ∈ loans.map Loan.ended, x.last = true := fun x hx => by
    obtain ⟨y, hy, rfl⟩ := List.mem_map.mp hx
    exact hlast y hy
  cases c with
  | len => exact ⟨⟨h.keep weaker_beside (Nat.le_succ _) h.len, lb⟩, rfl, Nat.le_succ _⟩
  | capacity => exact ⟨⟨h.keep weaker_beside (Nat.le_add_right o.next 2) h.len, lb⟩, rfl, Nat.le_add_right o.next 2⟩
  | asSlice =>
    have hl := h.len
    refine ⟨⟨h.grow weaker_beside (n := o.next + 6) (hs := [⟨o.next + 5, p.items o.len⟩])
      (ls := [⟨o.len, false, true, true⟩]) (fun y _ z hz ha => ⟨beside_shared y ha, by rw [List.mem_singleton.mp hz]⟩)
      (List.pairwise_singleton _ _) (Nat.le_add_right _ _) hl rfl fun x hx => ?_, fun x hx => ?_⟩, rfl,
      Nat.le_add_right o.next 6⟩
    · rcases List.mem_singleton.mp hx with rfl
      exact ⟨rfl, by show o.next + 5 < o.next + 6; omega, Nat.le_refl _, by simp only [Place.items]; omega⟩
    · rcases List.mem_append.mp hx with hx | hx
      · exact lb x hx
      · rw [List.mem_singleton.mp hx]
  | asMutSlice =>
    have hl := h.len
    refine ⟨⟨h.grow weaker_ended (n := o.next + 7) (hs := [⟨o.next + 6, p.buf⟩])
      (ls := [⟨p.cap, true, true, true⟩]) (fun _ _ _ _ ha => nomatch ha)
      (List.pairwise_singleton _ _) (Nat.le_add_right _ _) hl rfl fun x hx => ?_, fun x hx => ?_⟩, rfl,
      Nat.le_add_right o.next 7⟩
    · rcases List.mem_singleton.mp hx with rfl
      exact ⟨rfl, by show o.next + 6 < o.next + 7; omega, Nat.le_refl _, Nat.le_refl _⟩
    · rcases List.mem_append.mp hx with hx | hx
      · exact le x hx
      · rw [List.mem_singleton.mp hx]
  | asPtr =>
    have hl := h.len
    refine ⟨⟨h.grow weaker_beside (n := o.next + 3) (hs := [⟨o.next + 2, p.buf⟩])
      (ls := [⟨p.cap, false, true, true⟩]) (fun y _ z hz ha => ⟨beside_shared y ha, by rw [List.mem_singleton.mp hz]⟩)
      (List.pairwise_singleton _ _) (Nat.le_add_right _ _) hl rfl fun x hx => ?_, fun x hx => ?_⟩, rfl,
      Nat.le_add_right o.next 3⟩
    · rcases List.mem_singleton.mp hx with rfl
      exact ⟨rfl, by show o.next + 2 < o.next + 3; omega, Nat.le_refl _, Nat.le_refl _⟩
    · rcases List.mem_append.mp hx with hx | hx
      · exact lb x hx
      · rw [List.mem_singleton.mp hx]
  | asMutPtr =>
    have hl := h.len
    refine ⟨⟨h.grow weaker_ended (n := o.next + 3) (hs := [⟨o.next + 2, p.buf⟩])
      (ls := [⟨p.cap, true, true, true⟩]) (fun _ _ _ _ ha => nomatch ha)
      (List.pairwise_singleton _ _) (Nat.le_add_right _ _) hl rfl fun x hx => ?_, fun x hx => ?_⟩, rfl,
      Nat.le_add_right o.next 3⟩
    · rcases List.mem_singleton.mp hx with rfl
      exact ⟨rfl, by show o.next + 2 < o.next + 3; omega, Nat.le_refl _, Nat.le_refl _⟩
    · rcases List.mem_append.mp hx with hx | hx
      · exact le x hx
      · rw [List.mem_singleton.mp hx]
  | setLen n => exact ⟨⟨h.keep weaker_ended (Nat.le_add_right o.next 6) hc, le⟩, rfl, Nat.le_add_right o.next 6⟩
  | copyFromSlice n => exact ⟨⟨h.keep weaker_ended (Nat.le_add_right o.next 10) hc, le⟩, rfl, Nat.le_add_right o.next 10⟩
  | write ns ok =>
    refine ⟨⟨h.keep weaker_ended (slotWrite_next p d ns ok o.next) ?_, le⟩, rfl, slotWrite_next p d ns ok o.next⟩
    split
    · exact position_le p.cap ns 0 (Nat.zero_le _)
    · exact h.len
  | read ns =>
    have hn : o.next ≤ (p.slotRead ns 0 o.next).2.1 :=
      Nat.le_trans (Nat.le_add_right o.next 2) (inputReads_next p (o.next + 1) ns 0 (o.next + 2))
    exact ⟨⟨h.keep weaker_beside hn h.len, lb⟩, rfl, hn⟩
  | get k i =>
    have : (SlotCall.go p d o (.get k i)).1 = o := by
      show (match o.held[k]? with | some x => (o, _) | none => (o, _)).1 = o
      cases o.held[k]? <;> rfl
    rw [this]
    exact ⟨⟨h, hlast⟩, rfl, Nat.le_refl _⟩
  | set k i =>
    have : (SlotCall.go p d o (.set k i)).1 = o := by
      show (match o.held[k]? with | some x => (o, _) | none => (o, _)).1 = o
      cases o.held[k]? <;> rfl
    rw [this]
    exact ⟨⟨h, hlast⟩, rfl, Nat.le_refl _⟩

namespace Nest
variable {σ : Type} {R : Rules σ} {rule : Loan → Prop} {S : Sound R rule} (N : Nest S) {p : Place} {l : Nat}

theorem miss_all (hl : ¬ p.whole.has l = true) : ¬ p.head.has l = true ∧ ¬ p.buf.has l = true ∧
    (∀ n, n ≤ p.cap → ¬ (p.items n).has l = true) ∧ ∀ pos n, pos + n ≤ p.cap → ¬ (⟨p.at_ + pos, n⟩ : Region).has l = true :=
  ⟨fun h => hl (head_whole h), fun h => hl (buf_whole h), fun _ hn h => hl (buf_whole (items_buf hn h)),
    fun _ _ hn h => hl (buf_whole (piece_buf hn h))⟩

theorem capacity_out (hl : ¬ p.whole.has l = true) (h n : Nat) (s : σ) :
    runAt R l (p.slotCapacity h n).2.2 s = some s := by
  obtain ⟨hh, hb, _⟩ := miss_all hl
  show runAt R l [.retag .shared h n p.head, .read n p.head, .retag .shared 0 (n + 1) p.buf] s = _
  rw [runAt_cons (miss_retag hh), runAt_cons (miss_read hh), runAt_cons (miss_retag hb)]
  rfl

theorem mutPtr_out (hl : ¬ p.whole.has l = true) (h n : Nat) (s : σ) :
    runAt R l (p.slotMutPtr h n).2.2 s = some s := by
  obtain ⟨hh, hb, _⟩ := miss_all hl
  show runAt R l [.retag .excl h n p.head, .read n p.head, .retag .excl 0 (n + 1) p.buf,
    .retag .raw (n + 1) (n + 2) p.buf] s = _
  rw [runAt_cons (miss_retag hh), runAt_cons (miss_read hh), runAt_cons (miss_retag hb), runAt_cons (miss_retag hb)]
  rfl

theorem setLenUnchecked_out (hl : ¬ p.whole.has l = true) (h n : Nat) (s : σ) :
    runAt R l (p.setLenUnchecked h n).2.2 s = some s := by
  obtain ⟨hh, hb, _⟩ := miss_all hl
  show runAt R l (.retag .excl h n p.head :: ((p.slotCapacity n (n + 1)).2.2 ++ [.write n p.head])) s = _
  rw [runAt_cons (miss_retag hh), runAt_append, capacity_out hl, Option.bind_some, runAt_cons (miss_write hh)]
  rfl

theorem setLen_out (hl : ¬ p.whole.has l = true) (h n : Nat) (s : σ) :
    runAt R l (p.setLen h n).2.2 s = some s := by
  obtain ⟨hh, hb, _⟩ := miss_all hl
  show runAt R l (.retag .excl h n p.head :: ((p.slotCapacity n (n + 1)).2.2 ++ (p.setLenUnchecked n (n + 3)).2.2)) s = _
  rw [runAt_cons (miss_retag hh), runAt_append, capacity_out hl, Option.bind_some, setLenUnchecked_out hl]

theorem mutSlice_out (hl : ¬ p.whole.has l = true) (n : Nat) (s : σ) :
    runAt R l (p.slotMutSlice 0 n).2.2 s = some s := by
  obtain ⟨hh, hb, _⟩ := miss_all hl
  show runAt R l (.retag .excl 0 n p.head :: ((p.slotMutPtr n (n + 1)).2.2 ++ ((p.slotCapacity n (n + 4)).2.2 ++
    [.retag .excl (n + 3) (n + 6) p.buf]))) s = _
  rw [runAt_cons (miss_retag hh), runAt_append, mutPtr_out hl, Option.bind_some, runAt_append, capacity_out hl,
    Option.bind_some, runAt_cons (miss_retag hb)]
  rfl

variable (S) in
theorem copy_out (hl : ¬ p.whole.has l = true) {d k n : Nat} (hk : k ≤ p.cap) {s : σ} (hw : S.W dataTag n s) :
    ∃ s', runAt R l (p.slotCopy d k 0 n).2.2 s = some s' ∧ S.W dataTag (n + 10) s' := by
  obtain ⟨hh, hb, hi, _⟩ := miss_all hl
  obtain ⟨s1, h1, c1, e1⟩ := S.shared_any (g := ⟨d, k⟩) (l := l) (S.mono (Nat.le_succ n) hw) fun _ => .inl rfl
  obtain ⟨s2, h2, c2⟩ := S.read_any c1.2.1 e1
  refine ⟨s2, ?_, S.mono (Nat.le_add_right (n + 2) 8) c2.2.1⟩
  show runAt R l (.retag .excl 0 n p.head :: .retag .shared dataTag (n + 1) ⟨d, k⟩ :: ((p.slotCapacity n (n + 2)).2.2 ++
    ((p.slotMutPtr n (n + 4)).2.2 ++ (.read (n + 1) ⟨d, k⟩ :: .write (n + 6) (p.items k) ::
      (p.setLenUnchecked n (n + 7)).2.2)))) s = _
  rw [runAt_cons (miss_retag hh), runAt_cons h1, runAt_append, capacity_out hl, Option.bind_some, runAt_append,
    mutPtr_out hl, Option.bind_some, runAt_cons h2, runAt_cons (miss_write (hi k hk)), setLenUnchecked_out hl]

variable (S) in
theorem outputWrites_out (hl : ¬ p.whole.has l = true) {d b : Nat} : (ns : List Nat) → (pos n : Nat) → (s : σ) →
    S.W dataTag n s → ∃ s', runAt R l (p.outputWrites d b pos ns n).2.2 s = some s' ∧
      S.W dataTag (p.outputWrites d b pos ns n).2.1 s'
  | [], _, _, s, hw => ⟨s, rfl, hw⟩
  | k :: ns, pos, n, s, hw => by
    obtain ⟨hh, hb, _, hi⟩ := miss_all hl
    have hstep : ∃ s', runAt R l (p.outputWrite d b pos k n).2.2 s = some s' ∧
        S.W dataTag (p.outputWrite d b pos k n).2.1 s' := by
      obtain ⟨s1, h1, c1, e1⟩ := S.shared_any (g := ⟨d, k⟩) (l := l) hw fun _ => .inl rfl
      by_cases hf : pos + k ≤ p.cap
      · obtain ⟨s2, h2, c2⟩ := S.read_any c1.2.1 e1
        rw [outputWrite_fit hf]
        refine ⟨s2, ?_, S.mono (Nat.le_add_right (n + 1) 3) c2.2.1⟩
        simp only
        rw [runAt_cons h1, runAt_cons (miss_retag hb), runAt_cons (miss_retag hb), runAt_cons (miss_retag hb), runAt_cons h2,
          runAt_cons (miss_write (hi pos k hf))]
        rfl
      · rw [outputWrite_refused hf]
        refine ⟨s1, ?_, S.mono (Nat.le_succ _) c1.2.1⟩
        simp only
        rw [runAt_cons h1, runAt_cons (miss_retag hb)]
        rfl
    obtain ⟨s1, h1, w1⟩ := hstep
    obtain ⟨s2, h2, w2⟩ := outputWrites_out hl ns (if pos + k ≤ p.cap then pos + k else pos) _ s1 w1
    refine ⟨s2, ?_, w2⟩
    show runAt R l ((p.outputWrite d b pos k n).2.2 ++ (p.outputWrites d b _ ns (p.outputWrite d b pos k n).2.1).2.2) s = _
    rw [runAt_append, h1, Option.bind_some, h2]

variable (S) in
theorem write_out (hl : ¬ p.whole.has l = true) {d : Nat} (ns : List Nat) (ok : Bool) {n : Nat} {s : σ}
    (hw : S.W dataTag n s) : ∃ s', runAt R l (p.slotWrite d ns ok 0 n).2.2 s = some s' ∧
      S.W dataTag (p.slotWrite d ns ok 0 n).2.1 s' := by
  obtain ⟨hh, hb, _⟩ := miss_all hl
  obtain ⟨s1, h1, w1⟩ := outputWrites_out S hl (d := d) (b := n + 1) ns 0 (n + 2) s (S.mono (Nat.le_add_right n 2) hw)
  cases ok with
  | true =>
    refine ⟨s1, ?_, S.mono (Nat.le_add_right _ 6) w1⟩
    show runAt R l (.retag .excl 0 n p.head :: .read n p.head :: .retag .excl 0 (n + 1) p.buf ::
      ((p.outputWrites d (n + 1) 0 ns (n + 2)).2.2 ++
        (p.setLen n (p.outputWrites d (n + 1) 0 ns (n + 2)).2.1).2.2)) s = _
    rw [runAt_cons (miss_retag hh), runAt_cons (miss_read hh), runAt_cons (miss_retag hb), runAt_append, h1, Option.bind_some,
      setLen_out hl]
  | false =>
    refine ⟨s1, ?_, w1⟩
    show runAt R l (.retag .excl 0 n p.head :: .read n p.head :: .retag .excl 0 (n + 1) p.buf ::
      ((p.outputWrites d (n + 1) 0 ns (n + 2)).2.2 ++ [])) s = _
    rw [runAt_cons (miss_retag hh), runAt_cons (miss_read hh), runAt_cons (miss_retag hb), List.append_nil, h1]

include N in
/-- A call by `&mut self` that returns no reference. -/
theorem step_mut {d : Nat} (hd : Behind p d) {o : Owner} {loans : List Loan} (c : SlotCall)
    (hc : SlotPermits p.cap loans c) (hm : match c with
      | .setLen _ | .copyFromSlice _ | .write _ _ => True
      | _ => False) {s : σ} (hw : S.W (rootAt p l) o.next s) :
    ∃ s', runAt R l (c.go p d o).2 s = some s' ∧ S.W (rootAt p l) (c.go p d o).1.next s' := by
  by_cases hl : p.whole.has l = true
  · have hroot : rootAt p l = 0 := if_pos hl
    rw [hroot] at hw ⊢
    have ha : N.At p l [0] [0] o.next s := At.ofW hw
    cases c with
    | setLen n =>
      obtain ⟨s', h1, a1⟩ := ha.setLen hl
      exact ⟨s', h1, a1.toW⟩
    | copyFromSlice n =>
      obtain ⟨s', h1, a1⟩ := ha.copy hl hc hd
      exact ⟨s', h1, a1.toW⟩
    | write ns ok =>
      obtain ⟨s', h1, a1⟩ := ha.write hl hd ns ok
      exact ⟨s', h1, a1.toW⟩
    | _ => exact hm.elim
  · have hroot : rootAt p l = 1 := if_neg hl
    rw [hroot] at hw ⊢
    cases c with
    | setLen n => exact ⟨s, setLen_out hl _ _ _, S.mono (Nat.le_add_right o.next 6) hw⟩
    | copyFromSlice n => exact copy_out S hl hc hw
    | write ns ok => exact write_out S hl ns ok hw
    | _ => exact hm.elim

include N in
/-- A call that compiles keeps what holds at a location. -/
theorem step {d : Nat} (hd : Behind p d) {o : Owner} {loans : List Loan} (hA : SlotAgree p o loans) (c : SlotCall)
    (hc : SlotPermits p.cap loans c) (s : σ) (hH : S.Holds p o loans l s) :
    ∃ s', runAt R l (c.go p d o).2 s = some s' ∧
      S.Holds p (c.go p d o).1 (slotLoansAfter p.cap o.len loans c) l s' := by
  have hw := hH.1
  cases c with
  | len =>
    obtain ⟨s', h1, c1⟩ := S.slotLen_at hw fun h => .inl (root_head h)
    exact ⟨s', h1, c1.2.1, S.stands_beside hH.2 c1⟩
  | capacity =>
    obtain ⟨s', h1, c1⟩ := S.slotCapacity_at hw
    exact ⟨s', h1, c1.2.1, S.stands_beside hH.2 c1⟩
  | asSlice =>
    obtain ⟨s', h1, c1, e1⟩ := S.slotSlice_at o.len hA.1.len hw
    refine ⟨s', h1, c1.2.1, S.stands_append (by simp [hA.1.same]) (S.stands_beside hH.2 c1) fun x hx => ?_⟩
    rcases List.mem_singleton.mp hx with rfl
    exact fun _ hr => ⟨fun h => absurd (S.rule_last _ rfl) h, fun _ => e1 hr⟩
  | asMutSlice =>
    by_cases hl : p.whole.has l = true
    · have hroot : rootAt p l = 0 := if_pos hl
      rw [hroot] at hw
      obtain ⟨s', h1, w1, e1⟩ := N.mutSlice hl hw
      refine ⟨s', h1, by rw [hroot]; exact w1, S.stands_append (by simp [hA.1.same]) S.stands_ended fun x hx => ?_⟩
      rcases List.mem_singleton.mp hx with rfl
      exact fun _ hr => ⟨fun h => absurd (S.rule_last _ rfl) h, fun _ => e1 hr⟩
    · exact ⟨s, mutSlice_out hl _ _, S.mono (Nat.le_add_right o.next 7) hw,
        S.stands_outside (hA.step (d := d) .asMutSlice hc).1.1 hl s⟩
  | asPtr =>
    obtain ⟨s', h1, c1, e1⟩ := S.slotPtr_at hw
    refine ⟨s', h1, c1.2.1, S.stands_append (by simp [hA.1.same]) (S.stands_beside hH.2 c1) fun x hx => ?_⟩
    rcases List.mem_singleton.mp hx with rfl
    exact fun _ hr => ⟨fun h => absurd (S.rule_last _ rfl) h, fun _ => e1 hr⟩
  | asMutPtr =>
    by_cases hl : p.whole.has l = true
    · have hroot : rootAt p l = 0 := if_pos hl
      rw [hroot] at hw
      obtain ⟨s', h1, w1, e1⟩ := N.pointer hl hw
      refine ⟨s', h1, by rw [hroot]; exact w1, S.stands_append (by simp [hA.1.same]) S.stands_ended fun x hx => ?_⟩
      rcases List.mem_singleton.mp hx with rfl
      exact fun _ hr => ⟨fun h => absurd (S.rule_last _ rfl) h, fun _ => e1 hr⟩
    · exact ⟨s, mutPtr_out hl _ _ _, S.mono (Nat.le_add_right o.next 3) hw,
        S.stands_outside (hA.step (d := d) .asMutPtr hc).1.1 hl s⟩
  | setLen n =>
    obtain ⟨s', h1, w1⟩ := N.step_mut hd (.setLen n) hc trivial hw
    exact ⟨s', h1, w1, S.stands_ended⟩
  | copyFromSlice n =>
    obtain ⟨s', h1, w1⟩ := N.step_mut hd (.copyFromSlice n) hc trivial hw
    exact ⟨s', h1, w1, S.stands_ended⟩
  | write ns ok =>
    obtain ⟨s', h1, w1⟩ := N.step_mut hd (.write ns ok) hc trivial hw
    exact ⟨s', h1, w1, S.stands_ended⟩
  | read ns =>
    obtain ⟨s', h1, c1⟩ := S.slotRead_at ns hw
    exact ⟨s', h1, c1.2.1, S.stands_beside hH.2 c1⟩
  | get k i =>
    obtain ⟨x, hx, ha, hi⟩ := hc
    obtain ⟨y, hy⟩ := zip_other hA.1.same hx
    have hgo : SlotCall.go p d o (.get k i) = (o, [.read y.tag ⟨y.r.lo + i, 1⟩]) := by
      simp only [SlotCall.go, hy]
    rw [hgo]
    exact (S.use_ok hA.1 hH (zip_at hy hx) ha (S.rule_last _ (hA.2 x (List.mem_of_getElem? hx))) i hi).1
  | set k i =>
    obtain ⟨x, hx, ha, he, hi⟩ := hc
    obtain ⟨y, hy⟩ := zip_other hA.1.same hx
    have hgo : SlotCall.go p d o (.set k i) = (o, [.write y.tag ⟨y.r.lo + i, 1⟩]) := by
      simp only [SlotCall.go, hy]
    rw [hgo]
    exact (S.use_ok hA.1 hH (zip_at hy hx) ha (S.rule_last _ (hA.2 x (List.mem_of_getElem? hx))) i hi).2 he

include N in
theorem run_defined {d : Nat} (hd : Behind p d) : (cs : List SlotCall) → (o : Owner) → (loans : List Loan) →
    SlotAgree p o loans → SlotChecked p.cap o.len loans cs → ∀ (s : σ), S.Holds p o loans l s →
    ∃ s', runAt R l (slotEvents p d o cs) s = some s'
  | [], _, _, _, _, s, _ => ⟨s, rfl⟩
  | c :: cs, o, loans, hA, hC, s, hH => by
    obtain ⟨s1, h1, h2⟩ := N.step hd hA c hC.1 s hH
    obtain ⟨hA', hlen, _⟩ := hA.step (d := d) c hC.1
    have hC2 := hC.2
    rw [← hlen] at hC2
    obtain ⟨s2, h3⟩ := run_defined hd cs _ _ hA' hC2 s1 h2
    refine ⟨s2, ?_⟩
    show runAt R l ((c.go p d o).2 ++ slotEvents p d (c.go p d o).1 cs) s = _
    rw [runAt_append, h1]
    exact h3

theorem go_tags {d : Nat} {o : Owner} (h2 : 2 ≤ o.next) (ht : ∀ x ∈ o.held, 2 ≤ x.tag) (c : SlotCall) :
    ∀ x ∈ (c.go p d o).1.held, 2 ≤ x.tag := by
  have one : ∀ (t : Nat) (r : Region), 2 ≤ t → ∀ x ∈ o.held ++ [⟨t, r⟩], 2 ≤ x.tag := by
    intro t r h x hx
    rcases List.mem_append.mp hx with hx | hx
    · exact ht x hx
    · rw [List.mem_singleton.mp hx]
      exact h
  cases c with
  | asSlice => exact one (o.next + 5) _ (by omega)
  | asMutSlice => exact one (o.next + 6) _ (by omega)
  | asPtr => exact one (o.next + 2) _ (by omega)
  | asMutPtr => exact one (o.next + 2) _ (by omega)
  | get k i =>
    have : (SlotCall.go p d o (.get k i)).1 = o := by
      show (match o.held[k]? with | some x => (o, _) | none => (o, _)).1 = o
      cases o.held[k]? <;> rfl
    rw [this]
    exact ht
  | set k i =>
    have : (SlotCall.go p d o (.set k i)).1 = o := by
      show (match o.held[k]? with | some x => (o, _) | none => (o, _)).1 = o
      cases o.held[k]? <;> rfl
    rw [this]
    exact ht
  | _ => exact ht

theorem slotEvents_append (p : Place) (d : Nat) : (cs ds : List SlotCall) → (o : Owner) →
    slotEvents p d o (cs ++ ds) = slotEvents p d o cs ++ slotEvents p d (slotAfter p d o cs) ds
  | [], _, _ => rfl
  | c :: cs, ds, o => by
    show (c.go p d o).2 ++ slotEvents p d (c.go p d o).1 (cs ++ ds)
      = ((c.go p d o).2 ++ slotEvents p d (c.go p d o).1 cs) ++ _
    rw [slotEvents_append p d cs ds, List.append_assoc]
    rfl

include N in
theorem run_holds {d : Nat} (hd : Behind p d) : (cs : List SlotCall) → (o : Owner) → (loans : List Loan) →
    SlotAgree p o loans → (∀ x ∈ o.held, 2 ≤ x.tag) → SlotChecked p.cap o.len loans cs →
    ∃ loans', SlotAgree p (slotAfter p d o cs) loans' ∧ (∀ x ∈ (slotAfter p d o cs).held, 2 ≤ x.tag) ∧
      ∀ (l : Nat) (s : σ), S.Holds p o loans l s →
        ∃ s', runAt R l (slotEvents p d o cs) s = some s' ∧ S.Holds p (slotAfter p d o cs) loans' l s'
  | [], _, loans, hA, ht, _ => ⟨loans, hA, ht, fun _ s h => ⟨s, rfl, h⟩⟩
  | c :: cs, o, loans, hA, ht, hC => by
    obtain ⟨hA', hlen, _⟩ := hA.step (d := d) c hC.1
    have hC2 := hC.2
    rw [← hlen] at hC2
    obtain ⟨loans', h1, h2, h3⟩ := run_holds hd cs _ _ hA' (go_tags hA.1.next ht c) hC2
    refine ⟨loans', h1, h2, fun l s hs => ?_⟩
    obtain ⟨s1, h4, h5⟩ := N.step hd hA c hC.1 s hs
    obtain ⟨s2, h6, h7⟩ := h3 l s1 h5
    refine ⟨s2, ?_, h7⟩
    show runAt R l ((c.go p d o).2 ++ slotEvents p d (c.go p d o).1 cs) s = _
    rw [runAt_append, h4]
    exact h6

include N in
/-- Where both end, if there is no way to go on from a state that is reached. -/
theorem stuck {d : Nat} (hd : Behind p d) {n : Nat} (hn : n ≤ p.cap) {cs ds : List SlotCall}
    (hc : SlotChecked p.cap n [] cs) {j : Nat} (hj : j < p.cap)
    (h : ∀ s, runAt R (p.at_ + j) (slotEvents p d (Owner.new n) cs) (R.start ownerTag) = some s →
      S.W ownerTag (slotAfter p d (Owner.new n) cs).next s →
      (∀ x ∈ (slotAfter p d (Owner.new n) cs).held, 2 ≤ x.tag ∧ x.tag < (slotAfter p d (Owner.new n) cs).next) →
      runAt R (p.at_ + j) (slotEvents p d (slotAfter p d (Owner.new n) cs) ds) s = none) :
    ¬ Defined R p (slotEvents p d (Owner.new n) (cs ++ ds)) := by
  intro hdef
  rw [slotEvents_append] at hdef
  obtain ⟨loans', h1, h2, h3⟩ := N.run_holds hd cs (Owner.new n) [] ⟨agree_new p n hn, fun _ hx => nomatch hx⟩
    (fun _ hx => nomatch hx) hc
  have hroot : p.whole.has (p.at_ + j) = true := by
    rw [has_iff]
    simp only [Place.whole]
    omega
  obtain ⟨s', h4, h5⟩ := h3 (p.at_ + j) _ (S.holds_new p n (p.at_ + j))
  rw [show rootAt p (p.at_ + j) = ownerTag from if_pos hroot] at h4
  have hw := h5.1
  rw [show rootAt p (p.at_ + j) = ownerTag from if_pos hroot] at hw
  obtain ⟨s'', h6⟩ := hdef (p.at_ + j)
  rw [if_pos hroot, runAt_append, h4, Option.bind_some, h s' h4 hw fun x hx => ⟨h2 x hx, ?_⟩] at h6
  · cases h6
  · obtain ⟨i, hi⟩ := List.getElem?_of_mem hx
    have hil : i < loans'.length := by
      rw [← h1.1.same]
      exact (List.getElem?_eq_some_iff.mp hi).1
    exact (h1.1.each _ (zip_at hi (List.getElem?_eq_getElem hil))).2.1

include N in
theorem slot_defined {d : Nat} (hd : Behind p d) (n : Nat) (hn : n ≤ p.cap) (cs : List SlotCall)
    (hC : SlotChecked p.cap n [] cs) : Defined R p (slotEvents p d (Owner.new n) cs) := fun l =>
  N.run_defined hd cs (Owner.new n) [] ⟨agree_new p n hn, fun _ hx => nomatch hx⟩ hC _ (S.holds_new p n l)

end Nest

end Oct.Alias
