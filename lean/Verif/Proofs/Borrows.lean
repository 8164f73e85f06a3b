import Verif.Spec.Borrows
/-
That calls keep what the borrow checker promises, given what aliasing rules make of each method.
-/
namespace Oct.Alias
open Spec

theorem runAt_append {σ : Type} (R : Rules σ) (l : Nat) : (es fs : List Event) → (s : σ) →
    runAt R l (es ++ fs) s = (runAt R l es s).bind (runAt R l fs)
  | [], _, _ => rfl
  | e :: es, fs, s => by
    show (e.act R l s).bind (runAt R l (es ++ fs)) = ((e.act R l s).bind (runAt R l es)).bind _
    cases e.act R l s with
    | none => rfl
    | some s' => exact runAt_append R l es fs s'

theorem has_iff (r : Region) (l : Nat) : r.has l = true ↔ r.lo ≤ l ∧ l < r.lo + r.size := by
  unfold Region.has
  simp

/-- What aliasing rules promise: `W r n s` says that the owner `r` may be used and tags from `n` on are not in use;
`See` that a tag may be read, `Own` that it may be read and written, `Dead` that it may not be used. -/
structure Sound {σ : Type} (R : Rules σ) (rule : Loan → Prop) where
  rule_shared : ∀ x : Loan, x.excl = false → rule x
  rule_last : ∀ x : Loan, x.last = true → rule x
  W : Nat → Nat → σ → Prop
  See : Nat → σ → Prop
  Own : Nat → σ → Prop
  Dead : Nat → σ → Prop
  start : ∀ {r n}, r < n → W r n (R.start r)
  mono : ∀ {r n m s}, n ≤ m → W r n s → W r m s
  read_see : ∀ {r n h s}, W r n s → h = r ∨ See h s → ∃ s', R.read h s = some s' ∧ W r n s' ∧
    (∀ g, See g s → See g s') ∧ (∀ g, Dead g s → Dead g s')
  read_own : ∀ {r n h s}, W r n s → Own h s → ∃ s', R.read h s = some s' ∧ W r n s' ∧ Own h s' ∧
    (∀ g, Dead g s → Dead g s')
  write_own : ∀ {r n h s}, W r n s → Own h s → ∃ s', R.write h s = some s' ∧ W r n s' ∧ Own h s' ∧
    (∀ g, Dead g s → Dead g s')
  dead_read : ∀ {h s}, Dead h s → R.read h s = none
  dead_write : ∀ {h s}, Dead h s → R.write h s = none
  retag_shared : ∀ {r n h s}, W r n s → h = r ∨ See h s → ∃ s', R.retag .shared h n s = some s' ∧ W r (n + 1) s' ∧
    See n s' ∧ (∀ g, See g s → See g s') ∧ (∀ g, g < n → Dead g s → Dead g s')
  mutSlice : ∀ {t s} (p : Place) (k l : Nat), W ownerTag t s → p.whole.has l = true → k ≤ p.cap →
    ∃ s', runAt R l (p.asMutSlice k ownerTag t).2.2 s = some s' ∧ W ownerTag (p.asMutSlice k ownerTag t).2.1 s' ∧
      ((p.items k).has l = true → Own (p.asMutSlice k ownerTag t).1 s') ∧ (∀ g, g < t → Dead g s → Dead g s')
  copy : ∀ {t s} (p : Place) (d k l : Nat), W ownerTag t s → p.whole.has l = true → k ≤ p.cap → Apart p d →
    ∃ s', runAt R l (p.copyFromSlice dataTag d k ownerTag t).2.2 s = some s' ∧
      W ownerTag (p.copyFromSlice dataTag d k ownerTag t).2.1 s' ∧ (∀ g, g < t → Dead g s → Dead g s')
  eachMut : ∀ {t s} (p : Place) (k l : Nat), W ownerTag t s → p.whole.has l = true → k ≤ p.cap →
    ∃ s', runAt R l (p.eachMut k ownerTag t).2.2 s = some s' ∧ W ownerTag (p.eachMut k ownerTag t).2.1 s' ∧
      (∀ x ∈ (single p 0 (p.eachMut k ownerTag t).1).zip (loansOf true k), x.1.r.has l = true →
        (rule x.2 → Own x.1.tag s') ∧ (¬ rule x.2 → Dead x.1.tag s')) ∧
      (∀ g, g < t → Dead g s → Dead g s')

/-- The owner of a location. -/
abbrev rootAt (p : Place) (l : Nat) : Nat := if p.whole.has l then ownerTag else dataTag

/-- References that may be used at the same time are both shared, or to different items. -/
def Free (x y : Held × Loan) : Prop :=
  x.2.alive = true → y.2.alive = true → (x.2.excl = false ∧ y.2.excl = false) ∨
    ∀ l, ¬ (x.1.r.has l = true ∧ y.1.r.has l = true)

theorem Free.symm {x y : Held × Loan} (h : Free x y) : Free y x := fun hy hx =>
  (h hx hy).imp (fun h => ⟨h.2, h.1⟩) fun h l hl => h l ⟨hl.2, hl.1⟩

theorem pairwise_mem {α : Type} {r : α → α → Prop} : {xs : List α} → xs.Pairwise r → ∀ {a b}, a ∈ xs → b ∈ xs →
    a = b ∨ r a b ∨ r b a
  | _ :: _, .cons _ _, _, _, .head _, .head _ => .inl rfl
  | _ :: _, .cons h _, _, _, .head _, .tail _ hb => .inr (.inl (h _ hb))
  | _ :: _, .cons h _, _, _, .tail _ ha, .head _ => .inr (.inr (h _ ha))
  | _ :: _, .cons _ hs, _, _, .tail _ ha, .tail _ hb => pairwise_mem hs ha hb

/-- What holds of owner and borrow checker everywhere. -/
structure Agree (p : Place) (o : Owner) (loans : List Loan) : Prop where
  len : o.len ≤ p.cap
  next : 2 ≤ o.next
  same : o.held.length = loans.length
  each : ∀ x ∈ o.held.zip loans, x.1.r.size = x.2.size ∧ x.1.tag < o.next ∧ p.at_ ≤ x.1.r.lo ∧
    x.1.r.lo + x.1.r.size ≤ p.at_ + p.cap
  free : (o.held.zip loans).Pairwise Free

namespace Sound
variable {σ : Type} {R : Rules σ} {rule : Loan → Prop} (S : Sound R rule)

/-- What may be done with a reference at a location. -/
def Stands (l : Nat) (s : σ) (x : Held × Loan) : Prop :=
  x.2.alive = true → x.1.r.has l = true →
    (¬ rule x.2 → S.Dead x.1.tag s) ∧
    (rule x.2 → if x.2.excl = true then S.Own x.1.tag s else S.See x.1.tag s)

/-- What holds at a location. -/
def Holds (p : Place) (o : Owner) (loans : List Loan) (l : Nat) (s : σ) : Prop :=
  S.W (rootAt p l) o.next s ∧ ∀ x ∈ o.held.zip loans, S.Stands l s x

/-- What a piece of code by shared references does at a location. -/
def Calm (S : Sound R rule) (r n m : Nat) (s s' : σ) : Prop :=
  n ≤ m ∧ S.W r m s' ∧ (∀ g, S.See g s → S.See g s') ∧ (∀ g, g < n → S.Dead g s → S.Dead g s')

theorem Calm.trans {r n m k : Nat} {s s' s'' : σ} (h : S.Calm r n m s s') (h' : S.Calm r m k s' s'') :
    S.Calm r n k s s'' :=
  ⟨Nat.le_trans h.1 h'.1, h'.2.1, fun g hg => h'.2.2.1 g (h.2.2.1 g hg),
    fun g hg hd => h'.2.2.2 g (Nat.lt_of_lt_of_le hg h.1) (h.2.2.2 g hg hd)⟩

theorem Calm.skip {r n m : Nat} {s : σ} (h : n ≤ m) (hw : S.W r n s) : S.Calm r n m s s :=
  ⟨h, S.mono h hw, fun _ => id, fun _ _ => id⟩

theorem shared_at {r n h : Nat} {s : σ} {g : Region} {l : Nat} (hw : S.W r n s) (hg : g.has l = true)
    (hh : h = r ∨ S.See h s) :
    ∃ s', (Event.retag .shared h n g).act R l s = some s' ∧ S.Calm r n (n + 1) s s' ∧ S.See n s' := by
  obtain ⟨s', h1, h2, h3, h4, h5⟩ := S.retag_shared hw hh
  refine ⟨s', ?_, ⟨Nat.le_succ n, h2, h4, h5⟩, h3⟩
  show (if g.has l = true then R.retag .shared h n s else some s) = some s'
  rw [if_pos hg, h1]

theorem miss_retag {k : Kind} {a b : Nat} {s : σ} {g : Region} {l : Nat} (hg : ¬ g.has l = true) :
    (Event.retag k a b g).act R l s = some s := if_neg hg
theorem miss_read {a : Nat} {s : σ} {g : Region} {l : Nat} (hg : ¬ g.has l = true) :
    (Event.read a g).act R l s = some s := if_neg hg
theorem miss_write {a : Nat} {s : σ} {g : Region} {l : Nat} (hg : ¬ g.has l = true) :
    (Event.write a g).act R l s = some s := if_neg hg
theorem hit_retag {k : Kind} {a b : Nat} {s : σ} {g : Region} {l : Nat} (hg : g.has l = true) :
    (Event.retag k a b g).act R l s = R.retag k a b s := if_pos hg
theorem hit_read {a : Nat} {s : σ} {g : Region} {l : Nat} (hg : g.has l = true) :
    (Event.read a g).act R l s = R.read a s := if_pos hg
theorem hit_write {a : Nat} {s : σ} {g : Region} {l : Nat} (hg : g.has l = true) :
    (Event.write a g).act R l s = R.write a s := if_pos hg

theorem runAt_cons {e : Event} {es : List Event} {l : Nat} {s s' : σ} (h : e.act R l s = some s') :
    runAt R l (e :: es) s = runAt R l es s' := by
  show (e.act R l s).bind _ = _
  rw [h]
  rfl

theorem read_calm {r n h : Nat} {s : σ} {g : Region} {l : Nat} (hw : S.W r n s) (hh : h = r ∨ S.See h s) :
    ∃ s', (Event.read h g).act R l s = some s' ∧ S.Calm r n n s s' := by
  by_cases hg : g.has l = true
  · obtain ⟨s', h1, h2, h3, h4⟩ := S.read_see hw hh
    exact ⟨s', (hit_read hg).trans h1, Nat.le_refl n, h2, h3, fun g _ => h4 g⟩
  · exact ⟨s, miss_read hg, Calm.skip S (Nat.le_refl n) hw⟩

theorem asPtr_at {r n h : Nat} {s : σ} {l : Nat} (p : Place) (hw : S.W r n s) (hl : p.whole.has l = true)
    (hh : h = r ∨ S.See h s) :
    ∃ s', runAt R l (p.asPtr h n).2.2 s = some s' ∧ S.Calm r n (n + 3) s s' ∧
      (p.buf.has l = true → S.See (n + 2) s') := by
  obtain ⟨s1, h1, c1, e1⟩ := S.shared_at hw hl hh
  show ∃ s', runAt R l [.retag .shared h n p.whole, .retag .shared n (n + 1) p.buf,
    .retag .shared (n + 1) (n + 2) p.buf] s = some s' ∧ _
  rw [runAt_cons h1]
  by_cases hb : p.buf.has l = true
  · obtain ⟨s2, h2, c2, e2⟩ := S.shared_at c1.2.1 hb (.inr e1)
    obtain ⟨s3, h3, c3, e3⟩ := S.shared_at c2.2.1 hb (.inr e2)
    refine ⟨s3, ?_, (c1.trans S c2).trans S c3, fun _ => e3⟩
    rw [runAt_cons h2, runAt_cons h3]
    rfl
  · refine ⟨s1, ?_, c1.trans S (Calm.skip S (Nat.le_add_right (n + 1) 2) c1.2.1), fun h => absurd h hb⟩
    rw [runAt_cons (miss_retag hb), runAt_cons (miss_retag hb)]
    rfl

theorem len_at {r n h : Nat} {s : σ} {l : Nat} (p : Place) (hw : S.W r n s) (hl : p.whole.has l = true)
    (hh : h = r ∨ S.See h s) :
    ∃ s', runAt R l (p.len h n).2.2 s = some s' ∧ S.Calm r n (n + 1) s s' := by
  obtain ⟨s1, h1, c1, e1⟩ := S.shared_at hw hl hh
  obtain ⟨s2, h2, c2⟩ := S.read_calm (g := p.head) (l := l) c1.2.1 (.inr e1)
  refine ⟨s2, ?_, c1.trans S c2⟩
  show runAt R l [.retag .shared h n p.whole, .read n p.head] s = _
  rw [runAt_cons h1, runAt_cons h2]
  rfl

theorem asSlice_at {r n : Nat} {s : σ} {l : Nat} (p : Place) (k : Nat) (hk : k ≤ p.cap) (hw : S.W r n s)
    (hl : p.whole.has l = true) :
    ∃ s', runAt R l (p.asSlice k r n).2.2 s = some s' ∧ S.Calm r n (n + 6) s s' ∧
      ((p.items k).has l = true → S.See (n + 5) s') := by
  obtain ⟨s1, h1, c1, e1⟩ := S.shared_at hw hl (.inl rfl)
  obtain ⟨s2, h2, c2, e2⟩ := S.asPtr_at p c1.2.1 hl (.inr e1)
  obtain ⟨s3, h3, c3⟩ := S.len_at p c2.2.1 hl (.inr (c2.2.2.1 _ e1))
  have hc := (c1.trans S c2).trans S c3
  have hrun : runAt R l (p.asSlice k r n).2.2 s
      = runAt R l [.retag .shared (n + 3) (n + 5) (p.items k)] s3 := by
    show runAt R l (.retag .shared r n p.whole :: ((p.asPtr n (n + 1)).2.2 ++ ((p.len n (n + 4)).2.2 ++
      [.retag .shared (n + 3) (n + 5) (p.items k)]))) s = _
    rw [runAt_cons h1, runAt_append, h2]
    show runAt R l ((p.len n (n + 4)).2.2 ++ _) s2 = _
    rw [runAt_append, h3]
    rfl
  rw [hrun]
  by_cases hi : (p.items k).has l = true
  · have hb : p.buf.has l = true := by
      rw [has_iff] at hi ⊢
      simp only [Place.items, Place.buf] at *
      omega
    obtain ⟨s4, h4, c4, e4⟩ := S.shared_at c3.2.1 hi (.inr (c3.2.2.1 _ (e2 hb)))
    exact ⟨s4, by rw [runAt_cons h4]; rfl, hc.trans S c4, fun _ => e4⟩
  · refine ⟨s3, by rw [runAt_cons (miss_retag hi)]; rfl, hc.trans S (Calm.skip S (Nat.le_succ (n + 5)) c3.2.1), fun h => absurd h hi⟩

theorem refs_at {r h : Nat} {l : Nat} (p : Place) (hl : p.whole.has l = true) : (k i n : Nat) → (s : σ) →
    S.W r n s → S.See h s →
    ∃ s', runAt R l (p.refs h k n).2.2 s = some s' ∧ S.Calm r n (p.refs h k n).2.1 s s' ∧
      ∀ x ∈ single p i (p.refs h k n).1, x.r.has l = true → p.buf.has l = true → S.See x.tag s'
  | 0, i, n, s, hw, hh => ⟨s, rfl, Calm.skip S (Nat.le_refl n) hw, fun x hx => nomatch hx⟩
  | k + 1, i, n, s, hw, hh => by
    obtain ⟨s1, h1, c1, e1⟩ := S.asPtr_at p hw hl (.inr hh)
    obtain ⟨s2, h2, c2, e2⟩ := refs_at p hl k (i + 1) (n + 3) s1 c1.2.1 (c1.2.2.1 _ hh)
    refine ⟨s2, ?_, c1.trans S c2, fun x hx hr hb => ?_⟩
    · show runAt R l ((p.asPtr h n).2.2 ++ ((p.refs h k (n + 3)).2.2 ++ [])) s = _
      rw [List.append_nil, runAt_append, h1]
      exact h2
    · rcases List.mem_cons.mp (show x ∈ ⟨n + 2, ⟨p.at_ + i, 1⟩⟩ :: single p (i + 1) (p.refs h k (n + 3)).1 from hx) with
        rfl | hx
      · exact c2.2.2.1 _ (e1 hb)
      · exact e2 x hx hr hb

theorem eachRef_at {r n : Nat} {s : σ} {l : Nat} (p : Place) (k : Nat) (hw : S.W r n s)
    (hl : p.whole.has l = true) :
    ∃ s', runAt R l (p.eachRef k r n).2.2 s = some s' ∧ S.Calm r n (p.eachRef k r n).2.1 s s' ∧
      ∀ x ∈ single p 0 (p.eachRef k r n).1, x.r.has l = true → p.buf.has l = true → S.See x.tag s' := by
  obtain ⟨s1, h1, c1, e1⟩ := S.shared_at hw hl (.inl rfl)
  obtain ⟨s2, h2, c2⟩ := S.read_calm (g := p.head) (l := l) c1.2.1 (.inr e1)
  obtain ⟨s3, h3, c3, e3⟩ := S.refs_at p hl k 0 (n + 1) s2 c2.2.1 (c2.2.2.1 _ e1)
  refine ⟨s3, ?_, (c1.trans S c2).trans S c3, e3⟩
  show runAt R l (.retag .shared r n p.whole :: .read n p.head :: (p.refs n k (n + 1)).2.2) s = _
  rw [runAt_cons h1, runAt_cons h2]
  exact h3

theorem refs_len (p : Place) (h : Nat) : (k n : Nat) → (p.refs h k n).1.length = k
  | 0, _ => rfl
  | k + 1, n => congrArg (· + 1) (refs_len p h k (n + 3))

theorem muts_len (p : Place) (h : Nat) : (k n : Nat) → (p.muts h k n).1.length = k
  | 0, _ => rfl
  | k + 1, n => congrArg (· + 1) (muts_len p h k (n + 3))

theorem refs_next (p : Place) (h : Nat) : (k n : Nat) → (p.refs h k n).2.1 = n + 3 * k
  | 0, _ => rfl
  | k + 1, n => by
    show (p.refs h k (n + 3)).2.1 = _
    rw [refs_next p h k (n + 3)]
    omega

theorem muts_next (p : Place) (h : Nat) : (k n : Nat) → (p.muts h k n).2.1 = n + 3 * k
  | 0, _ => rfl
  | k + 1, n => by
    show (p.muts h k (n + 3)).2.1 = _
    rw [muts_next p h k (n + 3)]
    omega

theorem refs_tags (p : Place) (h : Nat) : (k n : Nat) → ∀ t ∈ (p.refs h k n).1, t < n + 3 * k
  | 0, _, t, ht => nomatch ht
  | k + 1, n, t, ht => by
    rcases List.mem_cons.mp (show t ∈ (n + 2) :: (p.refs h k (n + 3)).1 from ht) with rfl | ht
    · omega
    · have := refs_tags p h k (n + 3) t ht
      omega

theorem muts_tags (p : Place) (h : Nat) : (k n : Nat) → ∀ t ∈ (p.muts h k n).1, t < n + 3 * k
  | 0, _, t, ht => nomatch ht
  | k + 1, n, t, ht => by
    rcases List.mem_cons.mp (show t ∈ (n + 2) :: (p.muts h k (n + 3)).1 from ht) with rfl | ht
    · omega
    · have := muts_tags p h k (n + 3) t ht
      omega

theorem single_len (p : Place) : (i : Nat) → (ts : List Nat) → (single p i ts).length = ts.length
  | _, [] => rfl
  | i, _ :: ts => congrArg (· + 1) (single_len p (i + 1) ts)

theorem loansOf_len (e : Bool) : (k : Nat) → (loansOf e k).length = k
  | 0 => rfl
  | k + 1 => congrArg (· + 1) (loansOf_len e k)

theorem loansOf_mem {e : Bool} : {k : Nat} → ∀ x ∈ loansOf e k, x.size = 1 ∧ x.excl = e
  | 0, x, hx => nomatch hx
  | k + 1, x, hx => by
    rcases List.mem_cons.mp hx with rfl | hx
    · exact ⟨rfl, rfl⟩
    · exact loansOf_mem x hx

theorem single_mem (p : Place) : (i : Nat) → (ts : List Nat) → ∀ x ∈ single p i ts,
    x.tag ∈ ts ∧ x.r.size = 1 ∧ p.at_ + i ≤ x.r.lo ∧ x.r.lo < p.at_ + i + ts.length
  | _, [], x, hx => nomatch hx
  | i, t :: ts, x, hx => by
    rcases List.mem_cons.mp (show x ∈ ⟨t, ⟨p.at_ + i, 1⟩⟩ :: single p (i + 1) ts from hx) with rfl | hx
    · exact ⟨.head _, rfl, Nat.le_refl _, by show p.at_ + i < p.at_ + i + (ts.length + 1); omega⟩
    · obtain ⟨h1, h2, h3, h4⟩ := single_mem p (i + 1) ts x hx
      refine ⟨.tail _ h1, h2, by omega, ?_⟩
      show _ < p.at_ + i + (ts.length + 1)
      omega

theorem single_free (p : Place) : (i : Nat) → (ts : List Nat) → (ls : List Loan) →
    ((single p i ts).zip ls).Pairwise Free
  | _, [], _ => .nil
  | _, _ :: _, [] => .nil
  | i, t :: ts, x :: ls => by
    refine .cons (fun y hy _ _ => .inr fun l hl => ?_) (single_free p (i + 1) ts ls)
    obtain ⟨_, h2, h3, _⟩ := single_mem p (i + 1) ts y.1 (List.of_mem_zip hy).1
    obtain ⟨hl, hl'⟩ := hl
    rw [has_iff] at hl hl'
    have : l < p.at_ + i + 1 := hl.2
    omega

end Sound

open Sound

/-- The borrow checker lets references be used no longer. -/
def Weaker (f : Loan → Loan) : Prop := ∀ x, (f x).size = x.size ∧ (f x).excl = x.excl ∧ ((f x).alive = true → x.alive = true)

theorem weaker_ended : Weaker Loan.ended := fun _ => ⟨rfl, rfl, fun h => nomatch h⟩
theorem weaker_beside : Weaker Loan.beside := fun x => ⟨rfl, rfl, fun h => by
  simp only [Loan.beside, Bool.and_eq_true] at h
  exact h.1⟩

theorem beside_shared (x : Loan) (h : x.beside.alive = true) : x.excl = false := by
  simp only [Loan.beside, Bool.and_eq_true, Bool.not_eq_true'] at h
  exact h.2

/-- What the calls return agrees with what the borrow checker knows of it. -/
theorem Agree.step {p : Place} {d : Nat} {o : Owner} {loans : List Loan} (h : Agree p o loans) {rule : Loan → Prop} (c : Call)
    (hc : Permits rule p.cap loans c) : Agree p (c.go p d o).1 (loansAfter o.len loans c) ∧
      (c.go p d o).1.len = lenAfter o.len c ∧ o.next ≤ (c.go p d o).1.next := by
  obtain ⟨h1, h2, h3, h4, h5⟩ := h
  have key : ∀ (f : Loan → Loan), Weaker f → ∀ (n : Nat) (len : Nat) (hs : List Held) (ls : List Loan),
      (∀ y ∈ loans, ∀ z ∈ ls, (f y).alive = true → (f y).excl = false ∧ z.excl = false) → (hs.zip ls).Pairwise Free →
      o.next ≤ n → len ≤ p.cap → hs.length = ls.length → (∀ x ∈ hs.zip ls, x.1.r.size = x.2.size ∧ x.1.tag < n ∧
        p.at_ ≤ x.1.r.lo ∧ x.1.r.lo + x.1.r.size ≤ p.at_ + p.cap) →
      Agree p ⟨len, n, o.held ++ hs⟩ (loans.map f ++ ls) := by
    intro f hf n len hs ls hb hp hn hl hh he
    refine ⟨hl, Nat.le_trans h2 hn, by simp [h3, hh], fun x hx => ?_, ?_⟩
    · rw [List.zip_append (by simp [h3])] at hx
      rcases List.mem_append.mp hx with hx | hx
      · rw [List.zip_map_right] at hx
        obtain ⟨y, hy, rfl⟩ := List.mem_map.mp hx
        obtain ⟨e1, e2, e3⟩ := h4 y hy
        exact ⟨e1.trans (hf y.2).1.symm, Nat.lt_of_lt_of_le e2 hn, e3⟩
      · exact he x hx
    · show ((o.held ++ hs).zip (loans.map f ++ ls)).Pairwise Free
      rw [List.zip_append (by simp [h3]), List.pairwise_append, List.zip_map_right, List.pairwise_map]
      refine ⟨h5.imp fun {x y} hxy => ?_, hp, fun x hx y hy => ?_⟩
      · intro ha hb
        have hxy := hxy ((hf x.2).2.2 ha) ((hf y.2).2.2 hb)
        rw [← (hf x.2).2.1, ← (hf y.2).2.1] at hxy
        exact hxy
      · obtain ⟨z, hz, rfl⟩ := List.mem_map.mp hx
        intro ha _
        exact .inl (hb z.2 (List.of_mem_zip hz).2 y.2 (List.of_mem_zip hy).2 ha)
  have key0 : ∀ (f : Loan → Loan), Weaker f → ∀ (n : Nat) (len : Nat), o.next ≤ n → len ≤ p.cap →
      Agree p ⟨len, n, o.held⟩ (loans.map f) := by
    intro f hf n len hn hl
    have := key f hf n len [] [] (fun _ _ _ hz => nomatch hz) .nil hn hl rfl (fun x hx => nomatch hx)
    simpa using this
  have each : ∀ (e : Bool) (t : Nat) (ts : List Nat), ts.length = o.len → (∀ g ∈ ts, g < t) →
      ∀ x ∈ (single p 0 ts).zip (loansOf e o.len), x.1.r.size = x.2.size ∧ x.1.tag < t ∧
        p.at_ ≤ x.1.r.lo ∧ x.1.r.lo + x.1.r.size ≤ p.at_ + p.cap := by
    intro e t ts hl ht x hx
    obtain ⟨a1, a2, a3, a4⟩ := single_mem p 0 ts x.1 (List.of_mem_zip hx).1
    obtain ⟨b1, _⟩ := loansOf_mem x.2 (List.of_mem_zip hx).2
    exact ⟨by omega, ht _ a1, by omega, by omega⟩
  cases c with
  | len => exact ⟨key0 Loan.beside weaker_beside _ _ (Nat.le_succ _) h1, rfl, Nat.le_succ _⟩
  | asSlice =>
    refine ⟨key Loan.beside weaker_beside (o.next + 6) o.len [⟨o.next + 5, p.items o.len⟩] [⟨o.len, false, true, true⟩]
      (fun y _ z hz ha => ⟨beside_shared y ha, by rw [List.mem_singleton.mp hz]⟩) (List.pairwise_singleton _ _) (Nat.le_add_right _ _) h1 rfl fun x hx => ?_, rfl, Nat.le_add_right o.next 6⟩
    rcases List.mem_singleton.mp hx with rfl
    exact ⟨rfl, by show o.next + 5 < o.next + 6; omega, Nat.le_refl _, by simp only [Place.items]; omega⟩
  | asMutSlice =>
    refine ⟨key Loan.ended weaker_ended (o.next + 6) o.len [⟨o.next + 5, p.items o.len⟩] [⟨o.len, true, true, true⟩]
      (fun _ _ _ _ ha => nomatch ha) (List.pairwise_singleton _ _) (Nat.le_add_right _ _) h1 rfl fun x hx => ?_, rfl, Nat.le_add_right o.next 6⟩
    rcases List.mem_singleton.mp hx with rfl
    exact ⟨rfl, by show o.next + 5 < o.next + 6; omega, Nat.le_refl _, by simp only [Place.items]; omega⟩
  | copyFromSlice n => exact ⟨key0 Loan.ended weaker_ended _ _ (Nat.le_add_right o.next 5) hc, rfl, Nat.le_add_right o.next 5⟩
  | eachRef =>
    have hn : (p.eachRef o.len ownerTag o.next).2.1 = o.next + 1 + 3 * o.len := refs_next p _ _ _
    refine ⟨key Loan.beside weaker_beside _ o.len (single p 0 (p.eachRef o.len ownerTag o.next).1) (loansOf false o.len)
      (fun y _ z hz ha => ⟨beside_shared y ha, (loansOf_mem z hz).2⟩) (single_free p _ _ _) (by rw [hn]; omega) h1 ?_ (each false _ _ (refs_len p _ _ _) fun g hg => ?_), rfl, ?_⟩
    · rw [single_len, loansOf_len]
      exact refs_len p _ _ _
    · rw [hn]
      exact refs_tags p _ _ _ g hg
    · show o.next ≤ (p.eachRef o.len ownerTag o.next).2.1
      rw [hn]; omega
  | eachMut =>
    have hn : (p.eachMut o.len ownerTag o.next).2.1 = o.next + 1 + 3 * o.len := muts_next p _ _ _
    refine ⟨key Loan.ended weaker_ended _ o.len (single p 0 (p.eachMut o.len ownerTag o.next).1) (loansOf true o.len)
      (fun _ _ _ _ ha => nomatch ha) (single_free p _ _ _) (by rw [hn]; omega) h1 ?_ (each true _ _ (muts_len p _ _ _) fun g hg => ?_), rfl, ?_⟩
    · rw [single_len, loansOf_len]
      exact muts_len p _ _ _
    · rw [hn]
      exact muts_tags p _ _ _ g hg
    · show o.next ≤ (p.eachMut o.len ownerTag o.next).2.1
      rw [hn]; omega
  | get k i =>
    have : (Call.go p d o (.get k i)).1 = o := by
      show (match o.held[k]? with | some x => (o, _) | none => (o, _)).1 = o
      cases o.held[k]? <;> rfl
    rw [this]
    exact ⟨⟨h1, h2, h3, h4, h5⟩, rfl, Nat.le_refl _⟩
  | set k i =>
    have : (Call.go p d o (.set k i)).1 = o := by
      show (match o.held[k]? with | some x => (o, _) | none => (o, _)).1 = o
      cases o.held[k]? <;> rfl
    rw [this]
    exact ⟨⟨h1, h2, h3, h4, h5⟩, rfl, Nat.le_refl _⟩

end Oct.Alias
