import Verif.Proofs.StackedBorrows
import Verif.Proofs.TreeBorrows
/-
References that are made of one another, used one inside the other: the innermost may be used, and after it the one
around it.
-/
namespace Oct.Alias
open Spec Sound

/-- What aliasing rules promise of references made of one another, the innermost first and the owner last. -/
structure Nest {σ : Type} {R : Rules σ} {rule : Loan → Prop} (S : Sound R rule) where
  Tip : List Nat → Nat → σ → Prop
  ofW : ∀ {r n s}, S.W r n s → Tip [r] n s
  toW : ∀ {r n s}, Tip [r] n s → S.W r n s
  mono : ∀ {hs n m s}, n ≤ m → Tip hs n s → Tip hs m s
  pop : ∀ {h g hs n s}, Tip (h :: g :: hs) n s → Tip (g :: hs) n s
  read : ∀ {h hs n s}, Tip (h :: hs) n s → ∃ s', R.read h s = some s' ∧ Tip (h :: hs) n s'
  write : ∀ {h hs n s}, Tip (h :: hs) n s → ∃ s', R.write h s = some s' ∧ Tip (h :: hs) n s'
  excl : ∀ {h hs n s}, Tip (h :: hs) n s → ∃ s', R.retag .excl h n s = some s' ∧ Tip (n :: h :: hs) (n + 1) s'
  raw : ∀ {h g hs n s}, Tip (h :: g :: hs) n s → ∃ s', R.retag .raw h n s = some s' ∧ Tip (n :: h :: g :: hs) (n + 1) s'
  look : ∀ {h hs n s}, Tip (h :: hs) n s → ∃ s', R.retag .shared h n s = some s' ∧ Tip (h :: hs) (n + 1) s' ∧
    ∃ s'', R.read n s' = some s'' ∧ Tip (h :: hs) (n + 1) s''
  /-- A raw pointer survives if the owner is looked at. -/
  through : ∀ {n s} (a b c d : Nat), S.W 0 n s → n ≤ a → a < b → b < c → c < d →
    ∃ s1 s2 s3 s4, R.retag .excl 0 a s = some s1 ∧ R.retag .raw a b s1 = some s2 ∧ R.retag .shared 0 c s2 = some s3 ∧
      R.retag .excl b d s3 = some s4 ∧ S.W 0 (d + 1) s4 ∧ S.Own d s4
  point : ∀ {n s} (a b : Nat), S.W 0 n s → n ≤ a → a < b →
    ∃ s1 s2, R.retag .excl 0 a s = some s1 ∧ R.retag .raw a b s1 = some s2 ∧ S.W 0 (b + 1) s2 ∧ S.Own b s2

/-! Stacked Borrows. -/

theorem cut_at {q : Item → Bool} {x : Item} (hx : q x = true) {rest : List Item} : (A : List Item) →
    (∀ i ∈ A, q i = false) → cut q (A ++ x :: rest) = some (A, x, rest)
  | [], _ => by
    show (if q x then _ else _) = _
    rw [if_pos hx]
  | i :: A, h => by
    show (if q i = true then _ else (cut q (A ++ x :: rest)).map fun c => (i :: c.1, c.2)) = _
    rw [if_neg (by rw [h i (.head _)]; decide), cut_at hx A fun i hi => h i (.tail _ hi)]
    rfl

theorem peers_mem {x : Item} {A : List Item} : ∀ i ∈ peers x A, i ∈ A := by
  intro i hi
  unfold peers at hi
  split at hi
  · rw [List.mem_reverse] at hi
    exact List.mem_reverse.mp ((List.takeWhile_sublist _).subset hi)
  · cases hi

/-- The items that may write, one above the other. -/
def tower : List Item → List Item → Prop
  | [], s => s = []
  | x :: xs, s => (x.perm = .unique ∨ x.perm = .sharedRW) ∧ x.tag ∉ xs.map Item.tag ∧
    ∃ A rest, s = A ++ x :: rest ∧ (∀ i ∈ A, i.tag ≠ x.tag ∧ i.tag ∉ xs.map Item.tag) ∧ tower xs rest

theorem tower_mem : {xs s : List Item} → tower xs s → ∀ x ∈ xs, x ∈ s
  | [], _, _, _, h => nomatch h
  | x :: xs, s, h, y, hy => by
    obtain ⟨_, _, A, rest, rfl, _, h⟩ := h
    rcases List.mem_cons.mp hy with rfl | hy
    · exact List.mem_append_right _ (.head _)
    · exact List.mem_append_right _ (.tail _ (tower_mem h y hy))

def stackTip (hs : List Nat) (n : Nat) (s : List Item) : Prop :=
  (∃ xs, xs.map Item.tag = hs ∧ (∀ x, xs.getLast? = some x → x.perm = .unique) ∧ tower xs s) ∧ ∀ i ∈ s, i.tag < n

theorem writes_of {x : Item} (h : x.perm = .unique ∨ x.perm = .sharedRW) : x.writes x.tag = true := by
  unfold Item.writes
  rcases h with h | h <;> simp [h]

theorem reads_of {x : Item} (h : x.perm = .unique ∨ x.perm = .sharedRW) : x.reads x.tag = true := by
  unfold Item.reads
  rcases h with h | h <;> simp [h]

theorem stackWrite_at {x : Item} {A rest : List Item} (hx : x.perm = .unique ∨ x.perm = .sharedRW)
    (hA : ∀ i ∈ A, i.tag ≠ x.tag) : stackWrite x.tag (A ++ x :: rest) = some (peers x A ++ x :: rest) := by
  unfold stackWrite
  rw [cut_at (writes_of hx) A fun i hi => by simp [Item.writes, hA i hi]]
  rfl

theorem stackRead_at {x : Item} {A rest : List Item} (hx : x.perm = .unique ∨ x.perm = .sharedRW)
    (hA : ∀ i ∈ A, i.tag ≠ x.tag) : stackRead x.tag (A ++ x :: rest) = some (A.map Item.disable ++ x :: rest) := by
  unfold stackRead
  rw [cut_at (reads_of hx) A fun i hi => by simp [Item.reads, hA i hi]]
  rfl

/-- The stack above the innermost may be changed. -/
theorem stackTip.above {x : Item} {xs A rest : List Item} {B : List Item} {n m : Nat}
    (hl : ∀ y, (x :: xs).getLast? = some y → y.perm = .unique) (hp : x.perm = .unique ∨ x.perm = .sharedRW)
    (hx : x.tag ∉ xs.map Item.tag) (ht : tower xs rest) (hb : ∀ i ∈ A ++ x :: rest, i.tag < n) (hn : n ≤ m)
    (hB : ∀ i ∈ B, i.tag ≠ x.tag ∧ i.tag ∉ xs.map Item.tag ∧ i.tag < m) :
    stackTip ((x :: xs).map Item.tag) m (B ++ x :: rest) := by
  refine ⟨⟨x :: xs, rfl, hl, hp, hx, B, rest, rfl, fun i hi => ⟨(hB i hi).1, (hB i hi).2.1⟩, ht⟩, fun i hi => ?_⟩
  rcases List.mem_append.mp hi with hi | hi
  · exact (hB i hi).2.2
  · have := hb i (List.mem_append_right _ hi)
    omega

theorem map_disable_mem {A : List Item} {i : Item} (h : i ∈ A.map Item.disable) : ∃ j ∈ A, j.tag = i.tag := by
  obtain ⟨j, hj, rfl⟩ := List.mem_map.mp h
  exact ⟨j, hj, (disable_tag j).symm⟩

def stackedNest : Nest stackedSound where
  Tip := stackTip
  ofW := by
    rintro r n s ⟨h0, A, rfl, hA⟩
    refine ⟨⟨[⟨r, .unique⟩], rfl, fun x hx => by cases hx; rfl, .inl rfl, (fun h => nomatch h), A, [], rfl,
      fun i hi => ⟨(hA i hi).1, (fun h => nomatch h)⟩, rfl⟩, fun i hi => ?_⟩
    rcases List.mem_append.mp hi with hi | hi
    · exact (hA i hi).2
    · rcases List.mem_singleton.mp hi with rfl
      exact h0
  toW := by
    rintro r n s ⟨⟨xs, he, hl, ht⟩, hb⟩
    match xs, he with
    | [x], he =>
      obtain ⟨_, _, A, rest, rfl, hA, rfl⟩ := ht
      cases he
      have hu := hl x rfl
      refine ⟨hb x (List.mem_append_right _ (.head _)), A, ?_, fun i hi => ⟨(hA i hi).1, hb i (List.mem_append_left _ hi)⟩⟩
      cases x
      simp only at hu
      subst hu
      rfl
  mono h hs := ⟨hs.1, fun i hi => Nat.lt_of_lt_of_le (hs.2 i hi) h⟩
  pop := by
    rintro h g hs n s ⟨⟨xs, he, hl, ht⟩, hb⟩
    match xs, he with
    | x :: y :: ys, he =>
      obtain ⟨_, hx, A, rest, rfl, hA, hp, hy, A2, rest2, rfl, hA2, ht⟩ := ht
      cases he
      simp only [List.map_cons, List.mem_cons, not_or] at hx
      refine ⟨⟨y :: ys, rfl, fun z hz => hl z (by simpa using hz), hp, hy, A ++ x :: A2, rest2, by simp, fun i hi => ?_, ht⟩, hb⟩
      rcases List.mem_append.mp hi with hi | hi
      · have := (hA i hi).2
        simp only [List.map_cons, List.mem_cons, not_or] at this
        exact this
      · rcases List.mem_cons.mp hi with rfl | hi
        · exact hx
        · exact hA2 i hi
  read := by
    rintro h hs n s ⟨⟨xs, he, hl, ht⟩, hb⟩
    match xs, he with
    | x :: xs, he =>
      obtain ⟨hp, hx, A, rest, rfl, hA, ht⟩ := ht
      cases he
      refine ⟨_, stackRead_at hp fun i hi => (hA i hi).1, stackTip.above hl hp hx ht hb (Nat.le_refl n) fun i hi => ?_⟩
      obtain ⟨j, hj, e⟩ := map_disable_mem hi
      rw [← e]
      exact ⟨(hA j hj).1, (hA j hj).2, hb j (List.mem_append_left _ hj)⟩
  write := by
    rintro h hs n s ⟨⟨xs, he, hl, ht⟩, hb⟩
    match xs, he with
    | x :: xs, he =>
      obtain ⟨hp, hx, A, rest, rfl, hA, ht⟩ := ht
      cases he
      refine ⟨_, stackWrite_at hp fun i hi => (hA i hi).1, stackTip.above hl hp hx ht hb (Nat.le_refl n) fun i hi => ?_⟩
      have hi := peers_mem i hi
      exact ⟨(hA i hi).1, (hA i hi).2, hb i (List.mem_append_left _ hi)⟩
  excl := by
    rintro h hs n s ⟨⟨xs, he, hl, ht⟩, hb⟩
    match xs, he with
    | x :: xs, he =>
      have hm := tower_mem ht
      obtain ⟨hp, hx, A, rest, rfl, hA, ht⟩ := ht
      cases he
      refine ⟨⟨n, .unique⟩ :: (peers x A ++ x :: rest), ?_, ⟨⟨⟨n, .unique⟩ :: x :: xs, rfl, fun y hy => hl y (by simpa using hy),
        .inl rfl, ?_, [], peers x A ++ x :: rest, rfl, (fun _ h => nomatch h), hp, hx, peers x A, rest, rfl,
        fun i hi => hA i (peers_mem i hi), ht⟩, fun i hi => ?_⟩⟩
      · show (stackWrite x.tag _).map _ = _
        rw [stackWrite_at hp fun i hi => (hA i hi).1]
        rfl
      · intro h
        obtain ⟨y, hy, e⟩ := List.mem_map.mp h
        have := hb y (hm y hy)
        simp only at e
        omega
      · rcases List.mem_cons.mp hi with rfl | hi
        · exact Nat.lt_succ_self n
        · rcases List.mem_append.mp hi with hi | hi
          · exact Nat.lt_succ_of_lt (hb i (List.mem_append_left _ (peers_mem i hi)))
          · exact Nat.lt_succ_of_lt (hb i (List.mem_append_right _ hi))
  raw := by
    rintro h g hs n s ⟨⟨xs, he, hl, ht⟩, hb⟩
    match xs, he with
    | x :: y :: ys, he =>
      have hm := tower_mem ht
      obtain ⟨hp, hx, A, rest, rfl, hA, ht⟩ := ht
      cases he
      have hsub : ∀ i ∈ A.take (A.length - (peers x A).length), i ∈ A := fun i hi => List.mem_of_mem_take hi
      have hfresh : n ∉ (x :: y :: ys).map Item.tag := by
        intro h
        obtain ⟨z, hz, e⟩ := List.mem_map.mp h
        have := hb z (hm z hz)
        omega
      refine ⟨A.take (A.length - (peers x A).length) ++ ⟨n, .sharedRW⟩ :: (peers x A ++ x :: rest), ?_,
        ⟨⟨⟨n, .sharedRW⟩ :: x :: y :: ys, rfl, fun z hz => hl z (by simpa using hz),
        .inr rfl, hfresh, _, peers x A ++ x :: rest, rfl, fun i hi => ⟨?_, ?_⟩, hp, hx, peers x A, rest, rfl,
        fun i hi => hA i (peers_mem i hi), ht⟩, fun i hi => ?_⟩⟩
      · show (cut (Item.writes x.tag) _).map _ = _
        rw [cut_at (writes_of hp) A fun i hi => by simp [Item.writes, (hA i hi).1]]
        rfl
      · have := hb i (List.mem_append_left _ (hsub i hi))
        simp only
        omega
      · have := hA i (hsub i hi)
        simp only [List.map_cons, List.mem_cons, not_or] at this ⊢
        exact this
      · rcases List.mem_append.mp hi with hi | hi
        · exact Nat.lt_succ_of_lt (hb i (List.mem_append_left _ (hsub i hi)))
        · rcases List.mem_cons.mp hi with rfl | hi
          · exact Nat.lt_succ_self n
          · rcases List.mem_append.mp hi with hi | hi
            · exact Nat.lt_succ_of_lt (hb i (List.mem_append_left _ (peers_mem i hi)))
            · exact Nat.lt_succ_of_lt (hb i (List.mem_append_right _ hi))
  look := by
    rintro h hs n s ⟨⟨xs, he, hl, ht⟩, hb⟩
    match xs, he with
    | x :: xs, he =>
      have hm := tower_mem ht
      obtain ⟨hp, hx, A, rest, rfl, hA, ht⟩ := ht
      cases he
      have hfresh : n ∉ (x :: xs).map Item.tag := by
        intro h
        obtain ⟨z, hz, e⟩ := List.mem_map.mp h
        have := hb z (hm z hz)
        omega
      simp only [List.map_cons, List.mem_cons, not_or] at hfresh
      have ht' : stackTip ((x :: xs).map Item.tag) (n + 1) ((⟨n, .sharedRO⟩ :: A.map Item.disable) ++ x :: rest) := by
        refine stackTip.above hl hp hx ht hb (Nat.le_succ n) fun i hi => ?_
        rcases List.mem_cons.mp hi with rfl | hi
        · exact ⟨hfresh.1, hfresh.2, Nat.lt_succ_self n⟩
        · obtain ⟨j, hj, e⟩ := map_disable_mem hi
          rw [← e]
          exact ⟨(hA j hj).1, (hA j hj).2, Nat.lt_succ_of_lt (hb j (List.mem_append_left _ hj))⟩
      refine ⟨_, ?_, ht', _, ?_, ht'⟩
      · show (stackRead x.tag _).map _ = _
        rw [stackRead_at hp fun i hi => (hA i hi).1]
        rfl
      · show stackRead n _ = _
        rw [List.cons_append, stackRead_cons, if_pos (by simp [Item.reads])]
  through := by
    intro n s a b c d hw ha hb hc hd
    have h0 := hw.1
    refine ⟨[⟨a, .unique⟩, ⟨0, .unique⟩], [⟨b, .sharedRW⟩, ⟨a, .unique⟩, ⟨0, .unique⟩],
      [⟨c, .sharedRO⟩, ⟨b, .sharedRW⟩, ⟨a, .disabled⟩, ⟨0, .unique⟩],
      [⟨d, .unique⟩, ⟨b, .sharedRW⟩, ⟨a, .disabled⟩, ⟨0, .unique⟩], hw.excl, ?_, ?_, ?_, ?_, ?_⟩
    · simp [Stacked, stackRetag, cut, Item.writes, peers]
    · have h1 : b ≠ 0 := by omega
      have h2 : a ≠ 0 := by omega
      simp [Stacked, stackRetag, stackRead, cut, Item.reads, Item.disable, h1, h2]
    · have h1 : c ≠ b := by omega
      simp [Stacked, stackRetag, stackWrite, cut, Item.writes, peers, h1]
    · refine ⟨by omega, [⟨d, .unique⟩, ⟨b, .sharedRW⟩, ⟨a, .disabled⟩], rfl, fun i hi => ?_⟩
      simp only [List.mem_cons, List.not_mem_nil, or_false] at hi
      rcases hi with rfl | rfl | rfl <;> simp only <;> omega
    · exact ⟨.unique, _, rfl, .inl rfl⟩
  point := by
    intro n s a b hw ha hb
    have h0 := hw.1
    refine ⟨[⟨a, .unique⟩, ⟨0, .unique⟩], [⟨b, .sharedRW⟩, ⟨a, .unique⟩, ⟨0, .unique⟩], hw.excl, ?_, ?_, ?_⟩
    · simp [Stacked, stackRetag, cut, Item.writes, peers]
    · refine ⟨by omega, [⟨b, .sharedRW⟩, ⟨a, .unique⟩], rfl, fun i hi => ?_⟩
      simp only [List.mem_cons, List.not_mem_nil, or_false] at hi
      rcases hi with rfl | rfl <;> simp only <;> omega
    · exact ⟨.sharedRW, _, rfl, .inr rfl⟩

/-! Tree Borrows. -/

theorem Below.trans {a b c : Nat} {s : List Node} (h : Below a b s) (h' : Below b c s) : Below a c s := by
  obtain ⟨x, y, e1, e2, e3⟩ := h
  obtain ⟨y', z, e4, e5, e6⟩ := h'
  rw [e2] at e4
  cases e4
  exact ⟨x, z, e1, e5, fun i hi => e6 i (e3 i hi)⟩

theorem treeOwn.below_self {h : Nat} {s : List Node} (ho : treeOwn h s) : Below h h s := by
  obtain ⟨x, h1, _⟩ := ho
  exact ⟨x, x, h1, h1, fun _ => id⟩

/-- Reading keeps what is around. -/
theorem treeW.read_around {r n h : Nat} {s : List Node} (hw : treeW r n s) (hs : treeSee h s) :
    ∃ s', treeRead h s = some s' ∧ treeW r n s' ∧ (∀ g, Below g h s → treeOwn g s → treeOwn g s') ∧
      (∀ a b, Below a b s → Below a b s') := by
  obtain ⟨x, h1, h2⟩ := tree_read hs
  obtain ⟨s', h3, h4, _, _, h5, _⟩ := hw.reads hs
  rw [h2] at h3
  cases h3
  refine ⟨_, h2, h4, fun g hb ho => ?_, h5⟩
  obtain ⟨a, b, e1, e2, e3⟩ := hb
  rw [h1] at e2
  cases e2
  refine Up.map (readMap_steady _) ho fun n m e _ hl hm => ?_
  rw [e1] at e
  cases e
  unfold readMap
  rw [if_pos (e3 _ hl)]
  exact hm

theorem treeW.below_push {r n a b : Nat} {s : List Node} (hw : treeW r n s) {x : Node} (hx : x.names = [n])
    (h : Below a b s) : Below a b (x :: s) := by
  obtain ⟨c, d, e1, e2, e3⟩ := h
  exact ⟨c, d, hw.find_push hx e1, hw.find_push hx e2, e3⟩

/-- Making a reference keeps what is around. -/
theorem treeW.node_around {r n h : Nat} {s : List Node} (hw : treeW r n s) (hs : treeSee h s) (st : State) :
    ∃ x s1, find h s = some x ∧ treeRead h s = some s1 ∧ treeW r (n + 1) (⟨n, [n], n :: x.line, st⟩ :: s1) ∧
      (st.mayRead = true → treeSee n (⟨n, [n], n :: x.line, st⟩ :: s1)) ∧
      (st.mayWrite = true → treeOwn h s → treeOwn n (⟨n, [n], n :: x.line, st⟩ :: s1)) ∧
      Below h n (⟨n, [n], n :: x.line, st⟩ :: s1) ∧
      (∀ g, Below g h s → treeOwn g s → treeOwn g (⟨n, [n], n :: x.line, st⟩ :: s1)) ∧
      (∀ a b, Below a b s → Below a b (⟨n, [n], n :: x.line, st⟩ :: s1)) := by
  obtain ⟨x, s1, h1, h2, h3, _, _, h4, _, h5, h6⟩ := hw.node hs st
  obtain ⟨s', a1, a2, a3, a4⟩ := hw.read_around hs
  rw [h2] at a1
  cases a1
  exact ⟨x, s1, h1, h2, h3, h4, h5, h6, fun g hb ho => a2.up_push rfl rfl (a3 g hb ho),
    fun a b hab => a2.below_push rfl (a4 a b hab)⟩

def treeTip (hs : List Nat) (n : Nat) (s : List Node) : Prop :=
  ∃ r, hs.getLast? = some r ∧ treeW r n s ∧ (∀ h ∈ hs, treeOwn h s) ∧ hs.Pairwise (fun a b => Below b a s ∧ a ≠ b)

theorem treeTip.below {h g : Nat} {hs : List Nat} {s : List Node}
    (hp : (h :: hs).Pairwise (fun a b => Below b a s ∧ a ≠ b)) (ho : treeOwn h s) (hg : g ∈ h :: hs) : Below g h s := by
  rcases List.mem_cons.mp hg with rfl | hg
  · exact ho.below_self
  · exact (List.pairwise_cons.mp hp).1 g hg |>.1

theorem treeW.tag_lt {r n h : Nat} {s : List Node} (hw : treeW r n s) (ho : treeOwn h s) : h < n := by
  obtain ⟨x, h1, _⟩ := ho
  obtain ⟨h2, h3⟩ := find_names h1
  exact (hw.bounds x h2).2.1 h h3

def treeNest : Nest treeSound where
  Tip := treeTip
  ofW hw := ⟨_, rfl, hw, fun h hh => by rw [List.mem_singleton.mp hh]; exact hw.fresh.own hw, List.pairwise_singleton _ _⟩
  toW := by
    rintro r n s ⟨r', h, hw, _⟩
    cases h
    exact hw
  mono := by
    rintro hs n m s h ⟨r, h1, h2, h3⟩
    exact ⟨r, h1, h2.mono h, h3⟩
  pop := by
    rintro h g hs n s ⟨r, h1, h2, h3, h4⟩
    exact ⟨r, by simpa using h1, h2, fun x hx => h3 x (.tail _ hx), (List.pairwise_cons.mp h4).2⟩
  read := by
    rintro h hs n s ⟨r, h1, h2, h3, h4⟩
    obtain ⟨s', a1, a2, a3, a4⟩ := h2.read_around (h3 h (.head _)).see
    exact ⟨s', a1, r, h1, a2, fun g hg => a3 g (treeTip.below h4 (h3 h (.head _)) hg) (h3 g hg),
      h4.imp fun hab => ⟨a4 _ _ hab.1, hab.2⟩⟩
  write := by
    rintro h hs n s ⟨r, h1, h2, h3, h4⟩
    obtain ⟨s', a1, a2, _, a3⟩ := h2.writes (h3 h (.head _))
    refine ⟨s', a1, r, h1, a2, fun g hg => a3 g (treeTip.below h4 (h3 h (.head _)) hg), h4.imp fun hab => ⟨?_, hab.2⟩⟩
    obtain ⟨x, b1, b2⟩ := tree_write (h3 h (.head _))
    rw [show treeWrite h s = some s' from a1] at b2
    cases b2
    obtain ⟨c, d, e1, e2, e3⟩ := hab.1
    exact ⟨writeMap x.line c, writeMap x.line d, by rw [find_map fun m => (writeMap_steady _ m).2.1, e1]; rfl,
      by rw [find_map fun m => (writeMap_steady _ m).2.1, e2]; rfl, e3⟩
  excl := by
    rintro h hs n s ⟨r, h1, h2, h3, h4⟩
    obtain ⟨x, s1, a1, a2, a3, _, a5, a6, a7, a8⟩ := h2.node_around (h3 h (.head _)).see .reserved
    refine ⟨_, ?_, r, by simpa using h1, a3, fun g hg => ?_, List.pairwise_cons.mpr ⟨fun g hg => ⟨?_, ?_⟩,
      h4.imp fun hab => ⟨a8 _ _ hab.1, hab.2⟩⟩⟩
    · show (match find h s with
        | none => none
        | some x => (treeRead h s).map ((⟨n, [n], n :: x.line, .reserved⟩ : Node) :: ·)) = _
      rw [a1, a2]
      rfl
    · rcases List.mem_cons.mp hg with rfl | hg
      · exact a5 rfl (h3 h (.head _))
      · exact a7 g (treeTip.below h4 (h3 h (.head _)) hg) (h3 g hg)
    · exact (a8 _ _ (treeTip.below h4 (h3 h (.head _)) hg)).trans a6
    · have := h2.tag_lt (h3 g hg)
      omega
  raw := by
    rintro h g hs n s ⟨r, h1, h2, h3, h4⟩
    have hne : h ≠ r := by
      have hr : r ∈ g :: hs := List.mem_of_getLast? (by simpa using h1)
      exact ((List.pairwise_cons.mp h4).1 r hr).2
    obtain ⟨s', a1, a2, a3, a4, a5, a6⟩ := h2.rawOf hne (P := fun m => m.state.mayWrite = true)
      (fun m m' _ e h => by rw [e]; exact h) (h3 h (.head _))
    refine ⟨s', a1, r, by simpa using h1, a2, fun k hk => ?_, List.pairwise_cons.mpr ⟨fun k hk => ⟨?_, ?_⟩,
      h4.imp fun hab => ⟨a6 _ _ hab.1, hab.2⟩⟩⟩
    · rcases List.mem_cons.mp hk with rfl | hk
      · exact a3
      · exact a4 k (h3 k hk)
    · exact a5 _ (treeTip.below h4 (h3 h (.head _)) hk)
    · have := h2.tag_lt (h3 k hk)
      omega
  look := by
    rintro h hs n s ⟨r, h1, h2, h3, h4⟩
    obtain ⟨x, s1, a1, a2, a3, a4, _, a6, a7, a8⟩ := h2.node_around (h3 h (.head _)).see .frozen
    have own : ∀ g ∈ h :: hs, treeOwn g _ := fun g hg => a7 g (treeTip.below h4 (h3 h (.head _)) hg) (h3 g hg)
    obtain ⟨s2, b1, b2, b3, b4⟩ := a3.read_around (a4 rfl)
    refine ⟨_, ?_, ⟨r, h1, a3, own, h4.imp fun hab => ⟨a8 _ _ hab.1, hab.2⟩⟩, s2, b1, r, h1, b2, fun g hg => ?_,
      h4.imp fun hab => ⟨b4 _ _ (a8 _ _ hab.1), hab.2⟩⟩
    · show (match find h s with
        | none => none
        | some x => (treeRead h s).map ((⟨n, [n], n :: x.line, .frozen⟩ : Node) :: ·)) = _
      rw [a1, a2]
      rfl
    · exact b3 g ((a8 _ _ (treeTip.below h4 (h3 h (.head _)) hg)).trans a6) (own g hg)
  through := by
    intro n s a b c d hw ha hb hc hd
    have h0 : 0 < n := hw.1
    obtain ⟨s1, a1, a2, _, a3, a4, _⟩ := (treeW.mono ha hw).excl (hw.fresh.own hw)
    obtain ⟨s2, b1, b2, b3, b4, _⟩ := (a2.mono hb).raw (show a ≠ 0 by omega) (a3 hw.fresh)
    obtain ⟨s3, c1, c2, _, _, c3⟩ := (b2.mono hc).shared ((b4 0 (a4 0 hw.fresh)).own b2).see
    obtain ⟨s4, d1, d2, d3, _⟩ := (c2.mono hd).excl ((c3 b b3).own c2)
    exact ⟨s1, s2, s3, s4, a1, b1, c1, d1, d2, d3⟩
  point := by
    intro n s a b hw ha hb
    have h0 : 0 < n := hw.1
    obtain ⟨s1, a1, a2, _, a3, a4, _⟩ := (treeW.mono ha hw).excl (hw.fresh.own hw)
    obtain ⟨s2, b1, b2, b3, b4, _⟩ := (a2.mono hb).raw (show a ≠ 0 by omega) (a3 hw.fresh)
    exact ⟨s1, s2, a1, b1, b2, b3.own b2⟩

end Oct.Alias
