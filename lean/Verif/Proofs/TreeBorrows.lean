import Verif.Proofs.BorrowsRun
/-
What Tree Borrows makes of the methods.
-/
namespace Oct.Alias
open Spec Sound

/-- Only states are changed. -/
def Steady (f : Node → Node) : Prop := ∀ m, (f m).id = m.id ∧ (f m).names = m.names ∧ (f m).line = m.line

theorem find_map {f : Node → Node} (hf : ∀ m, (f m).names = m.names) (t : Nat) (s : List Node) :
    find t (s.map f) = (find t s).map f := by
  unfold find
  rw [List.find?_map]
  congr 2
  funext m
  simp [hf m]

theorem find_names {t : Nat} {s : List Node} {n : Node} (h : find t s = some n) : n ∈ s ∧ t ∈ n.names := by
  unfold find at h
  have := List.find?_some h
  exact ⟨List.mem_of_find?_eq_some h, by simpa using this⟩

/-- The owner is at the root, and tags from `n` on are not in use. -/
def treeW (r n : Nat) (s : List Node) : Prop :=
  r < n ∧ ∃ A, s = A ++ [⟨r, [r], [r], .active⟩] ∧ ∀ m ∈ A, m.id ≠ r ∧ r ∉ m.names ∧ r ∈ m.line ∧ m.id < n ∧
    (∀ x ∈ m.names, x < n) ∧ (∀ x ∈ m.line, x < n)

/-- Every node that the pointer was made of satisfies `P`. -/
def Up (P : Node → Prop) (h : Nat) (s : List Node) : Prop :=
  ∃ n, find h s = some n ∧ ∀ m ∈ s, m.id ∈ n.line → P m

def treeSee (h : Nat) (s : List Node) : Prop := Up (fun m => m.state.mayRead = true) h s
def treeOwn (h : Nat) (s : List Node) : Prop := Up (fun m => m.state.mayWrite = true) h s
/-- Nothing was written yet through what the pointer was made of. -/
def Fresh (r : Nat) (h : Nat) (s : List Node) : Prop := Up (fun m => m.state = .reserved ∨ m.id = r) h s

/-- What `g` was made of, `h` was made of. -/
def Below (g h : Nat) (s : List Node) : Prop :=
  ∃ a b, find g s = some a ∧ find h s = some b ∧ ∀ x ∈ a.line, x ∈ b.line

theorem Up.mono {P Q : Node → Prop} {h : Nat} {s : List Node} (hu : Up P h s) (hq : ∀ m ∈ s, P m → Q m) : Up Q h s := by
  obtain ⟨n, h1, h2⟩ := hu
  exact ⟨n, h1, fun m hm hl => hq m hm (h2 m hm hl)⟩

theorem Up.map {P Q : Node → Prop} {h : Nat} {s : List Node} {f : Node → Node} (hf : Steady f) (hu : Up P h s)
    (hq : ∀ n m, find h s = some n → m ∈ s → m.id ∈ n.line → P m → Q (f m)) : Up Q h (s.map f) := by
  obtain ⟨n, h1, h2⟩ := hu
  refine ⟨f n, by rw [find_map fun m => (hf m).2.1, h1]; rfl, fun m hm hl => ?_⟩
  obtain ⟨m', hm', rfl⟩ := List.mem_map.mp hm
  rw [(hf n).2.2, (hf m').1] at hl
  exact hq n m' h1 hm' hl (h2 m' hm' hl)

theorem treeW.mono {r n k : Nat} {s : List Node} (h : n ≤ k) (hw : treeW r n s) : treeW r k s := by
  obtain ⟨h0, A, e, hA⟩ := hw
  refine ⟨by omega, A, e, fun m hm => ?_⟩
  obtain ⟨h1, h2, h3, h4, h5, h6⟩ := hA m hm
  exact ⟨h1, h2, h3, by omega, fun x hx => by have := h5 x hx; omega, fun x hx => by have := h6 x hx; omega⟩

theorem treeW.bounds {r n : Nat} {s : List Node} (hw : treeW r n s) : ∀ m ∈ s, m.id < n ∧ (∀ x ∈ m.names, x < n) ∧
    (∀ x ∈ m.line, x < n) ∧ r ∈ m.line := by
  obtain ⟨h0, A, rfl, hA⟩ := hw
  intro m hm
  rcases List.mem_append.mp hm with hm | hm
  · exact ⟨(hA m hm).2.2.2.1, (hA m hm).2.2.2.2.1, (hA m hm).2.2.2.2.2, (hA m hm).2.2.1⟩
  · rcases List.mem_singleton.mp hm with rfl
    refine ⟨h0, fun x hx => ?_, fun x hx => ?_, .head _⟩ <;>
    · rcases List.mem_singleton.mp hx with rfl
      exact h0

theorem treeW.root {r n : Nat} {s : List Node} (hw : treeW r n s) : ∀ m ∈ s, m.id = r → m = ⟨r, [r], [r], .active⟩ := by
  obtain ⟨h0, A, rfl, hA⟩ := hw
  intro m hm e
  rcases List.mem_append.mp hm with hm | hm
  · exact absurd e (hA m hm).1
  · exact List.mem_singleton.mp hm

theorem treeW.find_root {r n : Nat} {s : List Node} (hw : treeW r n s) : find r s = some ⟨r, [r], [r], .active⟩ := by
  obtain ⟨h0, A, rfl, hA⟩ := hw
  unfold find
  rw [List.find?_append, List.find?_eq_none.mpr fun m hm => by simp [(hA m hm).2.1]]
  simp

theorem treeW.fresh {r n : Nat} {s : List Node} (hw : treeW r n s) : Fresh r r s :=
  ⟨_, hw.find_root, fun _ _ hl => .inr (List.mem_singleton.mp hl)⟩

theorem treeW.map {r n : Nat} {s : List Node} {f : Node → Node} (hf : Steady f) (hw : treeW r n s)
    (hr : f ⟨r, [r], [r], .active⟩ = ⟨r, [r], [r], .active⟩) : treeW r n (s.map f) := by
  obtain ⟨h0, A, rfl, hA⟩ := hw
  refine ⟨h0, A.map f, by rw [List.map_append]; simp only [List.map_cons, List.map_nil, hr], fun m hm => ?_⟩
  obtain ⟨m', hm', rfl⟩ := List.mem_map.mp hm
  rw [(hf m').1, (hf m').2.1, (hf m').2.2]
  exact hA m' hm'

theorem Fresh.own {r n h : Nat} {s : List Node} (hw : treeW r n s) (hf : Fresh r h s) : treeOwn h s :=
  Up.mono hf fun m hm h => h.elim (fun h => by rw [h]; rfl) fun h => by rw [hw.root m hm h]; rfl

theorem treeOwn.see {h : Nat} {s : List Node} (ho : treeOwn h s) : treeSee h s :=
  Up.mono ho fun m _ h => by revert h; cases m.state <;> simp [State.mayRead, State.mayWrite]

/-- What reading does to each node. -/
def readMap (line : List Nat) (m : Node) : Node := if m.id ∈ line then m else { m with state := m.state.foreignRead }

/-- What writing does to each node. -/
def writeMap (line : List Nat) (m : Node) : Node := { m with state := if m.id ∈ line then .active else .disabled }

theorem readMap_steady (line : List Nat) : Steady (readMap line) := fun m => by
  unfold readMap
  split <;> exact ⟨rfl, rfl, rfl⟩

theorem writeMap_steady (line : List Nat) : Steady (writeMap line) := fun _ => ⟨rfl, rfl, rfl⟩

theorem tree_read {h : Nat} {s : List Node} (hs : treeSee h s) :
    ∃ n, find h s = some n ∧ treeRead h s = some (s.map (readMap n.line)) := by
  obtain ⟨n, h1, h2⟩ := hs
  refine ⟨n, h1, ?_⟩
  unfold treeRead
  rw [h1]
  simp only
  rw [if_pos]
  · rfl
  · rw [List.all_eq_true]
    intro m hm
    by_cases hl : m.id ∈ n.line
    · simp [h2 m hm hl]
    · simp [hl]

theorem tree_write {h : Nat} {s : List Node} (hs : treeOwn h s) :
    ∃ n, find h s = some n ∧ treeWrite h s = some (s.map (writeMap n.line)) := by
  obtain ⟨n, h1, h2⟩ := hs
  refine ⟨n, h1, ?_⟩
  unfold treeWrite
  rw [h1]
  simp only
  rw [if_pos]
  · rfl
  · rw [List.all_eq_true]
    intro m hm
    by_cases hl : m.id ∈ n.line
    · simp [h2 m hm hl]
    · simp [hl]

theorem readMap_see (line : List Nat) (m : Node) (h : m.state.mayRead = true) : (readMap line m).state.mayRead = true := by
  unfold readMap
  split
  · exact h
  · show m.state.foreignRead.mayRead = true
    revert h
    cases m.state <;> simp [State.mayRead, State.foreignRead]

theorem readMap_fresh (r : Nat) (line : List Nat) (m : Node) (h : m.state = .reserved ∨ m.id = r) :
    (readMap line m).state = .reserved ∨ (readMap line m).id = r := by
  rw [(readMap_steady line m).1]
  refine h.imp (fun h => ?_) id
  unfold readMap
  split
  · exact h
  · show m.state.foreignRead = _
    rw [h]
    rfl

theorem Up.read_see {g : Nat} {s : List Node} (line : List Nat) (h : treeSee g s) : treeSee g (s.map (readMap line)) :=
  Up.map (readMap_steady line) h fun _ m _ _ _ h => readMap_see line m h

theorem Up.read_fresh {r g : Nat} {s : List Node} (line : List Nat) (h : Fresh r g s) : Fresh r g (s.map (readMap line)) :=
  Up.map (readMap_steady line) h fun _ m _ _ _ h => readMap_fresh r line m h

theorem treeW.after_read {r n h : Nat} {s : List Node} (hw : treeW r n s) {x : Node} (hx : find h s = some x) :
    treeW r n (s.map (readMap x.line)) := by
  refine hw.map (readMap_steady _) ?_
  unfold readMap
  rw [if_pos (hw.bounds x (find_names hx).1).2.2.2]

theorem treeW.after_write {r n h : Nat} {s : List Node} (hw : treeW r n s) {x : Node} (hx : find h s = some x) :
    treeW r n (s.map (writeMap x.line)) := by
  refine hw.map (writeMap_steady _) ?_
  unfold writeMap
  simp only
  rw [if_pos (hw.bounds x (find_names hx).1).2.2.2]

/-- Reading. -/
theorem treeW.reads {r n h : Nat} {s : List Node} (hw : treeW r n s) (hs : treeSee h s) :
    ∃ s', treeRead h s = some s' ∧ treeW r n s' ∧ (∀ g, treeSee g s → treeSee g s') ∧ (∀ g, Fresh r g s → Fresh r g s') ∧
      (∀ a b, Below a b s → Below a b s') ∧ (treeOwn h s → treeOwn h s') ∧ (∀ x, find h s = some x → find h s' = some (readMap x.line x)) := by
  obtain ⟨x, h1, h2⟩ := tree_read hs
  refine ⟨_, h2, hw.after_read h1, fun g hg => Up.read_see _ hg, fun g hg => Up.read_fresh _ hg, ?_, fun ho => ?_, ?_⟩
  · rintro a b ⟨c, d, e1, e2, e3⟩
    refine ⟨_, _, by rw [find_map fun m => (readMap_steady _ m).2.1, e1]; rfl,
      by rw [find_map fun m => (readMap_steady _ m).2.1, e2]; rfl, ?_⟩
    rw [(readMap_steady _ c).2.2, (readMap_steady _ d).2.2]
    exact e3
  · refine Up.map (readMap_steady _) ho fun n m e _ hl hm => ?_
    rw [h1] at e
    cases e
    unfold readMap
    rw [if_pos hl]
    exact hm
  · intro y hy
    rw [h1] at hy
    cases hy
    rw [find_map fun m => (readMap_steady _ m).2.1, h1]
    rfl

theorem treeW.find_push {r n g : Nat} {s : List Node} (hw : treeW r n s) {x y : Node} (hx : x.names = [n])
    (hg : find g s = some y) : find g (x :: s) = some y := by
  obtain ⟨h1, h2⟩ := find_names hg
  have := (hw.bounds y h1).2.1 g h2
  unfold find at *
  rw [List.find?_cons, hx]
  have : decide (g ∈ [n]) = false := by simp; omega
  rw [this]
  exact hg

theorem treeW.up_push {r n g : Nat} {s : List Node} (hw : treeW r n s) {x : Node} (hi : x.id = n) (hx : x.names = [n])
    {P : Node → Prop} (hu : Up P g s) : Up P g (x :: s) := by
  obtain ⟨y, h1, h2⟩ := hu
  refine ⟨y, hw.find_push hx h1, fun m hm hl => ?_⟩
  cases hm with
  | head =>
    have := (hw.bounds y (find_names h1).1).2.2.1 _ hl
    omega
  | tail _ hm => exact h2 m hm hl

theorem treeW.push {r n : Nat} {s : List Node} (hw : treeW r n s) {x : Node} (hi : x.id = n) (hx : x.names = [n])
    (hl : ∀ y ∈ x.line, y < n + 1) (hr : r ∈ x.line) : treeW r (n + 1) (x :: s) := by
  obtain ⟨h0, A, rfl, hA⟩ := hw.mono (Nat.le_succ n)
  have h0 := hw.1
  refine ⟨by omega, x :: A, rfl, fun m hm => ?_⟩
  cases hm with
  | head =>
    rw [hi, hx]
    refine ⟨by omega, ?_, hr, by omega, fun y hy => ?_, hl⟩
    · simp
      omega
    · simp at hy
      omega
  | tail _ hm => exact hA m hm

/-- Making a reference. -/
theorem treeW.node {r n h : Nat} {s : List Node} (hw : treeW r n s) (hs : treeSee h s) (st : State) :
    ∃ x s1, find h s = some x ∧ treeRead h s = some s1 ∧ treeW r (n + 1) (⟨n, [n], n :: x.line, st⟩ :: s1) ∧
      (∀ g, treeSee g s → treeSee g (⟨n, [n], n :: x.line, st⟩ :: s1)) ∧
      (∀ g, Fresh r g s → Fresh r g (⟨n, [n], n :: x.line, st⟩ :: s1)) ∧
      (st.mayRead = true → treeSee n (⟨n, [n], n :: x.line, st⟩ :: s1)) ∧
      (st = .reserved → Fresh r h s → Fresh r n (⟨n, [n], n :: x.line, st⟩ :: s1)) ∧
      (st.mayWrite = true → treeOwn h s → treeOwn n (⟨n, [n], n :: x.line, st⟩ :: s1)) ∧
      Below h n (⟨n, [n], n :: x.line, st⟩ :: s1) := by
  obtain ⟨s1, h1, h2, h3, h4, _, h5, h6⟩ := hw.reads hs
  obtain ⟨x, hx, hall⟩ := hs
  have hxb := hw.bounds x (find_names hx).1
  have hf := h6 x hx
  have up : ∀ (P : Node → Prop), Up P h s1 → P ⟨n, [n], n :: x.line, st⟩ → Up P n (⟨n, [n], n :: x.line, st⟩ :: s1) := by
    rintro P ⟨y, e1, e2⟩ hp
    rw [hf] at e1
    cases e1
    refine ⟨⟨n, [n], n :: x.line, st⟩, ?_, fun m hm hl => ?_⟩
    · unfold find
      rw [List.find?_cons]
      simp
    · cases hm with
      | head => exact hp
      | tail _ hm =>
        refine e2 m hm ?_
        rw [(readMap_steady _ x).2.2]
        have := (h2.bounds m hm).1
        rcases List.mem_cons.mp hl with e | hl
        · omega
        · exact hl
  refine ⟨x, s1, hx, h1, h2.push rfl rfl (fun y hy => ?_) (.tail _ hxb.2.2.2), fun g hg => h2.up_push rfl rfl (h3 g hg),
    fun g hg => h2.up_push rfl rfl (h4 g hg), fun hst => up _ (h3 h ⟨x, hx, hall⟩) hst,
    fun hst hg => up _ (h4 h hg) (.inl hst), fun hst hg => up _ (h5 hg) hst, ?_⟩
  · rcases List.mem_cons.mp hy with rfl | hy
    · omega
    · have := hxb.2.2.1 y hy
      omega
  · refine ⟨_, ⟨n, [n], n :: x.line, st⟩, h2.find_push rfl hf, ?_, fun y hy => ?_⟩
    · unfold find
      rw [List.find?_cons]
      simp
    · rw [(readMap_steady _ x).2.2] at hy
      exact .tail _ hy

theorem treeW.shared {r n h : Nat} {s : List Node} (hw : treeW r n s) (hs : treeSee h s) :
    ∃ s', Tree.retag .shared h n s = some s' ∧ treeW r (n + 1) s' ∧ treeSee n s' ∧ (∀ g, treeSee g s → treeSee g s') ∧
      (∀ g, Fresh r g s → Fresh r g s') := by
  obtain ⟨x, s1, h1, h2, h3, h4, h5, h6, _⟩ := hw.node hs .frozen
  refine ⟨_, ?_, h3, h6 rfl, h4, h5⟩
  show (match find h s with
    | none => none
    | some x => (treeRead h s).map ((⟨n, [n], n :: x.line, .frozen⟩ : Node) :: ·)) = _
  rw [h1, h2]
  rfl

theorem treeW.excl {r n h : Nat} {s : List Node} (hw : treeW r n s) (hs : treeOwn h s) :
    ∃ s', Tree.retag .excl h n s = some s' ∧ treeW r (n + 1) s' ∧ treeOwn n s' ∧ (Fresh r h s → Fresh r n s') ∧
      (∀ g, Fresh r g s → Fresh r g s') ∧ Below h n s' := by
  obtain ⟨x, s1, h1, h2, h3, h4, h5, _, h6, h7, h8⟩ := hw.node hs.see .reserved
  refine ⟨_, ?_, h3, h7 rfl hs, h6 rfl, h5, h8⟩
  show (match find h s with
    | none => none
    | some x => (treeRead h s).map ((⟨n, [n], n :: x.line, .reserved⟩ : Node) :: ·)) = _
  rw [h1, h2]
  rfl

/-- What making a raw pointer does to each node. -/
def nameMap (p q : Nat) (m : Node) : Node := if p ∈ m.names then { m with names := q :: m.names } else m

theorem nameMap_keeps (p q : Nat) (m : Node) : (nameMap p q m).id = m.id ∧ (nameMap p q m).line = m.line ∧
    (nameMap p q m).state = m.state := by
  unfold nameMap
  split <;> exact ⟨rfl, rfl, rfl⟩

/-- Making a raw pointer. -/
theorem treeW.rawOf {r n h : Nat} {s : List Node} (hw : treeW r n s) (hr : h ≠ r) {P : Node → Prop}
    (hP : ∀ m m' : Node, m'.id = m.id → m'.state = m.state → P m → P m') (hs : Up P h s) :
    ∃ s', Tree.retag .raw h n s = some s' ∧ treeW r (n + 1) s' ∧ Up P n s' ∧ (∀ g, Up P g s → Up P g s') ∧
      (∀ g, Below g h s → Below g n s') ∧ (∀ a b, Below a b s → Below a b s') := by
  have hnew : find n (s.map (nameMap h n)) = (find h s).map (nameMap h n) := by
    have hlt : ∀ m ∈ s, n ∉ m.names := fun m hm hn => by
      have := (hw.bounds m hm).2.1 n hn
      omega
    clear hs hw
    induction s with
    | nil => rfl
    | cons m s ih =>
      have ih := ih fun m hm => hlt m (.tail _ hm)
      have hm := hlt m (.head _)
      unfold find at *
      rw [List.map_cons, List.find?_cons, List.find?_cons]
      by_cases hp : h ∈ m.names
      · have : decide (n ∈ (nameMap h n m).names) = true := by
          unfold nameMap
          rw [if_pos hp]
          simp
        rw [this]
        simp [hp]
      · have : decide (n ∈ (nameMap h n m).names) = false := by
          unfold nameMap
          rw [if_neg hp]
          simp [hm]
        rw [this]
        simp only [hp, decide_false]
        exact ih
  have hold : ∀ g y, find g s = some y → find g (s.map (nameMap h n)) = some (nameMap h n y) := by
    intro g y hg
    obtain ⟨h1, h2⟩ := find_names hg
    have hgn : g ≠ n := by
      have := (hw.bounds y h1).2.1 g h2
      omega
    have : find g (s.map (nameMap h n)) = (find g s).map (nameMap h n) := by
      unfold find
      rw [List.find?_map]
      congr 2
      funext m
      show decide (g ∈ (nameMap h n m).names) = decide (g ∈ m.names)
      unfold nameMap
      split
      · simp [hgn]
      · rfl
    rw [this, hg]
    rfl
  have keep : ∀ (k : Nat) (y : Node), find k (s.map (nameMap h n)) = some (nameMap h n y) →
      (∀ m ∈ s, m.id ∈ y.line → P m) → Up P k (s.map (nameMap h n)) := by
    intro k y e hall
    refine ⟨_, e, fun m hm hl => ?_⟩
    obtain ⟨m', hm', rfl⟩ := List.mem_map.mp hm
    rw [(nameMap_keeps h n y).2.1, (nameMap_keeps h n m').1] at hl
    exact hP m' _ (nameMap_keeps h n m').1 (nameMap_keeps h n m').2.2 (hall m' hm' hl)
  obtain ⟨x, hx, hall⟩ := hs
  refine ⟨s.map (nameMap h n), ?_, ?_, keep n x (by rw [hnew, hx]; rfl) hall, ?_, ?_, ?_⟩
  · show (match find h s with
      | none => none
      | some _ => some (s.map (nameMap h n))) = _
    rw [hx]
  · obtain ⟨h0, A, rfl, hA⟩ := hw
    refine ⟨by omega, A.map (nameMap h n), ?_, fun m hm => ?_⟩
    · rw [List.map_append]
      congr 1
      show [nameMap h n _] = _
      unfold nameMap
      rw [if_neg (by simpa using hr)]
    · obtain ⟨m', hm', rfl⟩ := List.mem_map.mp hm
      obtain ⟨a1, a2, a3, a4, a5, a6⟩ := hA m' hm'
      rw [(nameMap_keeps h n m').1, (nameMap_keeps h n m').2.1]
      refine ⟨a1, ?_, a3, by omega, ?_, fun y hy => by have := a6 y hy; omega⟩
      · unfold nameMap
        split
        · simp only [List.mem_cons, not_or]
          exact ⟨by omega, a2⟩
        · exact a2
      · intro y hy
        unfold nameMap at hy
        split at hy
        · rcases List.mem_cons.mp hy with rfl | hy
          · omega
          · have := a5 y hy
            omega
        · have := a5 y hy
          omega
  · rintro g ⟨y, e, hy⟩
    exact keep g y (hold g y e) hy
  · rintro g ⟨a, b, e1, e2, e3⟩
    refine ⟨_, _, hold g a e1, by rw [hnew, e2]; rfl, ?_⟩
    rw [(nameMap_keeps h n a).2.1, (nameMap_keeps h n b).2.1]
    exact e3
  · rintro a b ⟨c, d, e1, e2, e3⟩
    refine ⟨_, _, hold a c e1, hold b d e2, ?_⟩
    rw [(nameMap_keeps h n c).2.1, (nameMap_keeps h n d).2.1]
    exact e3

theorem treeW.raw {r n h : Nat} {s : List Node} (hw : treeW r n s) (hr : h ≠ r) (hs : Fresh r h s) :
    ∃ s', Tree.retag .raw h n s = some s' ∧ treeW r (n + 1) s' ∧ Fresh r n s' ∧ (∀ g, Fresh r g s → Fresh r g s') ∧
      (∀ g, Below g h s → Below g n s') := by
  obtain ⟨s', h1, h2, h3, h4, h5, _⟩ := hw.rawOf hr (P := fun m => m.state = .reserved ∨ m.id = r)
    (fun m m' e1 e2 h => by rw [e1, e2]; exact h) hs
  exact ⟨s', h1, h2, h3, h4, h5⟩

/-- Writing. -/
theorem treeW.writes {r n h : Nat} {s : List Node} (hw : treeW r n s) (hs : treeOwn h s) :
    ∃ s', treeWrite h s = some s' ∧ treeW r n s' ∧ treeOwn h s' ∧ (∀ g, Below g h s → treeOwn g s') := by
  obtain ⟨x, h1, h2⟩ := tree_write hs
  have key : ∀ g, Below g h s → treeOwn g (s.map (writeMap x.line)) := by
    rintro g ⟨a, b, e1, e2, e3⟩
    rw [h1] at e2
    cases e2
    refine Up.map (P := fun _ => True) (writeMap_steady _) ⟨a, e1, fun _ _ _ => trivial⟩ fun n m e _ hl _ => ?_
    rw [e1] at e
    cases e
    show (if m.id ∈ x.line then State.active else State.disabled).mayWrite = true
    rw [if_pos (e3 _ hl)]
    rfl
  exact ⟨_, h2, hw.after_write h1, key h ⟨x, x, h1, h1, fun _ => id⟩, key⟩

/-- `as_mut_ptr`. -/
theorem tree_asMutPtr {p : Place} {h n l : Nat} {s : List Node} (hl : p.whole.has l = true) (hw : treeW 0 n s)
    (hf : Fresh 0 h s) : ∃ s', runAt Tree l (p.asMutPtr h n).2.2 s = some s' ∧ treeW 0 (n + 3) s' ∧
      (∀ g, Fresh 0 g s → Fresh 0 g s') ∧ (p.buf.has l = true → Fresh 0 (n + 2) s') := by
  show ∃ s', runAt Tree l [.retag .excl h n p.whole, .retag .excl n (n + 1) p.buf, .retag .raw (n + 1) (n + 2) p.buf] s = _ ∧ _
  have h0 := hw.1
  obtain ⟨s1, a1, a2, _, a3, a4, _⟩ := hw.excl (hf.own hw)
  rw [runAt_cons ((hit_retag hl).trans a1)]
  by_cases hb : p.buf.has l = true
  · obtain ⟨s2, b1, b2, _, b3, b4, _⟩ := a2.excl ((a3 hf).own a2)
    obtain ⟨s3, c1, c2, c3, c4, _⟩ := b2.raw (by omega) (b3 (a3 hf))
    refine ⟨s3, ?_, c2, fun g hg => c4 g (b4 g (a4 g hg)), fun _ => c3⟩
    rw [runAt_cons ((hit_retag hb).trans b1), runAt_cons ((hit_retag hb).trans c1)]
    rfl
  · refine ⟨s1, ?_, a2.mono (by omega), a4, fun h => absurd h hb⟩
    rw [runAt_cons (miss_retag hb), runAt_cons (miss_retag hb)]
    rfl

theorem tree_len {p : Place} {h n l : Nat} {s : List Node} (hl : p.whole.has l = true) (hw : treeW 0 n s)
    (hf : Fresh 0 h s) : ∃ s', runAt Tree l (p.len h n).2.2 s = some s' ∧ treeW 0 (n + 1) s' ∧
      (∀ g, Fresh 0 g s → Fresh 0 g s') := by
  show ∃ s', runAt Tree l [.retag .shared h n p.whole, .read n p.head] s = _ ∧ _
  obtain ⟨s1, a1, a2, a3, _, a4⟩ := hw.shared (hf.own hw).see
  rw [runAt_cons ((hit_retag hl).trans a1)]
  by_cases hb : p.head.has l = true
  · obtain ⟨s2, b1, b2, _, b3, _⟩ := a2.reads a3
    exact ⟨s2, by rw [runAt_cons ((hit_read hb).trans b1)]; rfl, b2, fun g hg => b3 g (a4 g hg)⟩
  · exact ⟨s1, by rw [runAt_cons (miss_read hb)]; rfl, a2, a4⟩

theorem tree_mutSlice {t : Nat} {s : List Node} (p : Place) (k l : Nat) (hw : treeW ownerTag t s)
    (hl : p.whole.has l = true) (hk : k ≤ p.cap) :
    ∃ s', runAt Tree l (p.asMutSlice k ownerTag t).2.2 s = some s' ∧ treeW ownerTag (p.asMutSlice k ownerTag t).2.1 s' ∧
      ((p.items k).has l = true → treeOwn (p.asMutSlice k ownerTag t).1 s') ∧
      (∀ g, g < t → False → False) := by
  show ∃ s', runAt Tree l (.retag .excl 0 t p.whole :: ((p.asMutPtr t (t + 1)).2.2 ++ ((p.len t (t + 4)).2.2 ++
    [.retag .excl (t + 3) (t + 5) (p.items k)]))) s = some s' ∧ treeW 0 (t + 6) s' ∧
    ((p.items k).has l = true → treeOwn (t + 5) s') ∧ _
  obtain ⟨s1, a1, a2, _, a3, _⟩ := hw.excl (hw.fresh.own hw)
  have a3 := a3 hw.fresh
  obtain ⟨s2, b1, b2, b3, b4⟩ := tree_asMutPtr hl a2 a3
  obtain ⟨s3, c1, c2, c3⟩ := tree_len hl b2 (b3 _ a3)
  rw [runAt_cons ((hit_retag hl).trans a1), runAt_append, b1, Option.bind_some, runAt_append, c1, Option.bind_some]
  by_cases hi : (p.items k).has l = true
  · have hf := c3 _ (b4 (items_buf hk hi))
    obtain ⟨s4, d1, d2, d3, _⟩ := c2.excl (hf.own c2)
    exact ⟨s4, by rw [runAt_cons ((hit_retag hi).trans d1)]; rfl, d2, fun _ => d3, fun _ _ => id⟩
  · exact ⟨s3, by rw [runAt_cons (miss_retag hi)]; rfl, c2.mono (by omega), fun h => absurd h hi, fun _ _ => id⟩

theorem tree_copy {t : Nat} {s : List Node} (p : Place) (d k l : Nat) (hw : treeW ownerTag t s)
    (hl : p.whole.has l = true) (hk : k ≤ p.cap) (hd : Apart p d) :
    ∃ s', runAt Tree l (p.copyFromSlice dataTag d k ownerTag t).2.2 s = some s' ∧
      treeW ownerTag (p.copyFromSlice dataTag d k ownerTag t).2.1 s' ∧ (∀ g, g < t → False → False) := by
  have hm : ¬ (⟨d, k⟩ : Region).has l = true := by
    intro h
    rw [has_iff] at *
    simp only [Place.whole, Apart] at *
    omega
  have h0 : 0 < t := hw.1
  show ∃ s', runAt Tree l [.retag .excl 0 t p.whole, .retag .shared dataTag (t + 1) ⟨d, k⟩, .retag .excl t (t + 2) p.buf,
    .retag .raw (t + 2) (t + 3) p.buf, .read (t + 1) ⟨d, k⟩, .write (t + 3) (p.items k), .retag .excl t (t + 4) p.whole,
    .write (t + 4) p.head] s = some s' ∧ treeW 0 (t + 5) s' ∧ _
  obtain ⟨s1, a1, a2, _, a3, _⟩ := hw.excl (hw.fresh.own hw)
  have a3 := a3 hw.fresh
  rw [runAt_cons ((hit_retag hl).trans a1), runAt_cons (miss_retag hm)]
  have last : ∀ s, treeW 0 (t + 4) s → treeOwn t s → ∃ s', runAt Tree l [.retag .excl t (t + 4) p.whole,
      .write (t + 4) p.head] s = some s' ∧ treeW 0 (t + 5) s' ∧ (∀ g, g < t → False → False) := by
    intro s hs ho
    obtain ⟨s1, a1, a2, a3, _⟩ := hs.excl ho
    rw [runAt_cons ((hit_retag hl).trans a1)]
    by_cases hh : p.head.has l = true
    · obtain ⟨s2, b1, b2, _⟩ := a2.writes a3
      exact ⟨s2, by rw [runAt_cons ((hit_write hh).trans b1)]; rfl, b2, fun _ _ => id⟩
    · exact ⟨s1, by rw [runAt_cons (miss_write hh)]; rfl, a2, fun _ _ => id⟩
  by_cases hb : p.buf.has l = true
  · obtain ⟨s2, b1, b2, _, b3, b4, b5⟩ := (a2.mono (Nat.le_succ _)).excl (a3.own a2)
    obtain ⟨s3, c1, c2, c3, c4, c5⟩ := b2.raw (show t + 2 ≠ 0 by omega) (b3 a3)
    rw [runAt_cons ((hit_retag hb).trans b1), runAt_cons ((hit_retag hb).trans c1), runAt_cons (miss_read hm)]
    by_cases hi : (p.items k).has l = true
    · obtain ⟨s4, d1, d2, _, d3⟩ := c2.writes (c3.own c2)
      rw [runAt_cons ((hit_write hi).trans d1)]
      exact last s4 d2 (d3 t (c5 t b5))
    · rw [runAt_cons (miss_write hi)]
      exact last s3 c2 ((c4 t (b4 t a3)).own c2)
  · have hi : ¬ (p.items k).has l = true := fun h => hb (items_buf hk h)
    rw [runAt_cons (miss_retag hb), runAt_cons (miss_retag hb), runAt_cons (miss_read hm), runAt_cons (miss_write hi)]
    exact last s1 (a2.mono (by omega)) (a3.own a2)

/-- The loop of `each_mut`: all pointers may be used. -/
theorem tree_muts {p : Place} {h l : Nat} (hl : p.whole.has l = true) : (k t : Nat) → (s : List Node) → treeW 0 t s →
    Fresh 0 h s → ∃ s', runAt Tree l (p.muts h k t).2.2 s = some s' ∧ treeW 0 (t + 3 * k) s' ∧
      (∀ g, Fresh 0 g s → Fresh 0 g s') ∧ (p.buf.has l = true → ∀ g ∈ (p.muts h k t).1, Fresh 0 g s')
  | 0, _, s, hw, _ => ⟨s, rfl, hw, fun _ => id, fun _ _ hg => nomatch hg⟩
  | k + 1, t, s, hw, hf => by
    obtain ⟨s1, a1, a2, a3, a4⟩ := tree_asMutPtr hl hw hf
    obtain ⟨s2, b1, b2, b3, b4⟩ := tree_muts hl k (t + 3) s1 a2 (a3 h hf)
    refine ⟨s2, ?_, b2.mono (by omega), fun g hg => b3 g (a3 g hg), fun hb g hg => ?_⟩
    · show runAt Tree l ((p.asMutPtr h t).2.2 ++ ((p.muts h k (t + 3)).2.2 ++ [])) _ = _
      rw [List.append_nil, runAt_append, a1]
      exact b1
    · rcases List.mem_cons.mp (show g ∈ (t + 2) :: (p.muts h k (t + 3)).1 from hg) with rfl | hg
      · exact b3 _ (a4 hb)
      · exact b4 hb g hg

theorem tree_eachMut {t : Nat} {s : List Node} (p : Place) (k l : Nat) (hw : treeW ownerTag t s)
    (hl : p.whole.has l = true) (hk : k ≤ p.cap) :
    ∃ s', runAt Tree l (p.eachMut k ownerTag t).2.2 s = some s' ∧ treeW ownerTag (p.eachMut k ownerTag t).2.1 s' ∧
      (∀ x ∈ (single p 0 (p.eachMut k ownerTag t).1).zip (loansOf true k), x.1.r.has l = true →
        (anyLoan x.2 → treeOwn x.1.tag s') ∧ (¬ anyLoan x.2 → False)) ∧
      (∀ g, g < t → False → False) := by
  obtain ⟨s1, a1, a2, _, a3, _⟩ := hw.excl (hw.fresh.own hw)
  have a4 := a3 hw.fresh
  have hread : ∃ s2, runAt Tree l [.read t p.head] s1 = some s2 ∧ treeW 0 (t + 1) s2 ∧ Fresh 0 t s2 := by
    by_cases hh : p.head.has l = true
    · obtain ⟨s2, b1, b2, _, b3, _⟩ := a2.reads (a4.own a2).see
      exact ⟨s2, by rw [runAt_cons ((hit_read hh).trans b1)]; rfl, b2, b3 t a4⟩
    · exact ⟨s1, by rw [runAt_cons (miss_read hh)]; rfl, a2, a4⟩
  obtain ⟨s2, b1, b2, b3⟩ := hread
  obtain ⟨s3, c1, c2, _, c3⟩ := tree_muts hl k (t + 1) s2 b2 b3
  refine ⟨s3, ?_, ?_, fun x hx hr => ⟨fun _ => ?_, fun h => h trivial⟩, fun _ _ => id⟩
  · show runAt Tree l ([.retag .excl 0 t p.whole, .read t p.head] ++ (p.muts t k (t + 1)).2.2) s = _
    rw [runAt_append, runAt_cons ((hit_retag hl).trans a1), b1]
    exact c1
  · have hn : (p.eachMut k ownerTag t).2.1 = t + 1 + 3 * k := muts_next p t k (t + 1)
    rw [hn]
    exact c2
  · have hm := List.of_mem_zip hx
    obtain ⟨a1, a2, a3, a4⟩ := single_mem p 0 _ x.1 hm.1
    have hlen : (p.eachMut k ownerTag t).1.length = k := muts_len p _ _ _
    have hb : p.buf.has l = true := by
      rw [has_iff] at *
      simp only [Place.buf] at *
      omega
    exact (c3 hb x.1.tag a1).own c2

/-- Under Tree Borrows, all references that are returned may be used. -/
def treeSound : Sound Tree anyLoan where
  rule_shared _ _ := trivial
  rule_last _ _ := trivial
  W := treeW
  See := treeSee
  Own := treeOwn
  Dead _ _ := False
  start h := ⟨h, [], rfl, fun _ hi => nomatch hi⟩
  mono h hw := hw.mono h
  read_see hw hh := by
    obtain ⟨s', h1, h2, h3, _⟩ := hw.reads (hh.elim (fun e => e ▸ (hw.fresh.own hw).see) id)
    exact ⟨s', h1, h2, h3, fun _ => id⟩
  read_own hw ho := by
    obtain ⟨s', h1, h2, _, _, _, h3, _⟩ := hw.reads ho.see
    exact ⟨s', h1, h2, h3 ho, fun _ => id⟩
  write_own hw ho := by
    obtain ⟨s', h1, h2, h3, _⟩ := hw.writes ho
    exact ⟨s', h1, h2, h3, fun _ => id⟩
  dead_read h := h.elim
  dead_write h := h.elim
  retag_shared hw hh := by
    obtain ⟨s', h1, h2, h3, h4, _⟩ := hw.shared (hh.elim (fun e => e ▸ (hw.fresh.own hw).see) id)
    exact ⟨s', h1, h2, h3, h4, fun _ _ => id⟩
  mutSlice := tree_mutSlice
  copy := tree_copy
  eachMut := tree_eachMut

end Oct.Alias
