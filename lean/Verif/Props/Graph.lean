import Verif.Proofs.Graph
/-
C125: encoding an object graph ends, and gives the encoding of the tree which its references unfold to.
-/
namespace Oct.Props
open Oct Spec

/-- `struct Node { value: u8, next: RefCell<Option<Rc<Node>>> }` -/
private abbrev node : Decls := fun _ =>
  .struct (.cons (.plain (.num (.int .u8))) (.cons (.refCell (.option (.named 0))) .nil))

/-- Object `a + 1` refers to object `a`. -/
private abbrev chain : Heap node := fun _ a =>
  match a with
  | 0 => (7#8, ⟨false, none⟩, ())
  | a + 1 => (8#8, ⟨false, some a⟩, ())

/-- Objects `0` and `1` refer to each other. -/
private abbrev ring : Heap node := fun _ a => (7#8, ⟨false, some (1 - a)⟩, ())

private theorem chain_within : ∀ a, WithinDepth chain a (0, a)
  | 0 => rfl
  | a + 1 => fun y hy => by
    have : y = (0, a) := List.mem_singleton.mp hy
    subst this
    exact chain_within a

private theorem ring_cycle : Relation.TransGen (HoldsRef ring) (0, 0) (0, 0) :=
  .tail (b := (0, 1)) (.single (show (0, 0) ∈ [(0, 0)] from .head _))
    (show (0, 1) ∈ [(0, 1)] from .head _)

private theorem node_guarded : GuardedOut node (fun _ => 0) 1 :=
  fun _ => ⟨Nat.zero_lt_one, trivial, .inl trivial⟩

/-- The objects from which references cannot be followed without end are those from which they can be
followed some number of times at most. -/
theorem C125_unlooped {D : Decls} (H : Heap D) (x : Nat × Nat) :
    Unlooped H x ↔ ∃ n, WithinDepth H n x :=
  ⟨fun h => h.within, fun ⟨_, h⟩ => h.unlooped⟩

example : Unlooped chain (0, 100) := (C125_unlooped chain _).mpr ⟨100, chain_within 100⟩

/-- Such an object is encoded as the tree which it unfolds to, a value of the recursive type: each
reference as the object referred to, again for each reference to it. It takes one more nested call than
references can be followed, and how many more there could be changes nothing. -/
theorem C125_tree {D : Decls} (H : Heap D) (n k a : Nat) (h : WithinDepth H n (k, a)) :
    ∃ v : (unroll D (n + 1) k).Val,
      (∀ (b : Nat → Ty) (below : ∀ k, (b k).Val), embed b D (n + 1) k v = H.unfold b below (n + 1) k a) ∧
      ∀ (stop : Panic) (j : Nat), H.encode stop (n + 1 + j) k a = (unroll D (n + 1) k).encode v := by
  obtain ⟨v, hv⟩ := H.exists_tree n (k, a) h
  refine ⟨v, fun b below => hv ⟨b, below⟩, fun stop j => ?_⟩
  have h1 := H.encode_within n (k, a) h stop stop j 0
  have h2 := H.encode_unfold (stubVal D) (stub_generic D) stop n (k, a) h
  have h3 := embed_encode (stub_generic D) (n + 1) k v
  rw [hv ⟨stub D, stubVal D⟩] at h3
  exact h1.trans (h2.trans h3)

example : (chain.encode .infallible 3 0 2 (Output.new (List.replicate 6 0)))
    = (.ok (), ⟨[8, 1, 8, 1, 7, 0], 6⟩) := by decide

/-- An object that has been encoded with some number of nested calls is one of these. -/
theorem C125_succeeds {D : Decls} (H : Heap D) (stop : Panic) (n k a : Nat) (o o' : Output)
    (h : H.encode stop (n + 1) k a o = (.ok (), o')) : WithinDepth H n (k, a) := by
  apply Classical.byContradiction
  intro hn
  exact H.encode_fails_depth stop n (k, a) hn o (congrArg Prod.fst h)

example : WithinDepth chain 2 (0, 2) :=
  C125_succeeds chain .infallible 2 0 2 (Output.new (List.replicate 6 0)) ⟨[8, 1, 8, 1, 7, 0], 6⟩ (by decide)

/-- An object from which references lead back to it is never encoded, whatever the buffer. -/
theorem C125_never {D : Decls} (H : Heap D) (k a : Nat)
    (h : Relation.TransGen (HoldsRef H) (k, a) (k, a)) (stop : Panic) (n : Nat) (o : Output) :
    (H.encode stop n k a o).1 ≠ .ok () :=
  H.encode_fails stop n (k, a) (not_acc_of_cycle h) o

example (n : Nat) (o : Output) : (ring.encode .infallible n 0 0 o).1 ≠ .ok () :=
  C125_never ring 0 0 ring_cycle .infallible n o

/-- Encoding ends where references cannot be followed without end, and where each declared type writes
something before it refers back to itself: the number of nested calls is bounded by the length of the
buffer, so that a loop ends when the buffer is full. What is missing: types that write nothing, see
`C125_false`. -/
theorem C125_partial {D : Decls} (H : Heap D) (k a : Nat) :
    (Unlooped H (k, a) → ∃ n, ∀ o, EncodesWithin H n k a o) ∧
    (∀ (rank : Nat → Nat) (ranks : Nat), GuardedOut D rank ranks → ∀ (n : Nat) (o : Output),
      o.position ≤ o.capacity → o.remaining * ranks + rank k + 1 ≤ n → EncodesWithin H n k a o) := by
  refine ⟨fun h => ?_, fun rank ranks hG n o ho hn => H.encodesWithin hG ho hn⟩
  obtain ⟨n, hn⟩ := h.within
  exact ⟨n + 1, fun o stop stop' j => congrFun (H.encode_within n (k, a) hn stop stop' 0 j) o⟩

example : EncodesWithin ring 6 0 0 (Output.new (List.replicate 5 0)) :=
  (C125_partial ring 0 0).2 _ _ node_guarded 6 _ (by decide) (by decide)

example : ring.encode .infallible 6 0 0 (Output.new (List.replicate 5 0))
    = (.panic .shortOutput, ⟨[7, 1, 7, 1, 7], 5⟩) := by decide

/-- `struct Loop(&'static Loop);` -/
private abbrev loop : Decls := fun _ => .struct (.cons (.named 0) .nil)

/-- `static LOOP: Loop = Loop(&LOOP);` -/
private abbrev loopSelf : Heap loop := fun _ a => (a, ())

private theorem loop_encode (stop : Panic) (o : Output) : ∀ n, loopSelf.encode stop n 0 0 o = (.panic stop, o)
  | 0 => rfl
  | n + 1 => by
    show Enc.bind ((loopSelf.encode stop n 0 0).mapErr EncErr.toGeneric) _ o = _
    unfold Enc.bind Enc.mapErr
    rw [loop_encode stop o n]
    rfl

/-- Encoding need not end: an object that refers to itself and has nothing else makes `encode` call itself
without end and without writing anything, whatever the buffer. -/
theorem C125_false : ∃ (D : Decls) (H : Heap D) (k a : Nat), ∀ (o : Output),
    (∀ n, ¬ EncodesWithin H n k a o) ∧ ∀ stop n, H.encode stop n k a o = (.panic stop, o) := by
  refine ⟨loop, loopSelf, 0, 0, fun o => ⟨fun n h => ?_, fun stop n => loop_encode stop o n⟩⟩
  have := h .infallible .shortOutput 0
  rw [loop_encode, loop_encode] at this
  cases this

/-- `struct Pair { l: Option<Rc<Pair>>, r: Option<Rc<Pair>> }` -/
private abbrev pair : Decls := fun _ =>
  .struct (.cons (.option (.named 0)) (.cons (.option (.named 0)) .nil))

/-- Object `a + 1` refers to object `a`, twice. -/
private abbrev shared : Heap pair := fun _ a =>
  match a with
  | 0 => (none, none, ())
  | a + 1 => (some a, some a, ())

private theorem shared_emits (stop : Panic) : ∀ a, ∃ w : List Byte, w.length + 2 = 2 ^ (a + 2) ∧
    Emits (shared.encode stop (a + 1) 0 a) w (.ok ())
  | 0 => by
    refine ⟨[0] ++ ([0] ++ []), rfl, ?_⟩
    exact ((Emits.write [0]).mapErr _).bind_ok (((Emits.write [0]).mapErr _).bind_ok .pure)
  | a + 1 => by
    obtain ⟨w, hw, he⟩ := shared_emits stop a
    refine ⟨([1] ++ w) ++ (([1] ++ w) ++ []), ?_, ?_⟩
    · simp only [List.length_append, List.length_cons, List.length_nil]
      have : 2 ^ (a + 1 + 2) = 2 * 2 ^ (a + 2) := by rw [Nat.pow_succ 2 (a + 2)]; omega
      omega
    · have h1 := ((Emits.write [1]).bind_ok (f := fun _ => shared.encode stop (a + 1) 0 a) he).mapErr EncErr.toGeneric
      exact h1.bind_ok (h1.bind_ok .pure)

/-- Objects that are shared are encoded once for each way to reach them: there are `a + 1` objects which
have an encoding of `2^(a + 2) - 2` octets, for each `a`. -/
theorem C125_sharing : ∃ (D : Decls) (H : Heap D), ∀ a : Nat,
    (∀ y, Relation.TransGen (HoldsRef H) y (0, a) → y.1 = 0 ∧ y.2 < a) ∧
    ∀ (stop : Panic) (o : Output), o.position ≤ o.capacity →
      (2 ^ (a + 2) - 2 ≤ o.remaining → ∃ o', H.encode stop (a + 1) 0 a o = (.ok (), o') ∧
        o'.position = o.position + (2 ^ (a + 2) - 2)) ∧
      (o.remaining < 2 ^ (a + 2) - 2 → (H.encode stop (a + 1) 0 a o).1 = .panic .shortOutput) := by
  have hold : ∀ y a, HoldsRef shared y (0, a) → y.1 = 0 ∧ y.2 + 1 = a := by
    intro y a h
    cases a with
    | zero => cases h
    | succ a =>
      have : y ∈ [((0 : Nat), a), (0, a)] := h
      have : y = (0, a) := by simpa using this
      subst this
      exact ⟨rfl, rfl⟩
  refine ⟨pair, shared, fun a => ⟨fun y hy => ?_, fun stop o ho => ?_⟩⟩
  · have : ∀ x : Nat × Nat, Relation.TransGen (HoldsRef shared) y x → x.1 = 0 → y.1 = 0 ∧ y.2 < x.2 := by
      intro x hx
      induction hx with
      | @single x h =>
        intro h0
        obtain ⟨x1, x2⟩ := x
        simp only at h0
        subst h0
        have := hold _ _ h
        exact ⟨this.1, by simp only; omega⟩
      | @tail z x _ h ih =>
        intro h0
        obtain ⟨x1, x2⟩ := x
        simp only at h0
        subst h0
        have h1 := hold _ _ h
        have h2 := ih h1.1
        exact ⟨h2.1, by simp only; omega⟩
    exact this (0, a) hy rfl
  · obtain ⟨w, hw, he⟩ := shared_emits stop a
    have hl : 2 ^ (a + 2) - 2 = w.length := by omega
    rw [hl]
    refine ⟨fun h => ⟨_, (he o ho).1 h, rfl⟩, fun h => ?_⟩
    obtain ⟨w', _, _, h'⟩ := (he o ho).2 h
    rw [h']

example : (shared.encode .infallible 2 0 1 (Output.new (List.replicate 6 9)))
    = (.ok (), ⟨[1, 0, 0, 1, 0, 0], 6⟩) := by decide

end Oct.Props
