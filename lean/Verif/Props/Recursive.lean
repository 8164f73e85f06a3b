import Verif.Proofs.RecursiveEnds
import Verif.Props.Decoding
/-
C91-C95: recursive types.
-/
namespace Oct.Props
open Oct Spec
set_option linter.unusedVariables false

/-- `struct Node { value: u8, next: Option<Box<Node>> }` -/
def nodeDecls : Decls := fun _ =>
  .struct (.cons (.plain (.num (.int .u8))) (.cons (.option (.wrap .box (.named 0))) .nil))

/-- `struct Chain { next: Option<Box<Chain>> }` -/
def chainDecls : Decls := fun _ => .struct (.cons (.option (.wrap .box (.named 0))) .nil)

/-- `struct Loop { next: Box<Loop> }` -/
def loopDecls : Decls := fun _ => .struct (.cons (.wrap .box (.named 0)) .nil)

/-- `enum Json { Null, Bool(bool), Text(String), List(Vec<Json>), Entry(Pair) }` and
`struct Pair(Box<Json>, Box<Json>)`. -/
def jsonDecls : Decls
  | 0 => .enum (.int .u8) (.cons none .nil (.cons none (.cons (.plain .bool) .nil)
      (.cons none (.cons (.plain (.str .string)) .nil)
        (.cons none (.cons (.seq .vec (.named 0)) .nil)
          (.cons none (.cons (.named 1) .nil) .nil)))))
  | _ => .struct (.cons (.wrap .box (.named 0)) (.cons (.wrap .box (.named 0)) .nil))

/-- The list 7, 9. -/
def nodeVal : (unroll nodeDecls 2 0).Val := (7#8, some (9#8, none, ()), ())

theorem nodeDecls_well : WellDeclared nodeDecls := fun _ => ⟨trivial, trivial, trivial⟩
theorem chainDecls_well : WellDeclared chainDecls := fun _ => ⟨trivial, trivial⟩
theorem jsonDecls_well : WellDeclared jsonDecls := by
  intro k
  match k with
  | 0 => exact ⟨by decide, by decide, ⟨trivial, ⟨trivial, trivial⟩, ⟨trivial, trivial⟩,
      ⟨trivial, trivial⟩, ⟨trivial, trivial⟩, trivial⟩⟩
  | _ + 1 => exact ⟨trivial, trivial, trivial⟩

/-- C91. A value of a recursive type, however deep, that has been encoded decodes to that value (up
to what the format does not carry), whatever follows, and exactly its encoding is consumed; nothing
about the depth needs to be known in advance. Missing: as for C09. -/
theorem C91_recursive_round_trip_partial (D : Decls) (hD : WellDeclared D) (n k : Nat)
    (v : (unroll D n k).Val) (hs : Supported (unroll D n k) v) (o o' : Output)
    (ho : o.position ≤ o.capacity) (h : (unroll D n k).encode v o = (.ok (), o'))
    (rest : List Byte) (j : Nat) :
    (unroll D (n + j) k).decode ⟨o'.asSlice ++ rest, o.position⟩
      = (.ok (raise D n j k (carried (unroll D n k) v)), ⟨o'.asSlice ++ rest, o'.position⟩) := by
  have hd := C09_round_trip_partial (unroll D n k) (unroll_wf hD n k) v hs o o' ho h rest
  have hi : Input.WF ⟨o'.asSlice ++ rest, o.position⟩ := by
    obtain ⟨hv, hl, rfl⟩ := Ty.encode_ok (unroll D n k) v ho h
    have hobs := Output.put_obs ho hl
    show o.position ≤ ((o.put (wire (unroll D n k) v)).asSlice ++ rest).length
    rw [hobs.2.2.1, List.length_append, List.length_append]
    have : o.asSlice.length = o.position := by
      show (o.buf.take o.pos).length = o.pos
      rw [List.length_take]
      exact Nat.min_eq_left ho
    omega
  rw [unroll_upTo D n k _ hi (by rw [hd]; simp) j, hd]
  rfl

example : ∃ o', WellDeclared nodeDecls ∧ Supported (unroll nodeDecls 2 0) nodeVal ∧
    (unroll nodeDecls 2 0).encode nodeVal (Output.new (List.replicate 4 0)) = (.ok (), o') ∧
    o'.asSlice = [7, 1, 9, 0] :=
  ⟨⟨[7, 1, 9, 0], 4⟩, nodeDecls_well, ⟨trivial, ⟨trivial, trivial, trivial⟩, trivial⟩, rfl, rfl⟩

/-- C91. What a value is encoded as does not depend on how deep the type is thought to be. -/
theorem C91_recursive_encoding (D : Decls) (n k : Nat) (v : (unroll D n k).Val) (j : Nat)
    (o : Output) :
    (unroll D (n + j) k).encode (raise D n j k v) o = (unroll D n k).encode v o := by
  rw [raise_encode D n k v j]

/-- C91 is false where C09 is: a list of hash sets does not come back. -/
theorem C91_false_hash_set :
    ∃ (D : Decls) (n : Nat) (v : (unroll D n 0).Val) (o' : Output), WellDeclared D ∧
      (unroll D n 0).encode v (Output.new [0, 0]) = (.ok (), o') ∧
      (unroll D n 0).decode (Input.new o'.asSlice) = (.panic .shortInput, ⟨o'.asSlice, 2⟩) :=
  ⟨fun _ => .struct (.cons (.plain (.hashSet (.num (.int .u8))))
      (.cons (.option (.wrap .box (.named 0))) .nil)), 1,
    (⟨[7#8], by decide⟩, none, ()), ⟨[7, 0], 2⟩, fun _ => ⟨trivial, trivial, trivial⟩, rfl, rfl⟩

/-- C92. Decoding a recursive type has one outcome: once some depth of nested calls is enough for an
input, each greater depth gives the same value, error or panic and consumes the same. -/
theorem C92_recursive_outcome (D : Decls) (n k : Nat) (i : Input) (hi : i.position ≤ i.capacity)
    (h : ((unroll D n k).decode i).1 ≠ .panic .infallible) (j : Nat) :
    (unroll D (n + j) k).decode i
      = (((unroll D n k).decode i).1.map (raise D n j k), ((unroll D n k).decode i).2) :=
  unroll_upTo D n k i hi h j

example : ((unroll nodeDecls 2 0).decode (Input.new [7, 1, 9, 0])).1 ≠ .panic .infallible := by
  intro h; cases h

/-- C93. If no declared type leads back to itself without reading something on the way, then decoding
ends on every input: calls nest no deeper than the octets that are left, times the number of ranks
(the innermost calls of the unrolling of that depth are never made), and more depth changes nothing.
Missing: all other declarations, see `C93_false_loop`. -/
theorem C93_recursive_ends_partial (D : Decls) (reads : Nat → Prop) (rank : Nat → Nat)
    (ranks : Nat) (h : Guarded D reads rank ranks) (k : Nat) (i : Input) (hi : i.position ≤ i.capacity)
    (n : Nat) (hn : i.remaining * ranks + rank k + 1 ≤ n) :
    DepthSuffices D n k i ∧ ∀ j : Nat, (unroll D (n + j) k).decode i
      = (((unroll D n k).decode i).1.map (raise D n j k), ((unroll D n k).decode i).2) :=
  ⟨suffices_guarded h n k i hi hn, unroll_ends h n k i hi hn⟩

example : Guarded nodeDecls (fun _ => False) (fun _ => 0) 1 :=
  fun _ => ⟨False.elim, Nat.zero_lt_one, trivial, .inl trivial⟩
example : Guarded jsonDecls (fun _ => False) (fun k => min k 1) 2 := by
  intro k
  match k with
  | 0 => exact ⟨False.elim, by decide, trivial⟩
  | k + 1 =>
    refine ⟨False.elim, Nat.lt_of_le_of_lt (Nat.min_le_right _ _) (by decide), ?_,
      .inr ⟨?_, .inr trivial⟩⟩ <;> (show min 0 1 < min (k + 1) 1; omega)
/-- `struct Octet(u8)` and `struct List { head: Octet, tail: Box<List> }`. -/
example : Guarded (fun k => match k with
    | 0 => .struct (.cons (.plain (.num (.int .u8))) .nil)
    | _ => .struct (.cons (.named 0) (.cons (.wrap .box (.named 1)) .nil)))
    (fun k => k = 0) (fun k => min k 1) 2 := by
  intro k
  match k with
  | 0 => exact ⟨fun _ => .inl trivial, by decide, trivial, .inl trivial⟩
  | k + 1 =>
    refine ⟨fun h => (nomatch h), Nat.lt_of_le_of_lt (Nat.min_le_right _ _) (by decide), ?_,
      .inl rfl⟩
    show min 0 1 < min (k + 1) 1
    omega

theorem single_decode (t : Ty) (i : Input) :
    (Ty.struct (.cons t .nil)).decode i
      = (((t.decode i).1.mapErr DecErr.toGeneric).map (fun v => (v, ())), (t.decode i).2) := by
  show Dec.bind (Dec.mapErr DecErr.toGeneric t.decode)
    (fun v => Dec.bind (Dec.pure ()) fun vs => Dec.pure (v, vs)) i = _
  unfold Dec.bind Dec.mapErr
  generalize t.decode i = q
  obtain ⟨r, i1⟩ := q
  cases r <;> rfl

/-- C93 is false without that: `struct Loop { next: Box<Loop> }` calls itself for ever, whatever the
input, having read nothing; no depth is ever enough. -/
theorem C93_false_loop :
    ∃ D : Decls, WellDeclared D ∧ ∀ (i : Input) (n : Nat),
      (unroll D n 0).decode i = (.panic .infallible, i) ∧ ¬ DepthSuffices D n 0 i := by
  refine ⟨loopDecls, fun _ => ⟨trivial, trivial⟩, fun i n => ⟨?_, ?_⟩⟩
  · induction n with
    | zero => rfl
    | succ n ih =>
      refine (single_decode (.wrap .box (unroll loopDecls n 0)) i).trans ?_
      rw [show (Ty.wrap .box (unroll loopDecls n 0)).decode i = _ from ih]
      rfl
  · intro h
    have hb := h blank
    have h1 : ∀ n, ∃ v, (unrollWith blank loopDecls n 0).decode i = (.ok v, i) := by
      intro n
      induction n with
      | zero => exact ⟨(), rfl⟩
      | succ n ih =>
        obtain ⟨v, ih⟩ := ih
        refine ⟨(v, ()), (single_decode (.wrap .box (unrollWith blank loopDecls n 0)) i).trans ?_⟩
        rw [show (Ty.wrap .box (unrollWith blank loopDecls n 0)).decode i = _ from ih]
        rfl
    have h2 : ∀ n, (unroll loopDecls n 0).decode i = (.panic .infallible, i) := by
      intro n
      induction n with
      | zero => rfl
      | succ n ih =>
        refine (single_decode (.wrap .box (unroll loopDecls n 0)) i).trans ?_
        rw [show (Ty.wrap .box (unroll loopDecls n 0)).decode i = _ from ih]
        rfl
    obtain ⟨v, h1⟩ := h1 n
    rw [h1, h2 n] at hb
    cases hb

/-- C94. For types that do not contain themselves, the depth of nested calls is bounded by the
declarations alone, whatever the input. Missing: all other types, see `C94_false_chain`. -/
theorem C94_recursive_depth_partial (D : Decls) (rank : Nat → Nat) (h : Hierarchical D rank)
    (k : Nat) (i : Input) (hi : i.position ≤ i.capacity) (n : Nat) (hn : rank k + 1 ≤ n) :
    DepthSuffices D n k i ∧ ∀ j : Nat, (unroll D (n + j) k).decode i
      = (((unroll D n k).decode i).1.map (raise D n j k), ((unroll D n k).decode i).2) :=
  ⟨suffices_hierarchical h n k i hi hn, unroll_hierarchical h n k i hi hn⟩

/-- `struct Inner(u8)` and `struct Outer(Vec<Inner>)`. -/
example : Hierarchical (fun k => match k with
    | 0 => .struct (.cons (.plain (.num (.int .u8))) .nil)
    | _ => .struct (.cons (.seq .vec (.named 0)) .nil)) (fun k => min k 1) := by
  intro k
  match k with
  | 0 => exact ⟨trivial, trivial⟩
  | k + 1 => exact ⟨show min 0 1 < min (k + 1) 1 by omega, trivial⟩

theorem decOption_true {α : Type} (d : Dec α) (i i' : Input) (hb : decBool i = (.ok true, i')) :
    decOption d i = ((d i').1.map some, (d i').2) := by
  show Dec.bind decBool (fun s => if s then Dec.bind d (fun v => Dec.pure (some v))
    else Dec.pure none) i = _
  unfold Dec.bind
  rw [hb]
  show (match d i' with
    | (.ok a, i1) => Dec.pure (some a) i1
    | (.err e, i1) => (.err e, i1)
    | (.panic p, i1) => (.panic p, i1)
    | (.ub u, i1) => (.ub u, i1)) = _
  generalize d i' = q
  obtain ⟨r, i1⟩ := q
  cases r <;> rfl

theorem chain_step (n : Nat) (i i' : Input) (hb : decBool i = (.ok true, i')) :
    (unroll chainDecls (n + 1) 0).decode i
      = (((((unroll chainDecls n 0).decode i').1.map some).mapErr DecErr.toGeneric).map
          (fun v => (v, ())), ((unroll chainDecls n 0).decode i').2) := by
  refine (single_decode (.option (.wrap .box (unroll chainDecls n 0))) i).trans ?_
  have h : (Ty.option (.wrap .box (unroll chainDecls n 0))).decode i = _ :=
    decOption_true (unroll chainDecls n 0).decode i i' hb
  rw [h]
  rfl

theorem chain_replicate (n : Nat) (pre rest : List Byte) :
    pre ++ (List.replicate (n + 1) 1 ++ rest) = (pre ++ [1]) ++ (List.replicate n 1 ++ rest) := by
  rw [List.replicate_succ]
  simp

theorem chain_one (n : Nat) (pre rest : List Byte) :
    decBool ⟨pre ++ (List.replicate (n + 1) 1 ++ rest), pre.length⟩
      = (.ok true, ⟨(pre ++ [1]) ++ (List.replicate n 1 ++ rest), (pre ++ [1]).length⟩) := by
  have h := decBool_decodes true pre (List.replicate n 1 ++ rest)
  rw [chain_replicate, List.length_append, List.append_assoc]
  exact h

theorem chain_deep (n : Nat) : ∀ pre rest : List Byte,
    ((unroll chainDecls n 0).decode ⟨pre ++ (List.replicate n 1 ++ rest), pre.length⟩).1
      = .panic .infallible := by
  induction n with
  | zero => intro pre rest; rfl
  | succ n ih =>
    intro pre rest
    rw [chain_step n _ _ (chain_one n pre rest)]
    simp only [ih (pre ++ [1]) rest]
    rfl

/-- `n` links. -/
def chainVal : (n : Nat) → (unroll chainDecls (n + 1) 0).Val
  | 0 => (none, ())
  | n + 1 => (some (chainVal n), ())

theorem chain_decode (n : Nat) : ∀ pre rest : List Byte,
    (unroll chainDecls (n + 1) 0).decode ⟨pre ++ (List.replicate n 1 ++ 0 :: rest), pre.length⟩
      = (.ok (chainVal n), ⟨pre ++ (List.replicate n 1 ++ 0 :: rest), pre.length + (n + 1)⟩) := by
  induction n with
  | zero =>
    intro pre rest
    exact Ty.decode_decodes (unroll chainDecls 1 0) (unroll_wf chainDecls_well 1 0) (none, ())
      ⟨trivial, trivial⟩ ⟨trivial, trivial⟩ pre rest
  | succ n ih =>
    intro pre rest
    refine (chain_step (n + 1) _ _ (chain_one n pre (0 :: rest))).trans ?_
    rw [ih (pre ++ [1]) rest, chain_replicate, List.length_append]
    simp only [List.length_singleton, Nat.add_assoc, Nat.add_comm 1]
    rfl

/-- C94 is false: one octet of input more takes one nested call more. For each depth there is a
valid encoding, one octet longer than the depth, on which decoding
`struct Chain { next: Option<Box<Chain>> }` nests deeper. -/
theorem C94_false_chain :
    ∃ D : Decls, WellDeclared D ∧ ∀ n : Nat, ∃ (input : List Byte) (v : (unroll D (n + 1) 0).Val),
      input.length = n + 1 ∧
      ((unroll D n 0).decode (Input.new input)).1 = .panic .infallible ∧
      (unroll D (n + 1) 0).decode (Input.new input) = (.ok v, ⟨input, n + 1⟩) := by
  refine ⟨chainDecls, chainDecls_well, fun n => ⟨List.replicate n 1 ++ [0], chainVal n, by simp,
    ?_, ?_⟩⟩
  · exact chain_deep n [] [0]
  · have h := chain_decode n [] []
    rw [List.length_nil, Nat.zero_add] at h
    exact h

/-- C95. What one value of a recursive type is encoded as is a prefix of what another is encoded as
only if the two values are the same, whatever their depths. Missing: as for C09. -/
theorem C95_recursive_prefix_free_partial (D : Decls) (hD : WellDeclared D) (n j k : Nat)
    (v : (unroll D n k).Val) (w : (unroll D (n + j) k).Val) (hv : Supported (unroll D n k) v)
    (hw : Supported (unroll D (n + j) k) w) (o o' p p' : Output) (ho : o.position ≤ o.capacity)
    (hp : p.position ≤ p.capacity) (h1 : (unroll D n k).encode v o = (.ok (), o'))
    (h2 : (unroll D (n + j) k).encode w p = (.ok (), p'))
    (hpre : o'.asSlice.drop o.position <+: p'.asSlice.drop p.position ∨
      p'.asSlice.drop p.position <+: o'.asSlice.drop o.position) :
    o'.asSlice.drop o.position = p'.asSlice.drop p.position ∧
      raise D n j k (carried (unroll D n k) v) = carried (unroll D (n + j) k) w := by
  have e1 := Ty.encode_ok (unroll D n k) v ho h1
  have e2 := Ty.encode_ok (unroll D (n + j) k) w hp h2
  rw [Ty.encode_ok_drop (unroll D n k) v ho h1, Ty.encode_ok_drop (unroll D (n + j) k) w hp h2]
    at hpre ⊢
  have d1 : ∀ rest, (unroll D (n + j) k).decode ⟨wire (unroll D n k) v ++ rest, 0⟩
      = (.ok (raise D n j k (carried (unroll D n k) v)),
        ⟨wire (unroll D n k) v ++ rest, (wire (unroll D n k) v).length⟩) := by
    intro rest
    have h := Ty.decode_decodes (unroll D n k) (unroll_wf hD n k) v hv e1.1 [] rest
    simp only [List.nil_append, List.length_nil, Nat.zero_add] at h
    rw [unroll_upTo D n k _ (Nat.zero_le _) (by rw [h]; simp) j, h]
    rfl
  have d2 : ∀ rest, (unroll D (n + j) k).decode ⟨wire (unroll D (n + j) k) w ++ rest, 0⟩
      = (.ok (carried (unroll D (n + j) k) w),
        ⟨wire (unroll D (n + j) k) w ++ rest, (wire (unroll D (n + j) k) w).length⟩) := by
    intro rest
    have h := Ty.decode_decodes (unroll D (n + j) k) (unroll_wf hD (n + j) k) w hw e2.1 [] rest
    simp only [List.nil_append, List.length_nil, Nat.zero_add] at h
    exact h
  generalize hx : wire (unroll D n k) v = x at *
  generalize hy : wire (unroll D (n + j) k) w = y at *
  have key : ∀ (a b : List Byte), x ++ a = y ++ b → x.length = y.length ∧
      raise D n j k (carried (unroll D n k) v) = carried (unroll D (n + j) k) w := by
    intro a b hab
    have g1 := d1 a
    rw [hab, d2 b] at g1
    obtain ⟨hr, hi⟩ := Prod.mk.inj g1
    exact ⟨(Input.mk.inj hi).2.symm, (Res.ok.inj hr).symm⟩
  rcases hpre with ⟨rest, hrest⟩ | ⟨rest, hrest⟩
  · have hk := key rest [] (by rw [hrest, List.append_nil])
    have : rest = [] := by
      have := congrArg List.length hrest
      rw [List.length_append] at this
      exact List.length_eq_zero_iff.mp (by omega)
    rw [this, List.append_nil] at hrest
    exact ⟨hrest, hk.2⟩
  · have hk := key [] rest (by rw [hrest, List.append_nil])
    have : rest = [] := by
      have := congrArg List.length hrest
      rw [List.length_append] at this
      exact List.length_eq_zero_iff.mp (by omega)
    rw [this, List.append_nil] at hrest
    exact ⟨hrest.symm, hk.2⟩

example : ∃ o' p', (unroll chainDecls 1 0).encode (chainVal 0) (Output.new [0]) = (.ok (), o') ∧
    (unroll chainDecls 2 0).encode (chainVal 1) (Output.new [0, 0]) = (.ok (), p') ∧
    Supported (unroll chainDecls 1 0) (chainVal 0) ∧ Supported (unroll chainDecls 2 0) (chainVal 1) :=
  ⟨⟨[0], 1⟩, ⟨[1, 0], 2⟩, rfl, rfl, ⟨trivial, trivial⟩, ⟨⟨trivial, trivial⟩, trivial⟩⟩

/-- C95, also for sized slices that decoding does not read back: `raise` is the value as one of a
type of greater depth, and is encoded alike. Missing: values with hash maps or sets in them. -/
theorem C95_delimited_partial (D : Decls) (hD : WellDeclared D) (n j k : Nat)
    (v : (unroll D n k).Val) (w : (unroll D (n + j) k).Val)
    (hv : Delimited (unroll D (n + j) k) (raise D n j k v))
    (hw : Delimited (unroll D (n + j) k) w) (o o' p p' : Output) (ho : o.position ≤ o.capacity)
    (hp : p.position ≤ p.capacity) (h1 : (unroll D n k).encode v o = (.ok (), o'))
    (h2 : (unroll D (n + j) k).encode w p = (.ok (), p'))
    (hpre : o'.asSlice.drop o.position <+: p'.asSlice.drop p.position ∨
      p'.asSlice.drop p.position <+: o'.asSlice.drop o.position) :
    o'.asSlice.drop o.position = p'.asSlice.drop p.position ∧
      carried (unroll D (n + j) k) (raise D n j k v) = carried (unroll D (n + j) k) w := by
  rw [← raise_encode D n k v j] at h1
  rcases hpre with h | h
  · exact C12_prefix_free_partial _ (unroll_wf hD _ _) _ _ hv hw o o' p p' ho hp h1 h2 h
  · obtain ⟨h3, h4⟩ := C12_prefix_free_partial _ (unroll_wf hD _ _) _ _ hw hv p p' o o' hp ho h2 h1 h
    exact ⟨h3.symm, h4.symm⟩

/-- `struct Few { items: SizedSlice<u8, 4>, next: Option<Box<Few>> }` -/
def fewDecls : Decls := fun _ =>
  .struct (.cons (.plain (.sizedSlice (.num (.int .u8)) 4)) (.cons (.option (.wrap .box (.named 0))) .nil))

example : Delimited (unroll fewDecls 2 0) (raise fewDecls 1 1 0 (⟨[7#8], by decide⟩, none, ())) ∧
    ∃ o', (unroll fewDecls 1 0).encode (⟨[7#8], by decide⟩, none, ()) (Output.new [0, 0, 0, 0])
      = (.ok (), o') := ⟨⟨fun _ _ => trivial, trivial, trivial⟩, _, rfl⟩

/-- C95 is false where C12 is: hash sets. -/
theorem C95_false_hash_set :
    ∃ (D : Decls) (n : Nat) (v w : (unroll D n 0).Val) (o' : Output), WellDeclared D ∧ v ≠ w ∧
      (unroll D n 0).encode v (Output.new [0, 0]) = (.ok (), o') ∧
      (unroll D n 0).encode w (Output.new [0, 0]) = (.ok (), o') := by
  refine ⟨fun _ => .struct (.cons (.plain (.hashSet (.num (.int .u8))))
      (.cons (.plain (.hashSet (.num (.int .u8)))) (.cons (.option (.wrap .box (.named 0))) .nil))), 1,
    (⟨[1#8], by decide⟩, ⟨[], by simp⟩, none, ()), (⟨[], by simp⟩, ⟨[1#8], by decide⟩, none, ()),
    ⟨[1, 0], 2⟩, fun _ => ⟨trivial, trivial, trivial, trivial⟩, ?_, rfl, rfl⟩
  intro h
  cases congrArg Subtype.val (Prod.mk.inj h).1

end Oct.Props
