import Verif.Proofs.Benchmark
/-
C98, C99: the benchmarks.
-/
namespace Oct.Props
open Oct Spec

/-- The octets of an array of octets. -/
def benchOctets (l : List (BitVec 8)) : List UInt8 := l.map fun b => UInt8.ofNat b.toNat

/-- C98. The blocks that encode finish, whatever values are drawn and however many, and their buffer
is exactly filled by the values in the order in which they were drawn. -/
theorem C98_benchmarks_encode (sizeOf : Ty → Nat) :
    (∀ l : List (BitVec 8), Fills (benchEncode (.num (.int .u8)) (Ty.maxSize sizeOf (.num (.int .u8))) l)
      (l.flatMap fun v => leBytes 1 v.toNat)) ∧
    (∀ l : List (BitVec 32), Fills (benchEncode (.num (.int .u32)) (Ty.maxSize sizeOf (.num (.int .u32))) l)
      (l.flatMap fun v => leBytes 4 v.toNat)) ∧
    (∀ l : List (BitVec 128), Fills (benchEncode (.num (.int .u128)) (Ty.maxSize sizeOf (.num (.int .u128))) l)
      (l.flatMap fun v => leBytes 16 v.toNat)) ∧
    (∀ n : Nat, Fills (benchEncode benchUnit (benchUnit.maxSize sizeOf) (List.replicate n ())) []) ∧
    (∀ l : List Char, Fills (benchEncode benchUnnamed (benchUnnamed.maxSize sizeOf) (l.map unnamedFromChar))
      (l.flatMap fun c => leBytes 4 c.toNat)) ∧
    (∀ l : List (BitVec 64), Fills (benchEncode benchNamed (benchNamed.maxSize sizeOf) (l.map namedFromU64))
      (l.flatMap fun v => benchOctets (namedOctets v))) ∧
    (∀ n : Nat, Fills (benchEncode benchEnum (Ty.maxSize sizeOf .isize + benchUnit.maxSize sizeOf)
      (List.replicate n benchEnumUnit)) (List.replicate (2 * n) 0)) := by
  refine ⟨fun l => ?_, fun l => ?_, fun l => ?_, fun n => ?_, fun l => ?_, fun l => ?_, fun n => ?_⟩
  · exact benchEncode_fills (.num (.int .u8)) 1 l fun v _ => ⟨trivial, leBytes_length _ _⟩
  · exact benchEncode_fills (.num (.int .u32)) 4 l fun v _ => ⟨trivial, leBytes_length _ _⟩
  · exact benchEncode_fills (.num (.int .u128)) 16 l fun v _ => ⟨trivial, leBytes_length _ _⟩
  · have := benchEncode_fills benchUnit 0 (List.replicate n ()) fun v _ => ⟨trivial, rfl⟩
    have h0 : (List.replicate n ()).flatMap (fun v => wire benchUnit v) = [] := by
      apply List.flatMap_eq_nil_iff.mpr
      intro x _
      rfl
    rw [← h0]
    exact this
  · have := benchEncode_fills benchUnnamed 4 (l.map unnamedFromChar) fun v _ =>
      ⟨⟨trivial, trivial⟩, by
        show (leBytes 4 _ ++ []).length = 4
        rw [List.append_nil]; exact leBytes_length _ _⟩
    rw [List.flatMap_map] at this
    refine (congrArg (Fills _) ?_).mp this
    congr 1
    funext c
    show leBytes 4 (BitVec.ofNat 32 c.toNat).toNat ++ [] = _
    rw [List.append_nil, BitVec.toNat_ofNat, 
      Nat.mod_eq_of_lt (show c.toNat < 2 ^ 32 from UInt32.toNat_lt c.val)]
  · have hw : ∀ v, wire benchNamed (namedFromU64 v) = benchOctets (namedOctets v) := by
      intro v
      show (namedOctets v).flatMap (fun b => leBytes 1 b.toNat) ++ [] = _
      rw [List.append_nil]
      unfold benchOctets
      generalize namedOctets v = l
      induction l with
      | nil => rfl
      | cons b l ih =>
        rw [List.flatMap_cons, ih, leBytes_one, Nat.mod_eq_of_lt b.isLt]
        rfl
    have := benchEncode_fills benchNamed 8 (l.map namedFromU64) (by
      intro v hv
      obtain ⟨x, _, rfl⟩ := List.mem_map.mp hv
      exact ⟨⟨fun _ _ => trivial, trivial⟩, by rw [hw]; rfl⟩)
    rw [List.flatMap_map] at this
    refine (congrArg (Fills _) ?_).mp this
    exact congrArg (fun f => List.flatMap f l) (funext hw)
  · have := benchEncode_fills benchEnum 2 (List.replicate n benchEnumUnit) (by
      intro v hv
      rw [List.eq_of_mem_replicate hv]
      exact ⟨⟨⟨by decide, by decide⟩, ⟨trivial, trivial⟩⟩, rfl⟩)
    refine (congrArg (Fills _) ?_).mp this
    clear this
    induction n with
    | zero => rfl
    | succ n ih =>
      rw [List.replicate_succ, List.flatMap_cons, ih]
      rfl

example : Fills (benchEncode (.num (.int .u32)) 4 [(7#32 : BitVec 32), 0x102#32])
    [7, 0, 0, 0, 2, 1, 0, 0] := (C98_benchmarks_encode fun _ => 0).2.1 [7#32, 0x102#32]

/-- C98. A block that encodes finishes only if all values have been encoded, and else stops at the first one
that has not: `unwrap` hides nothing. -/
theorem C98_unwraps (t : Ty) (l : List t.Val) (o : Output) :
    ((benchEncodeLoop t l o).1 = .finished → ∀ v ∈ l, ∃ o1 o2, t.encode v o1 = (.ok (), o2)) ∧
    ((benchEncodeLoop t l o).1 ≠ .finished → ∃ v ∈ l, ∃ o1, (t.encode v o1).1 ≠ .ok () ∧
      (benchEncodeLoop t l o) = (match t.encode v o1 with
        | (.ok (), o2) => (.finished, o2)
        | (.err e, o2) => (.unwrapped e, o2)
        | (.panic p, o2) => (.panicked p, o2)
        | (.ub u, o2) => (.undefined u, o2))) := by
  induction l generalizing o with
  | nil => exact ⟨fun _ v hv => absurd hv List.not_mem_nil, fun h => absurd rfl h⟩
  | cons v l ih =>
    have hs : benchEncodeLoop t (v :: l) o = (match t.encode v o with
        | (.ok (), o2) => benchEncodeLoop t l o2
        | (.err e, o2) => (.unwrapped e, o2)
        | (.panic p, o2) => (.panicked p, o2)
        | (.ub u, o2) => (.undefined u, o2)) := rfl
    rw [hs]
    cases he : t.encode v o with
    | mk r o2 =>
      cases r with
      | ok u =>
        obtain ⟨h1, h2⟩ := ih o2
        refine ⟨fun h v' hv' => ?_, fun h => ?_⟩
        · rcases List.mem_cons.mp hv' with rfl | hv'
          · exact ⟨o, o2, he⟩
          · exact h1 h v' hv'
        · obtain ⟨v', hv', o1, h3, h4⟩ := h2 h
          exact ⟨v', List.mem_cons_of_mem _ hv', o1, h3, h4⟩
      | err e =>
        refine ⟨fun h => (by cases h), fun _ => ⟨v, List.mem_cons_self .., o, ?_, ?_⟩⟩
        · rw [he]
          exact fun h => by cases h
        · rw [he]
      | panic e =>
        refine ⟨fun h => (by cases h), fun _ => ⟨v, List.mem_cons_self .., o, ?_, ?_⟩⟩
        · rw [he]
          exact fun h => by cases h
        · rw [he]
      | ub e =>
        refine ⟨fun h => (by cases h), fun _ => ⟨v, List.mem_cons_self .., o, ?_, ?_⟩⟩
        · rw [he]
          exact fun h => by cases h
        · rw [he]

example : (benchEncodeLoop .usize [(70000 : Nat)] (Output.new [0, 0])).1 ≠ .finished := by decide

/-- C98. The blocks that decode finish, whatever values are drawn and however many, and decode the
values that were drawn, in order, up to the end of their buffer. -/
theorem C98_benchmarks_decode (sizeOf : Ty → Nat) (n : Nat) :
    (∀ f : Nat → BitVec 8, Drains (benchDecode (.num (.int .u8)) (fun i => benchOctets [f i])
      (Ty.maxSize sizeOf (.num (.int .u8))) n) ((List.range n).map f)) ∧
    (∀ f : Nat → {x : Int // Repr.InRange (.int .u8) x ∧ x ≠ 0},
      Drains (benchDecode (.nonZero (.int .u8)) (fun i => [UInt8.ofNat (f i).val.toNat])
        (Ty.maxSize sizeOf (.nonZero (.int .u8))) n) ((List.range n).map f)) ∧
    (∀ f : Nat → Bool, Drains (benchDecode .bool (fun i => [if f i = true then 1 else 0])
      (Ty.maxSize sizeOf .bool) n) ((List.range n).map f)) := by
  refine ⟨fun f => ?_, fun f => ?_, fun f => ?_⟩
  · exact benchDecode_drains (.num (.int .u8)) trivial f (fun _ => ⟨trivial, trivial, rfl⟩) _
      (fun i => by
        show [UInt8.ofNat (f i).toNat] = leBytes 1 (f i).toNat
        rw [leBytes_one, Nat.mod_eq_of_lt (f i).isLt]) n
  · exact benchDecode_drains (.nonZero (.int .u8)) trivial f (fun _ => ⟨trivial, trivial, rfl⟩) _
      (fun i => by
        show [UInt8.ofNat (f i).val.toNat] = leBytes 1 ((f i).val % (2 : Int) ^ 8).toNat
        obtain ⟨x, h1, h2⟩ := f i
        have h3 : 0 ≤ x ∧ x < 256 := h1
        have : x % (2 : Int) ^ 8 = x := Int.emod_eq_of_lt h3.1 h3.2
        rw [this, leBytes_one, Nat.mod_eq_of_lt]
        show x.toNat < 256
        omega) n
  · exact benchDecode_drains .bool trivial f (fun _ => ⟨trivial, trivial, rfl⟩) _ (fun i => rfl) n

example : Drains (benchDecode .bool (fun i => [if (i % 2 == 0) = true then 1 else 0]) 1 3)
    [true, false, true] := (C98_benchmarks_decode (fun _ => 0) 3).2.2 fun i => i % 2 == 0

/-- C99. `Named::from_u64` keeps the octets of a number, least significant first, exactly if the
number is less than 256. Missing: all other numbers, see `C99_false_from_u64`. -/
theorem C99_from_u64_partial (v : BitVec 64) :
    (namedOctets v).map BitVec.toNat = (List.range 8).map (octetAt v.toNat) ↔ v.toNat < 256 := by
  rw [namedOctets_nat]
  have hv := v.isLt
  simp only [octetAt, List.range_succ, List.range_zero, List.nil_append, List.cons_append,
    List.map_cons, List.map_nil, List.cons.injEq, and_true]
  omega

/-- C99: what it makes of any number, and so when it makes the same of two numbers. -/
theorem C99_from_u64_exact (v w : BitVec 64) :
    (namedOctets v).map BitVec.toNat = [v.toNat % 256, v.toNat / 256 % 4 * 64, 0, 0, 0, 0, 0, 0] ∧
    (namedOctets v = namedOctets w ↔ v.toNat % 1024 = w.toNat % 1024) := by
  refine ⟨namedOctets_nat v, ?_⟩
  have h : namedOctets v = namedOctets w ↔
      (namedOctets v).map BitVec.toNat = (namedOctets w).map BitVec.toNat :=
    ⟨congrArg _, fun h => (List.map_inj_right fun _ _ h => BitVec.eq_of_toNat_eq h).mp h⟩
  rw [h, namedOctets_nat, namedOctets_nat]
  simp only [List.cons.injEq, and_true]
  omega

/-- C99 is false in general: the shifts are by multiples of two, not of eight, so that `0x10000` is
made the same as zero. -/
theorem C99_false_from_u64 :
    ∃ v w : BitVec 64, v ≠ w ∧ namedFromU64 v = namedFromU64 w ∧
      (namedOctets v).map BitVec.toNat ≠ (List.range 8).map (octetAt v.toNat) :=
  ⟨0x10000#64, 0#64, by decide, by
    show (Prod.mk _ _ : benchNamed.Val) = (Prod.mk _ _ : benchNamed.Val)
    exact congrArg (Prod.mk · ()) (Subtype.ext (by decide)), by decide⟩

end Oct.Props
