import Verif.Proofs.Outcome
import Verif.Proofs.EncodesTo
import Verif.Props.Samples
/-
C03-C08: what encoding writes and returns.
-/
namespace Oct.Props
open Oct Spec

/-- C03. Encoding an encodable value into a stream with enough room succeeds, appends exactly the
octets that the format assigns to the value, and touches nothing else. -/
theorem C03_encode_exact (t : Ty) (v : t.Val) (hv : Encodable t v) (o : Output)
    (ho : o.position ≤ o.capacity) (hroom : (wire t v).length ≤ o.remaining) :
    ∃ o', t.encode v o = (.ok (), o') ∧
      o'.position = o.position + (wire t v).length ∧ o'.capacity = o.capacity ∧
      o'.asSlice = o.asSlice ++ wire t v ∧
      o'.buf.drop o'.position = o.buf.drop o'.position :=
  ⟨o.put (wire t v), ((Ty.encode_encodes t v).emits hv o ho).1 hroom, Output.put_obs ho hroom⟩

example : Encodable sampleTy sampleVal ∧
    (wire sampleTy sampleVal).length ≤ (⟨List.replicate 10 0xFF, 2⟩ : Output).remaining :=
  ⟨sample_encodable, by decide⟩
example : sampleTy.encode sampleVal ⟨List.replicate 10 0xFF, 2⟩
    = (.ok (), ⟨[0xFF, 0xFF, 1, 0x34, 0x12, 2, 0, 7, 8, 0xFF], 9⟩) := by decide

/-- C03. The numbers: each integer is encoded as the octets of its width, the least significant first,
in two's complement if it is signed; floats as those of their bits. -/
theorem C03_numbers :
    (∀ x : BitVec 8, EncodesTo (.num (.int .u8)) (show BitVec 8 from x) (leBytes 1 x.toNat)) ∧
    (∀ x : BitVec 16, EncodesTo (.num (.int .u16)) (show BitVec 16 from x) (leBytes 2 x.toNat)) ∧
    (∀ x : BitVec 32, EncodesTo (.num (.int .u32)) (show BitVec 32 from x) (leBytes 4 x.toNat)) ∧
    (∀ x : BitVec 64, EncodesTo (.num (.int .u64)) (show BitVec 64 from x) (leBytes 8 x.toNat)) ∧
    (∀ x : BitVec 128, EncodesTo (.num (.int .u128)) (show BitVec 128 from x) (leBytes 16 x.toNat)) ∧
    (∀ x : BitVec 8, EncodesTo (.num (.int .i8)) (show BitVec 8 from x) (leBytesInt 1 x.toInt)) ∧
    (∀ x : BitVec 16, EncodesTo (.num (.int .i16)) (show BitVec 16 from x) (leBytesInt 2 x.toInt)) ∧
    (∀ x : BitVec 32, EncodesTo (.num (.int .i32)) (show BitVec 32 from x) (leBytesInt 4 x.toInt)) ∧
    (∀ x : BitVec 64, EncodesTo (.num (.int .i64)) (show BitVec 64 from x) (leBytesInt 8 x.toInt)) ∧
    (∀ x : BitVec 128, EncodesTo (.num (.int .i128)) (show BitVec 128 from x) (leBytesInt 16 x.toInt)) ∧
    (∀ x : BitVec 32, EncodesTo (.num .f32) (show BitVec 32 from x) (leBytes 4 x.toNat)) ∧
    (∀ x : BitVec 64, EncodesTo (.num .f64) (show BitVec 64 from x) (leBytes 8 x.toNat)) := by
  have h : ∀ (k : NumKind) (x : (Ty.num k).Val), EncodesTo (.num k) x (wire (.num k) x) :=
    fun k x => encodesTo' (t := .num k) (v := x) trivial rfl
  refine ⟨fun x => h _ _, fun x => h _ _, fun x => h _ _, fun x => h _ _, fun x => h _ _,
    fun x => ?_, fun x => ?_, fun x => ?_, fun x => ?_, fun x => ?_, fun x => h _ _, fun x => h _ _⟩
  · rw [leBytesInt_toInt (n := 1)]; exact h _ _
  · rw [leBytesInt_toInt (n := 2)]; exact h _ _
  · rw [leBytesInt_toInt (n := 4)]; exact h _ _
  · rw [leBytesInt_toInt (n := 8)]; exact h _ _
  · rw [leBytesInt_toInt (n := 16)]; exact h _ _

example : EncodesTo (.num (.int .i64)) (show BitVec 64 from (-2 : BitVec 64))
    [0xFE, 0xFF, 0xFF, 0xFF, 0xFF, 0xFF, 0xFF, 0xFF] := by
  have h := C03_numbers.2.2.2.2.2.2.2.2.1 (-2)
  have e : leBytesInt 8 (-2 : BitVec 64).toInt
    = [0xFE, 0xFF, 0xFF, 0xFF, 0xFF, 0xFF, 0xFF, 0xFF] := by decide +kernel
  rwa [e] at h

/-- C04. Encoding an encodable value into a stream that is too small panics, after appending a proper
prefix of the encoding and touching nothing else. -/
theorem C04_encode_too_small (t : Ty) (v : t.Val) (hv : Encodable t v) (o : Output)
    (ho : o.position ≤ o.capacity) (hroom : o.remaining < (wire t v).length) :
    ∃ w o', t.encode v o = (.panic .shortOutput, o') ∧ w <+: wire t v ∧
      w.length < (wire t v).length ∧
      o'.position = o.position + w.length ∧ o'.capacity = o.capacity ∧
      o'.asSlice = o.asSlice ++ w ∧
      o'.buf.drop o'.position = o.buf.drop o'.position := by
  obtain ⟨w, hp, hl, he⟩ := ((Ty.encode_encodes t v).emits hv o ho).2 hroom
  exact ⟨w, o.put w, he, hp, by omega, Output.put_obs ho hl⟩

/-- C04, with C03: encoding an encodable value succeeds if and only if its encoding fits. -/
theorem C04_encode_ok_iff_fits (t : Ty) (v : t.Val) (hv : Encodable t v) (o : Output)
    (ho : o.position ≤ o.capacity) :
    (t.encode v o).1 = .ok () ↔ (wire t v).length ≤ o.remaining := by
  constructor
  · intro h
    apply Nat.not_lt.mp
    intro hlt
    obtain ⟨w, o', he, _⟩ := C04_encode_too_small t v hv o ho hlt
    rw [he] at h
    cases h
  · intro h
    obtain ⟨o', he, _⟩ := C03_encode_exact t v hv o ho h
    rw [he]

example : Encodable sampleTy sampleVal ∧
    (⟨List.replicate 5 0xFF, 0⟩ : Output).remaining < (wire sampleTy sampleVal).length :=
  ⟨sample_encodable, by decide⟩
example : sampleTy.encode sampleVal ⟨List.replicate 6 0xFF, 0⟩
    = (.panic .shortOutput, ⟨[1, 0x34, 0x12, 2, 0, 7], 6⟩) := by decide

/-- C05. For every value there is an amount of room from which on encoding succeeds if the value is
encodable and otherwise returns an error, the one exception being a value with the `SystemTime` of
exactly `-2^63` seconds in it (overflow checks on), for which it may panic instead. It is never
undefined. -/
theorem C05_error_iff_unencodable (t : Ty) (v : t.Val) :
    ∃ k, ∀ o : Output, o.position ≤ o.capacity → k ≤ o.remaining →
      (Encodable t v → (t.encode v o).1 = .ok ()) ∧
      (¬ Encodable t v → (∃ e, (t.encode v o).1 = .err e) ∨
        ((t.encode v o).1 = .panic .arithmeticOverflow ∧ ¬ AllParts NotMinTime t v)) := by
  obtain ⟨w1, r1, h1, hr1, _⟩ := Ty.encode_encodes t v
  by_cases hm : AllParts NotMinTime t v
  · obtain ⟨w2, r2, h2, hr2⟩ := Ty.encode_quiet (Pn := fun _ => False) t v (.inr hm)
    refine ⟨max w1.length w2.length, fun o ho hk => ?_⟩
    have e1 := (h1 o ho).1 (by omega)
    have e2 := (h2 o ho).1 (by omega)
    have : r1 = r2 := by rw [e1] at e2; exact (Prod.mk.inj e2).1
    subst this
    rw [e1]
    refine ⟨fun hv => hr1.2 hv, fun hv => .inl ?_⟩
    cases r1 with
    | ok u => exact absurd (hr1.1 rfl) hv
    | err e => exact ⟨e, rfl⟩
    | panic p => exact hr2.elim
    | ub u => exact hr2.elim
  · obtain ⟨w2, r2, h2, hr2⟩ := Ty.encode_quiet (Pn := (· = .arithmeticOverflow)) t v (.inl rfl)
    refine ⟨max w1.length w2.length, fun o ho hk => ?_⟩
    have e1 := (h1 o ho).1 (by omega)
    have e2 := (h2 o ho).1 (by omega)
    have : r1 = r2 := by rw [e1] at e2; exact (Prod.mk.inj e2).1
    subst this
    rw [e1]
    refine ⟨fun hv => hr1.2 hv, fun hv => ?_⟩
    cases r1 with
    | ok u => exact absurd (hr1.1 rfl) hv
    | err e => exact .inl ⟨e, rfl⟩
    | panic p => cases (show p = .arithmeticOverflow from hr2); exact .inr ⟨rfl, hm⟩
    | ub u => exact hr2.elim

/-- C05, the other half: an encodable value never gives an error, however small the stream. -/
theorem C05_encodable_never_err (t : Ty) (v : t.Val) (hv : Encodable t v) (o : Output)
    (ho : o.position ≤ o.capacity) (e : EncErr) : (t.encode v o).1 ≠ .err e := by
  by_cases h : (wire t v).length ≤ o.remaining
  · obtain ⟨o', he, _⟩ := C03_encode_exact t v hv o ho h
    rw [he]; intro h; cases h
  · obtain ⟨w, o', he, _⟩ := C04_encode_too_small t v hv o ho (by omega)
    rw [he]; intro h; cases h

-- Unencodable values, with their errors.
example : (Ty.option .usize).encode (some (65536 : Nat)) (Output.new (List.replicate 9 0))
    = (.err (.usize 65536), ⟨[1, 0, 0, 0, 0, 0, 0, 0, 0], 1⟩) := by decide
example : ¬ Encodable (.option .usize) (some (65536 : Nat)) ∧
    AllParts NotMinTime (.option .usize) (some (65536 : Nat)) :=
  ⟨by simp [Encodable], trivial, trivial⟩
example : ¬ Encodable (.refCell .bool) ⟨true, false⟩ := by simp [Encodable]

/-- C06. A collection or text of more than 65535 elements is rejected with its exact length before
anything is written, whatever the stream. -/
theorem C06_oversized_rejected (t : Ty) (n : Nat) (o : Output) :
    (∀ (k : SeqKind) (v : (Ty.seq k t).Val), 65535 < List.length v →
      (Ty.seq k t).encode v o = (.err (.badLength (.usize (List.length v))), o)) ∧
    (∀ (v : (Ty.sizedSlice t n).Val), 65535 < v.val.length →
      (Ty.sizedSlice t n).encode v o = (.err (.badLength (.usize v.val.length)), o)) ∧
    (∀ (k : StrKind) (v : (Ty.str k).Val), 65535 < v.val.length →
      (Ty.str k).encode v o = (.err (.badLength (.usize v.val.length)), o)) ∧
    (∀ (k : CStrKind) (v : (Ty.cStr k).Val), 65535 < v.val.length →
      (Ty.cStr k).encode v o = (.err (.badLength (.usize v.val.length)), o)) ∧
    (∀ (v : (Ty.sizedStr n).Val), 65535 < v.val.length →
      (Ty.sizedStr n).encode v o = (.err (.badLength (.usize v.val.length)), o)) := by
  have hs : ∀ {α : Type} (enc : α → Enc Unit) (l : List α), 65535 < l.length →
      encSlice enc l o = (.err (.badLength (.usize l.length)), o) := by
    intro α enc l hl
    show Enc.bind ((encUsize l.length).mapErr .badLength) _ o = _
    unfold Enc.bind Enc.mapErr encUsize
    rw [if_neg (by omega)]
    rfl
  have hl : ∀ {α : Type} (enc : α → Enc Unit) (l : List α), 65535 < l.length →
      encLinkedList enc l o = (.err (.badLength (.usize l.length)), o) := by
    intro α enc l hl
    show Enc.bind ((encUsize l.length).mapErr .badLength) _ o = _
    unfold Enc.bind Enc.mapErr encUsize
    rw [if_neg (by omega)]
    rfl
  refine ⟨?_, fun v h => hs _ _ h, fun k v h => hs _ _ h, fun k v h => hs _ _ h,
    fun v h => hs _ _ h⟩
  intro k v h
  cases k
  · exact hs _ _ h
  · exact hs _ _ h
  · exact hl _ _ h

/-- C06, the other half: with at most 65535 elements, the error is never one about the length. -/
theorem C06_length_not_the_reason (t : Ty) (n : Nat) (o : Output) (e : EncErr) :
    (∀ (k : SeqKind) (v : (Ty.seq k t).Val), List.length v ≤ 65535 →
      ((Ty.seq k t).encode v o).1 ≠ .err (.badLength e)) ∧
    (∀ (v : (Ty.sizedSlice t n).Val), v.val.length ≤ 65535 →
      ((Ty.sizedSlice t n).encode v o).1 ≠ .err (.badLength e)) ∧
    (∀ (k : StrKind) (v : (Ty.str k).Val), v.val.length ≤ 65535 →
      ((Ty.str k).encode v o).1 ≠ .err (.badLength e)) ∧
    (∀ (k : CStrKind) (v : (Ty.cStr k).Val), v.val.length ≤ 65535 →
      ((Ty.cStr k).encode v o).1 ≠ .err (.badLength e)) ∧
    (∀ (v : (Ty.sizedStr n).Val), v.val.length ≤ 65535 →
      ((Ty.sizedStr n).encode v o).1 ≠ .err (.badLength e)) := by
  have key : ∀ {α : Type} (enc : α → Enc Unit) (wrap : Nat → EncErr → EncErr) (l : List α),
      (∀ i e e', wrap i e ≠ .badLength e') →
      l.length ≤ 65535 →
      (Enc.bind ((encUsize l.length).mapErr .badLength) (fun _ => encItems enc wrap 0 l) o).1
        ≠ .err (.badLength e) := by
    intro α enc wrap l hw hl hc
    unfold Enc.bind Enc.mapErr encUsize at hc
    rw [if_pos hl] at hc
    have hne : ∀ e', (encNum 2 l.length o).1 ≠ .err e' := by
      intro e' he
      unfold encNum Enc.write at he
      split at he <;> cases he
    generalize hr : encNum 2 l.length o = r at hc hne
    obtain ⟨r, o1⟩ := r
    cases r with
    | ok u =>
      obtain ⟨j, e', he⟩ := encItems_err enc wrap l 0 o1 _ hc
      exact hw _ _ _ he.symm
    | err e' => exact hne e' rfl
    | panic p => cases hc
    | ub u => cases hc
  have hs : ∀ {α : Type} (enc : α → Enc Unit) (l : List α), l.length ≤ 65535 →
      (encSlice enc l o).1 ≠ .err (.badLength e) :=
    fun enc l h => key enc _ l (fun _ _ _ => by simp) h
  refine ⟨fun k v h => ?_, fun v h => hs _ _ h, fun k v h => hs _ _ h, fun k v h => hs _ _ h,
    fun v h => hs _ _ h⟩
  cases k
  · exact hs t.encode v h
  · exact hs t.encode v h
  · exact key t.encode _ v (fun _ _ _ => by simp) h

example : 65535 < List.length (show (Ty.seq .vec .bool).Val from List.replicate 65536 true) := by
  rw [show List.length (show (Ty.seq .vec .bool).Val from List.replicate 65536 true) = 65536 from
    List.length_replicate]
  decide
example : List.length (show (Ty.seq .vec .usize).Val from ([1, 70000] : List Nat)) ≤ 65535 := by decide

/-- C07, slices, vectors and linked lists. If the length is encodable, all items of `pre` are, and
encoding `x` at its place in the stream returns the error `e`, then the whole encoding returns
the item error with the index of `x` and `e`, and the stream is as `x` left it: the length and all
of `pre` have been written before. -/
theorem C07_first_bad_item_seq (k : SeqKind) (t : Ty) (pre post : List t.Val) (x : t.Val)
    (hlen : (pre ++ x :: post).length ≤ 65535) (hpre : ∀ y ∈ pre, Encodable t y)
    (o : Output) (ho : o.position ≤ o.capacity)
    (hroom : 2 + (pre.flatMap (wire t)).length ≤ o.remaining) :
    ∃ o1 : Output, o1.position ≤ o1.capacity ∧ o1.capacity = o.capacity ∧
      o1.asSlice = o.asSlice ++ leBytes 2 (pre ++ x :: post).length ++ pre.flatMap (wire t) ∧
      o1.buf.drop o1.position = o.buf.drop o1.position ∧
      ∀ e o2, t.encode x o1 = (.err e, o2) →
        (Ty.seq k t).encode (pre ++ x :: post) o =
          (.err (.badItem (match k with
            | .linkedList => .pair pre.length e
            | _ => .item pre.length e)), o2) := by
  have h2 : (leBytes 2 (pre ++ x :: post).length).length = 2 := leBytes_length _ _
  have hu : Emits (encUsize (pre ++ x :: post).length) (leBytes 2 (pre ++ x :: post).length)
      (.ok ()) := (encUsize_encodes _).emits hlen
  have hwf1 : (o.put (leBytes 2 (pre ++ x :: post).length)).WF := Output.WF.put ho (by omega)
  have hrem1 : (o.put (leBytes 2 (pre ++ x :: post).length)).remaining = o.remaining - 2 := by
    rw [Output.remaining_put ho (by omega), h2]
  have hput := Output.put_put (w := leBytes 2 (pre ++ x :: post).length)
    (w' := pre.flatMap (wire t)) ho (by omega)
  have hobs := Output.put_obs ho
    (w := leBytes 2 (pre ++ x :: post).length ++ pre.flatMap (wire t))
    (by rw [List.length_append]; omega)
  have key : ∀ (wrap : Nat → EncErr → EncErr) e o2,
      t.encode x (o.put (leBytes 2 (pre ++ x :: post).length ++ pre.flatMap (wire t)))
        = (.err e, o2) →
      Enc.bind ((encUsize (pre ++ x :: post).length).mapErr .badLength)
        (fun _ => encItems t.encode wrap 0 (pre ++ x :: post)) o
        = (.err (wrap pre.length e), o2) := by
    intro wrap e o2 hx
    unfold Enc.bind Enc.mapErr
    rw [(hu o ho).1 (by omega)]
    simp only [Res.mapErr_ok]
    have := encItems_append t.encode wrap (wire t) pre post x 0 _ hwf1
      (fun y hy => (Ty.encode_encodes t y).emits (hpre y hy)) (by omega) e o2 (by rw [hput]; exact hx)
    rw [this, Nat.zero_add]
  refine ⟨o.put (leBytes 2 (pre ++ x :: post).length ++ pre.flatMap (wire t)),
    Output.WF.put ho (by rw [List.length_append]; omega), hobs.2.1, ?_, hobs.2.2.2, ?_⟩
  · rw [hobs.2.2.1, List.append_assoc]
  · intro e o2 hx
    cases k
    · exact key _ e o2 hx
    · exact key _ e o2 hx
    · exact key _ e o2 hx

/-- C07, arrays. -/
theorem C07_first_bad_item_array (t : Ty) (n : Nat) (pre post : List t.Val) (x : t.Val)
    (hn : (pre ++ x :: post).length = n) (hpre : ∀ y ∈ pre, Encodable t y)
    (o : Output) (ho : o.position ≤ o.capacity)
    (hroom : (pre.flatMap (wire t)).length ≤ o.remaining) :
    ∃ o1 : Output, o1.position ≤ o1.capacity ∧ o1.capacity = o.capacity ∧
      o1.asSlice = o.asSlice ++ pre.flatMap (wire t) ∧
      o1.buf.drop o1.position = o.buf.drop o1.position ∧
      ∀ e o2, t.encode x o1 = (.err e, o2) →
        (Ty.array t n).encode ⟨pre ++ x :: post, hn⟩ o
          = (.err (.badItem (.item pre.length e)), o2) := by
  have hobs := Output.put_obs ho (w := pre.flatMap (wire t)) hroom
  refine ⟨o.put (pre.flatMap (wire t)), Output.WF.put ho hroom, hobs.2.1, hobs.2.2.1, hobs.2.2.2, ?_⟩
  intro e o2 hx
  have := encItems_append t.encode (fun i e => .badItem (.item i e)) (wire t) pre post x 0 o ho
    (fun y hy => (Ty.encode_encodes t y).emits (hpre y hy)) hroom e o2 hx
  rw [Nat.zero_add] at this
  exact this

-- The second item is the first bad one; a later bad item does not matter.
example : (Ty.seq .vec .usize).encode (show (Ty.seq .vec .usize).Val from ([1] ++ 70000 :: [80000] : List Nat)) (Output.new [9, 9, 9, 9, 9])
    = (.err (.badItem (.item 1 (.usize 70000))), ⟨[3, 0, 1, 0, 9], 4⟩) := by decide
example : ∃ e o2, Ty.usize.encode (70000 : Nat) ⟨[3, 0, 1, 0, 9], 4⟩ = (.err e, o2) :=
  ⟨_, _, rfl⟩

/-- C08, `usize`. -/
theorem C08_usize (n : Nat) (o : Output) (ho : o.position ≤ o.capacity) (hroom : 2 ≤ o.remaining) :
    ((Ty.usize.encode n o).1 = .ok () ↔ n ≤ 65535) ∧
    (n ≤ 65535 → (Ty.usize.encode n o).2.asSlice = o.asSlice ++ leBytes 2 n) ∧
    (65535 < n → Ty.usize.encode n o = (.err (.usize n), o)) := by
  have hl : (wire .usize n).length = 2 := leBytes_length _ _
  have hfail : 65535 < n → Ty.usize.encode n o = (.err (.usize n), o) := by
    intro h
    show encUsize n o = _
    unfold encUsize; rw [if_neg (by omega)]; rfl
  refine ⟨⟨fun h => ?_, fun h => ?_⟩, fun h => ?_, hfail⟩
  · apply Nat.not_lt.mp
    intro hn
    rw [hfail hn] at h; cases h
  · obtain ⟨o', he, _⟩ := C03_encode_exact .usize n h o ho (by omega)
    rw [he]
  · obtain ⟨o', he, _, _, ha, _⟩ := C03_encode_exact .usize n h o ho (by omega)
    rw [he]; exact ha

/-- C08, `isize`. -/
theorem C08_isize (x : Int) (o : Output) (ho : o.position ≤ o.capacity) (hroom : 2 ≤ o.remaining) :
    ((Ty.isize.encode x o).1 = .ok () ↔ -32768 ≤ x ∧ x ≤ 32767) ∧
    (-32768 ≤ x ∧ x ≤ 32767 → (Ty.isize.encode x o).2.asSlice = o.asSlice ++ leBytesInt 2 x) ∧
    (¬ (-32768 ≤ x ∧ x ≤ 32767) → Ty.isize.encode x o = (.err (.isize x), o)) := by
  have hl : (wire .isize x).length = 2 := leBytes_length _ _
  have hfail : ¬ (-32768 ≤ x ∧ x ≤ 32767) → Ty.isize.encode x o = (.err (.isize x), o) := by
    intro h
    show encIsize x o = _
    unfold encIsize; rw [if_neg h]; rfl
  refine ⟨⟨fun h => ?_, fun h => ?_⟩, fun h => ?_, hfail⟩
  · apply Classical.byContradiction
    intro hn
    rw [hfail hn] at h; cases h
  · obtain ⟨o', he, _⟩ := C03_encode_exact .isize x h o ho (by omega)
    rw [he]
  · obtain ⟨o', he, _, _, ha, _⟩ := C03_encode_exact .isize x h o ho (by omega)
    rw [he]; exact ha

example : (2 : Nat) ≤ (Output.new [0, 0]).remaining := by decide
example : Ty.isize.encode (-2 : Int) (Output.new [0, 0]) = (.ok (), ⟨[0xFE, 0xFF], 2⟩) := by decide

end Oct.Props
