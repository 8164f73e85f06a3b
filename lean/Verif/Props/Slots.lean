import Verif.Proofs.Slot
import Verif.Proofs.MaxSize
import Verif.Props.Samples
import Verif.Props.Sizes
/-
C20-C23: slots.
-/
namespace Oct.Props
open Oct Spec
set_option linter.unusedVariables false

/-- C20. Writing an encodable value to a slot made with `Slot::new`, whatever has been done with the
slot in between, succeeds; and reading the slot then returns the value. Missing: types for which
`MAX_ENCODED_SIZE` is too small (C18), and values that do not round trip (C09). -/
theorem C20_new_slot_holds_any_value_partial (sizeOf : Ty → Nat) (t : Ty) (ht : t.HasSized)
    (hs : Everywhere (SizeOk sizeOf) t) (hwf : t.WF) (v : t.Val) (hv : Encodable t v)
    (hsup : Supported t v) (ops : List SlotOp) :
    ∃ s', ((Slot.new sizeOf t).run ops).write t v = (.ok (), s') ∧ s'.read t = .ok (carried t v) := by
  have hc : ((Slot.new sizeOf t).run ops).buf.length = t.maxSize sizeOf := by
    have := (Slot.run_inv ops (Slot.new sizeOf t) (Nat.zero_le _)).1
    have h2 : (Slot.new sizeOf t).capacity = t.maxSize sizeOf := List.length_replicate
    exact this.trans h2
  generalize (Slot.new sizeOf t).run ops = s at hc
  have hl := wire_length_le sizeOf t ht hs v
  have hroom : (wire t v).length ≤ (Output.new s.buf).remaining := by
    show (wire t v).length ≤ s.buf.length - 0
    omega
  have he := ((Ty.encode_encodes t v).emits hv (Output.new s.buf) (Nat.zero_le _)).1 hroom
  refine ⟨_, by rw [Slot.write_eq, he], ?_⟩
  unfold Slot.read
  have hd := Ty.decode_decodes t hwf v hsup hv [] (s.buf.drop (wire t v).length)
  have hb : ((Output.new s.buf).put (wire t v)).buf
      = [] ++ (wire t v ++ s.buf.drop (wire t v).length) := by
    show s.buf.take 0 ++ wire t v ++ s.buf.drop (0 + (wire t v).length) = _
    simp
  show (t.decode (Input.new ((Output.new s.buf).put (wire t v)).buf)).1 = _
  rw [hb]
  exact congrArg Prod.fst hd

example (sizeOf : Ty → Nat) : requestTy.HasSized ∧ Everywhere (SizeOk sizeOf) requestTy ∧
    requestTy.WF :=
  ⟨⟨trivial, trivial, trivial⟩, ⟨trivial, trivial, ⟨trivial, trivial⟩, trivial⟩,
    trivial, trivial, trivial⟩
example : Encodable requestTy (7#32, some ⟨[97, 98], by decide⟩, ()) ∧
    Supported requestTy (7#32, some ⟨[97, 98], by decide⟩, ()) :=
  ⟨⟨trivial, by show (2 : Nat) ≤ 65535; decide, trivial⟩, trivial, trivial, trivial⟩

/-- C20 is false of sized slices: the slot of a `SizedSlice<u8, 1>` is too small for `[7]`. -/
theorem C20_false_sized_slice (sizeOf : Ty → Nat) :
    ∃ (t : Ty) (v : t.Val), t.HasSized ∧ t.WF ∧ Encodable t v ∧
      ((Slot.new sizeOf t).write t v).1 = .panic .shortOutput :=
  ⟨.sizedSlice (.num (.int .u8)) 1, ⟨[7#8], by decide⟩, trivial, trivial,
    ⟨by decide, fun _ _ => trivial⟩, rfl⟩

/-- C20 is false of `Result`s (see `C18_false_result`). -/
theorem C20_false_result (sizeOf : Ty → Nat) (h : sizeOf (.option (.nonZero (.int .u8))) = 1) :
    ∃ (t : Ty) (v : t.Val), t.HasSized ∧ t.WF ∧ Encodable t v ∧
      ((Slot.new sizeOf t).write t v).1 = .panic .shortOutput := by
  refine ⟨.result (.option (.nonZero (.int .u8))) (.option (.nonZero (.int .u8))),
    .ok (some ⟨1, by decide⟩), ⟨trivial, trivial⟩, ⟨trivial, trivial⟩, trivial, ?_⟩
  have : Slot.new sizeOf (.result (.option (.nonZero (.int .u8))) (.option (.nonZero (.int .u8))))
      = Slot.withCapacity 2 := by
    unfold Slot.new
    simp [Ty.maxSize, h]
  rw [this]
  rfl

/-- C21. After any history of safe operations on a slot made with any capacity, failed ones included,
the capacity is the initial one, the length is at most the capacity, and the contents view is defined
and has that length. -/
theorem C21_slot_invariant (cap : Nat) (ops : List SlotOp) :
    ((Slot.withCapacity cap).run ops).capacity = cap ∧
    ((Slot.withCapacity cap).run ops).len ≤ cap ∧
    ∃ l, ((Slot.withCapacity cap).run ops).asSlice = .ok l ∧
      l.length = ((Slot.withCapacity cap).run ops).len := by
  have h := Slot.run_inv ops (Slot.withCapacity cap) (Nat.zero_le _)
  have hc : (Slot.withCapacity cap).capacity = cap := List.length_replicate
  rw [hc] at h
  generalize (Slot.withCapacity cap).run ops = s at h
  refine ⟨h.1, by omega, s.buf.take s.len, ?_, ?_⟩
  · exact if_neg (Nat.not_lt.mpr h.2)
  · rw [List.length_take]; exact Nat.min_eq_left h.2

/-- C21: lengths and data beyond the capacity are refused, with no effect; otherwise they are taken
over exactly. -/
theorem C21_set_len_copy (s : Slot) (n : Nat) (data : List Byte) :
    (s.capacity < n → s.setLen n = (.panic .assertion, s)) ∧
    (n ≤ s.capacity → ∃ s', s.setLen n = (.ok (), s') ∧ s'.buf = s.buf ∧ s'.len = n) ∧
    (s.capacity < data.length → s.copyFromSlice data = (.panic .assertion, s)) ∧
    (data.length ≤ s.capacity → ∃ s', s.copyFromSlice data = (.ok (), s') ∧
      s'.len = data.length ∧ s'.asSlice = .ok data ∧
      s'.buf.drop data.length = s.buf.drop data.length) := by
  refine ⟨?_, ?_, ?_, ?_⟩
  · intro h; exact if_neg (Nat.not_le.mpr h)
  · intro h; exact ⟨_, if_pos h, rfl, rfl⟩
  · intro h; exact if_neg (Nat.not_le.mpr h)
  · intro h
    refine ⟨_, if_pos h, rfl, ?_, ?_⟩
    · unfold Slot.asSlice
      simp only
      rw [if_neg, List.take_left' rfl]
      rw [List.length_append]; omega
    · exact List.drop_left' rfl

/-- C21: emptiness and fullness are those of the contents. -/
theorem C21_is_empty_is_full (s : Slot) (h : s.len ≤ s.capacity) :
    (s.isEmpty = true ↔ s.asSlice = .ok []) ∧
    (s.isFull = true ↔ s.asSlice = .ok s.buf) := by
  have hs : s.asSlice = .ok (s.buf.take s.len) := if_neg (Nat.not_lt.mpr h)
  have h' : s.len ≤ s.buf.length := h
  rw [hs]
  constructor
  · rw [show s.isEmpty = (s.len == 0) from rfl, beq_iff_eq, Res.ok.injEq]
    constructor
    · intro h0; rw [h0]; rfl
    · intro h0
      have := congrArg List.length h0
      rw [List.length_take, List.length_nil] at this
      omega
  · rw [show s.isFull = (s.len == s.buf.length) from rfl, beq_iff_eq, Res.ok.injEq]
    constructor
    · intro h0; rw [h0, List.take_length]
    · intro h0
      have := congrArg List.length h0
      rw [List.length_take] at this
      omega

example : ((Slot.withCapacity 3).run [.write .usize (5 : Nat), .setLen 9, .setByte 2 7, .copyFromSlice [1],
    .write .usize (70000 : Nat), .setLen 3]) = ⟨[1, 0, 7], 3⟩ := by decide

/-- C22. A write succeeds exactly if the value is encodable and its encoding fits, and then the
contents are exactly the encoding, whatever the slot held before. -/
theorem C22_write_exact (s : Slot) (t : Ty) (v : t.Val) :
    ((s.write t v).1 = .ok () ↔ Encodable t v ∧ (wire t v).length ≤ s.capacity) ∧
    ((s.write t v).1 = .ok () → (s.write t v).2.asSlice = .ok (wire t v) ∧
      (s.write t v).2.len = (wire t v).length ∧
      (s.write t v).2.buf.drop (wire t v).length = s.buf.drop (wire t v).length) := by
  have key : (s.write t v).1 = .ok () → (Encodable t v ∧ (wire t v).length ≤ s.capacity) ∧
      (s.write t v).2.asSlice = .ok (wire t v) ∧
      (s.write t v).2.len = (wire t v).length ∧
      (s.write t v).2.buf.drop (wire t v).length = s.buf.drop (wire t v).length := by
    intro h
    rw [Slot.write_eq] at h ⊢
    generalize hr : t.encode v (Output.new s.buf) = r at h
    obtain ⟨r, o⟩ := r
    cases r with
    | ok u =>
      obtain ⟨hv, hl, rfl⟩ := Ty.encode_ok t v (Nat.zero_le _) hr
      have hobs := Output.put_obs (Nat.zero_le _) hl
      have hl' : (wire t v).length ≤ s.buf.length := by
        have : (wire t v).length ≤ s.buf.length - 0 := hl
        omega
      have hpos : ((Output.new s.buf).put (wire t v)).position = (wire t v).length := by
        rw [hobs.1]; exact Nat.zero_add _
      refine ⟨⟨hv, hl'⟩, ?_, hpos, ?_⟩
      · have hw : ((Output.new s.buf).put (wire t v)).position
            ≤ ((Output.new s.buf).put (wire t v)).buf.length := by
          rw [hpos]
          have : ((Output.new s.buf).put (wire t v)).buf.length = s.buf.length := hobs.2.1
          omega
        show (if _ then _ else _) = _
        rw [if_neg (Nat.not_lt.mpr hw)]
        exact congrArg Res.ok hobs.2.2.1
      · have := hobs.2.2.2
        rw [hpos] at this
        exact this
    | err e => cases h
    | panic p => cases h
    | ub u => cases h
  refine ⟨⟨fun h => (key h).1, fun h => ?_⟩, fun h => (key h).2⟩
  have hroom : (wire t v).length ≤ (Output.new s.buf).remaining := by
    show (wire t v).length ≤ s.buf.length - 0
    have : (wire t v).length ≤ s.buf.length := h.2
    omega
  have he := ((Ty.encode_encodes t v).emits h.1 (Output.new s.buf) (Nat.zero_le _)).1 hroom
  rw [Slot.write_eq, he]

/-- C22: a write that does not succeed leaves length and capacity alone. -/
theorem C22_failed_write (s : Slot) (t : Ty) (v : t.Val) (h : (s.write t v).1 ≠ .ok ()) :
    (s.write t v).2.len = s.len ∧ (s.write t v).2.capacity = s.capacity := by
  have hw := Ty.encode_wf t v (o := Output.new s.buf) (Nat.zero_le _)
  rw [Slot.write_eq] at h ⊢
  generalize t.encode v (Output.new s.buf) = r at h hw
  obtain ⟨r, o⟩ := r
  have hc : o.buf.length = s.buf.length := hw.1
  cases r with
  | ok u => exact absurd rfl h
  | err e => exact ⟨rfl, hc⟩
  | panic p => exact ⟨rfl, hc⟩
  | ub u => exact ⟨rfl, hc⟩

/-- But it may have overwritten the contents: the part encoded before the failure is there. -/
theorem C22_failed_write_clobbers :
    ∃ (s s' : Slot) (t : Ty) (v : t.Val) (e : EncErr), s.asSlice = .ok [9, 9, 9] ∧
      s.write t v = (.err e, s') ∧ s'.asSlice = .ok [1, 9, 9] :=
  ⟨⟨[9, 9, 9, 0], 3⟩, _, .option .usize, some (70000 : Nat), _, rfl, rfl, rfl⟩

example : ((⟨[9, 9, 9, 0], 3⟩ : Slot).write .usize (70000 : Nat)).1 ≠ .ok () := by decide
example : ((⟨[9, 9, 9, 0], 3⟩ : Slot).write .usize (258 : Nat)) = (.ok (), ⟨[2, 1, 9, 0], 2⟩) := by decide

/-- C23. Reading gives what decoding the contents view alone gives. Missing: contents that end too
early (decoding them alone panics): then the octets past the length are used as well, see
`C23_false_stale`. -/
theorem C23_read_contents_partial (s : Slot) (t : Ty) (l : List Byte) (hl : s.asSlice = .ok l)
    (h : (t.decode (Input.new l)).1 ≠ .panic .shortInput) :
    s.read t = (t.decode (Input.new l)).1 := by
  unfold Slot.asSlice at hl
  split at hl
  · cases hl
  · have hl' : l = s.buf.take s.len := (Res.ok.inj hl).symm
    obtain ⟨r, n, hn, h1, h2⟩ := t.decode_local l
    have e1 : t.decode (Input.new l) = (r, ⟨l, 0 + n⟩) := h1 []
    rw [e1] at h ⊢
    have e2 := h2 h [] (l.drop n ++ s.buf.drop s.len)
    rw [← List.append_assoc (l.take n), List.take_append_drop] at e2
    have hb : l ++ s.buf.drop s.len = s.buf := by rw [hl', List.take_append_drop]
    rw [hb] at e2
    show (t.decode (Input.new s.buf)).1 = r
    exact congrArg Prod.fst e2

/-- C23 is false in general: a slot whose contents view is the two octets `01 00`, which are no
encoding of a `u32`, reads as a `u32`, with the stale octets. -/
theorem C23_false_stale :
    ∃ (ops : List SlotOp) (l : List Byte),
      ((Slot.withCapacity 4).run ops).asSlice = .ok l ∧ l = [1, 0] ∧
      (Ty.decode (.num (.int .u32)) (Input.new l)).1 = .panic .shortInput ∧
      ((Slot.withCapacity 4).run ops).read (.num (.int .u32)) = .ok (0x04030001#32 : BitVec 32) :=
  ⟨[.copyFromSlice [1, 2, 3, 4], .write .usize (1 : Nat)], _, rfl, rfl, rfl, rfl⟩

/-- C23 is false with writes of the slot's own type, too: a vector that was cut short with `set_len`
reads as if it had not been. -/
theorem C23_false_set_len :
    ∃ (s : Slot), s.asSlice = .ok [2, 0, 7] ∧
      (Slot.withCapacity 4).run [.write (.seq .vec (.num (.int .u8))) [7#8, 8#8], .setLen 3] = s ∧
      s.read (.seq .vec (.num (.int .u8))) = .ok [7#8, 8#8] :=
  ⟨⟨[2, 0, 7, 8], 3⟩, rfl, rfl, rfl⟩

example : (Ty.decode .usize (Input.new [1, 0])).1 ≠ .panic .shortInput := by decide

end Oct.Props
