import Verif.Proofs.Sizes
import Verif.Proofs.Outcome
import Verif.Proofs.DecInv
import Verif.Proofs.Everywhere
import Verif.Props.Samples
/-
C18, C19, C49: sizes.
-/
namespace Oct.Props
open Oct Spec
set_option linter.unusedVariables false

/-- C18. No value is encoded as more than `MAX_ENCODED_SIZE` octets. Missing: types with a sized
slice in them, or with a `Result` whose `size_of` is too small; see `C18_false_sized_slice`,
`C18_false_result`. -/
theorem C18_max_bounds_encoding_partial (sizeOf : Ty → Nat) (t : Ty) (ht : t.HasSized)
    (hs : Everywhere (SizeOk sizeOf) t) (v : t.Val) (o o' : Output) (ho : o.position ≤ o.capacity)
    (h : t.encode v o = (.ok (), o')) : o'.position ≤ o.position + t.maxSize sizeOf := by
  obtain ⟨_, hl, rfl⟩ := Ty.encode_ok t v ho h
  rw [(Output.put_obs ho hl).1]
  exact Nat.add_le_add_left (wire_length_le sizeOf t ht hs v) _

/-- C18 with the two constants corrected (two more octets for a sized slice, the larger of the
maxima of the members for a `Result`): then every encoding is bounded. -/
theorem C18_corrected_bound_partial (t : Ty) (ht : t.HasSized) (v : t.Val) (o o' : Output)
    (ho : o.position ≤ o.capacity) (h : t.encode v o = (.ok (), o')) :
    o'.position ≤ o.position + sizeBound t := by
  obtain ⟨_, hl, rfl⟩ := Ty.encode_ok t v ho h
  rw [(Output.put_obs ho hl).1]
  exact Nat.add_le_add_left (wire_length_le_bound t ht v) _

/-- Where neither of the two occurs, the declared maximum is the corrected one. -/
theorem C18_declared_is_corrected_partial (sizeOf : Ty → Nat) (t : Ty)
    (h : Everywhere (fun t => (∀ a b, t ≠ .result a b) ∧ ∀ a n, t ≠ .sizedSlice a n) t) :
    t.maxSize sizeOf = sizeBound t := by
  refine maxSize_eq_bound sizeOf t (everywhere_mono ?_ t h)
  intro t h
  unfold NoBadMax
  split
  · exact h.1 _ _ rfl
  · exact h.2 _ _ rfl
  · trivial

/-- `struct Request(u32, Option<SizedStr<15>>)`. -/
abbrev requestTy : Ty :=
  .struct (.cons (.num (.int .u32)) (.cons (.option (.sizedStr 15)) .nil))

example (sizeOf : Ty → Nat) : requestTy.HasSized ∧ Everywhere (SizeOk sizeOf) requestTy ∧
    requestTy.maxSize sizeOf = 22 :=
  ⟨⟨trivial, trivial, trivial⟩, ⟨trivial, trivial, ⟨trivial, trivial⟩, trivial⟩, rfl⟩

/-- C18 is false of sized slices: `SizedSlice<u8, 1>` declares one octet, but `[7]` takes three. -/
theorem C18_false_sized_slice (sizeOf : Ty → Nat) :
    ∃ (t : Ty) (v : t.Val) (o o' : Output), t.HasSized ∧ t.maxSize sizeOf = 1 ∧
      t.encode v o = (.ok (), o') ∧ o.position = 0 ∧ o'.position = 3 :=
  ⟨.sizedSlice (.num (.int .u8)) 1, ⟨[7#8], by decide⟩, Output.new [0, 0, 0], _, trivial, rfl, rfl,
    rfl, rfl⟩

/-- C18 is false of `Result`: with `T = Option<NonZero<u8>>`, which Rust guarantees to have the size
of `u8`, `Result<T, T>` declares two octets, but `Ok(Some(1))` takes three. -/
theorem C18_false_result (sizeOf : Ty → Nat) (h : sizeOf (.option (.nonZero (.int .u8))) = 1) :
    ∃ (t : Ty) (v : t.Val) (o o' : Output), t.HasSized ∧ t.maxSize sizeOf = 2 ∧
      t.encode v o = (.ok (), o') ∧ o.position = 0 ∧ o'.position = 3 := by
  refine ⟨.result (.option (.nonZero (.int .u8))) (.option (.nonZero (.int .u8))),
    .ok (some ⟨1, by decide⟩), Output.new [0, 0, 0], _, ⟨trivial, trivial⟩, ?_, rfl, rfl, rfl⟩
  simp [Ty.maxSize, h]

/-- C19, successful decodings: they consume at most `MAX_ENCODED_SIZE` octets. Missing: as for C18,
and enumerations without variants. -/
theorem C19_max_bounds_decoding_ok_partial (sizeOf : Ty → Nat) (t : Ty) (ht : t.HasSized)
    (hs : Everywhere (DecodeSizeOk sizeOf false) t) (i i' : Input) (v : t.Val)
    (h : t.decode i = (.ok v, i')) : i'.position ≤ i.position + t.maxSize sizeOf := by
  have := Ty.decode_consumes sizeOf t ht hs i (.inr ⟨v, by rw [h]⟩)
  rw [h] at this
  exact this

/-- C19, all outcomes. Missing: as for the previous theorem, and sized strings. -/
theorem C19_max_bounds_decoding_partial (sizeOf : Ty → Nat) (t : Ty) (ht : t.HasSized)
    (hs : Everywhere (DecodeSizeOk sizeOf true) t) (i : Input) :
    (t.decode i).2.position ≤ i.position + t.maxSize sizeOf :=
  Ty.decode_consumes sizeOf t ht hs i (.inl rfl)

example (sizeOf : Ty → Nat) : requestTy.HasSized ∧ Everywhere (DecodeSizeOk sizeOf false) requestTy :=
  ⟨⟨trivial, trivial, trivial⟩, ⟨trivial, trivial⟩, ⟨trivial, trivial⟩,
    ⟨⟨trivial, trivial⟩, trivial, rfl⟩, trivial⟩
example (sizeOf : Ty → Nat) :
    Everywhere (DecodeSizeOk sizeOf true) (.option (.array .usize 3)) :=
  ⟨⟨trivial, trivial⟩, ⟨trivial, trivial⟩, trivial, trivial⟩

/-- C19 is false of sized strings: a `SizedStr<1>` declares three octets, but decoding a longer text
reads it all before refusing it. -/
theorem C19_false_sized_str (sizeOf : Ty → Nat) :
    ∃ (t : Ty) (i : Input), t.HasSized ∧ t.maxSize sizeOf = 3 ∧ i.position = 0 ∧
      t.decode i = (.err (.badLength (.length 1 4)), ⟨i.buf, 6⟩) :=
  ⟨.sizedStr 1, ⟨[4, 0, 97, 97, 97, 97], 0⟩, trivial, rfl, rfl, rfl⟩

/-- C19 is false of enumerations without variants: the maximum is zero, the discriminant is read. -/
theorem C19_false_empty_enum (sizeOf : Ty → Nat) :
    ∃ (t : Ty) (i : Input), t.HasSized ∧ t.maxSize sizeOf = 0 ∧ i.position = 0 ∧
      t.decode i = (.err (.unassigned 5), ⟨i.buf, 1⟩) :=
  ⟨.enum (.int .u8) .nil, ⟨[5], 0⟩, trivial, rfl, rfl, rfl⟩

/-- C19 is false of sized slices. -/
theorem C19_false_sized_slice (sizeOf : Ty → Nat) :
    ∃ (t : Ty) (v : t.Val) (i : Input), t.HasSized ∧ t.maxSize sizeOf = 1 ∧ i.position = 0 ∧
      t.decode i = (.ok v, ⟨i.buf, 3⟩) :=
  ⟨.sizedSlice (.num (.int .u8)) 1, ⟨[7#8], by decide⟩, ⟨[1, 0, 7], 0⟩, trivial, rfl, rfl, rfl⟩

/-- C49, vectors and linked lists: a decoded one has exactly the announced number of items. -/
theorem C49_announced_length_seq (k : SeqKind) (t : Ty) (i i' : Input) (v : (Ty.seq k t).Val)
    (h : (Ty.seq k t).decode i = (.ok v, i')) :
    ∃ b0 b1 rest, i.buf.drop i.position = b0 :: b1 :: rest ∧
      List.length v = b0.toNat + 256 * b1.toNat := by
  obtain ⟨n, i1, h1, h2⟩ := Dec.bind_ok (show decSeq t.decode i = _ from h)
  obtain ⟨vs, i2, h3, h4⟩ := Dec.bind_ok h2
  obtain ⟨b0, b1, rest, hb, hn, _⟩ := decUsize_ok h1
  obtain ⟨rfl, _⟩ := Dec.pure_ok h4
  exact ⟨b0, b1, rest, hb, hn ▸ vs.property⟩

/-- C49, strings: a decoded one has exactly the announced number of octets, which are the next
ones. -/
theorem C49_announced_length_string (k : StrKind) (i i' : Input) (v : (Ty.str k).Val)
    (h : (Ty.str k).decode i = (.ok v, i')) :
    ∃ b0 b1 rest, i.buf.drop i.position = b0 :: b1 :: rest ∧
      v.val.length = b0.toNat + 256 * b1.toNat ∧ v.val = rest.take v.val.length := by
  obtain ⟨n, i1, h1, h2⟩ := Dec.bind_ok (show (decUsize >>= fun len => Dec.read len >>= strOf) i = _ from h)
  obtain ⟨d, i2, h3, h4⟩ := Dec.bind_ok h2
  obtain ⟨b0, b1, rest, hb, hn, rfl⟩ := decUsize_ok h1
  obtain ⟨hd, _, hl⟩ := Dec.read_ok h3
  have hv : v.val = d := (strOf_ok h4).1
  rw [hv]
  refine ⟨b0, b1, rest, hb, by omega, ?_⟩
  rw [hl]
  show d = _
  rw [hd, ← List.drop_drop, hb]
  rfl

/-- C49, C strings: a decoded one has exactly the announced number of octets, which are the next
ones. -/
theorem C49_announced_length_c_string (k : CStrKind) (i i' : Input) (v : (Ty.cStr k).Val)
    (h : (Ty.cStr k).decode i = (.ok v, i')) :
    ∃ b0 b1 rest, i.buf.drop i.position = b0 :: b1 :: rest ∧
      v.val.length = b0.toNat + 256 * b1.toNat ∧ v.val = rest.take v.val.length := by
  obtain ⟨n, i1, h1, h2⟩ := Dec.bind_ok (show decCString i = _ from h)
  obtain ⟨d, i2, h3, h4⟩ := Dec.bind_ok h2
  obtain ⟨b0, b1, rest, hb, hn, rfl⟩ := decUsize_ok h1
  obtain ⟨hd, _, hl⟩ := Dec.read_ok h3
  have hv : v.val = d := by
    revert h4
    split
    · intro h4
      obtain ⟨rfl, _⟩ := Dec.pure_ok h4
      rfl
    · intro h4; cases h4
  rw [hv]
  refine ⟨b0, b1, rest, hb, by omega, ?_⟩
  rw [hl]
  show d = _
  rw [hd, ← List.drop_drop, hb]
  rfl

example : ∃ v i', (Ty.seq .vec .usize).decode ⟨[9, 2, 0, 1, 0, 2, 0], 1⟩ = (.ok v, i') :=
  ⟨[(1 : Nat), (2 : Nat)], _, rfl⟩
example : ∃ v i', (Ty.str .string).decode (Input.new [2, 0, 97, 98]) = (.ok v, i') :=
  ⟨⟨[97, 98], by decide⟩, _, rfl⟩
example : ∃ v i', (Ty.cStr .cString).decode (Input.new [2, 0, 97, 98]) = (.ok v, i') :=
  ⟨⟨[97, 98], by decide⟩, _, rfl⟩

/-- C49, types of fixed size: every encoding has that length, which is also the declared maximum. -/
theorem C49_fixed_size (sizeOf : Ty → Nat) (t : Ty) (n : Nat) (ht : fixedSize t = some n) :
    t.maxSize sizeOf = n ∧
    ∀ (v : t.Val) (o o' : Output), o.position ≤ o.capacity → t.encode v o = (.ok (), o') →
      o'.position = o.position + n := by
  refine ⟨(fixedSize_spec sizeOf t n ht).2, fun v o o' ho h => ?_⟩
  obtain ⟨_, hl, rfl⟩ := Ty.encode_ok t v ho h
  rw [(Output.put_obs ho hl).1, (fixedSize_spec sizeOf t n ht).1 v]

example : fixedSize (.tuple (.cons (.array (.num .f64) 3) (.cons .socketAddrV4 .nil))) = some 30 := rfl

end Oct.Props
