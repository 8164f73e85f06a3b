import Verif.Proofs.Outcome
import Verif.Proofs.Ends
import Verif.Proofs.Delimited
import Verif.Proofs.Everywhere
import Verif.Props.Samples
/-
C09-C17: what decoding accepts and returns.
-/
namespace Oct.Props
open Oct Spec
set_option linter.unusedVariables false

/-- C09. Whatever encoding has appended to a stream decodes, whatever follows, to the value (up to
what the format does not carry), and exactly the encoding is consumed. Missing: values with a hash
map, a hash set or a non-full sized slice (of items with octets) in them (`Supported`), for which the
claim is false, see `C09_exactly`. -/
theorem C09_round_trip_partial (t : Ty) (ht : t.WF) (v : t.Val) (hs : Supported t v)
    (o o' : Output) (ho : o.position ≤ o.capacity) (h : t.encode v o = (.ok (), o'))
    (rest : List Byte) :
    t.decode ⟨o'.asSlice ++ rest, o.position⟩
      = (.ok (carried t v), ⟨o'.asSlice ++ rest, o'.position⟩) := by
  obtain ⟨hv, hl, rfl⟩ := Ty.encode_ok t v ho h
  have hobs := Output.put_obs ho hl
  have hlen : o.asSlice.length = o.position := by
    show (o.buf.take o.pos).length = o.pos
    rw [List.length_take]
    exact Nat.min_eq_left ho
  rw [hobs.2.2.1, hobs.1, List.append_assoc, ← hlen]
  exact Ty.decode_decodes t ht v hs hv o.asSlice rest

/-- C09 for a value whose own parts are all carried: the very same value comes back. -/
theorem C09_round_trip_exact_partial (t : Ty) (ht : t.WF) (v : t.Val) (hs : Supported t v)
    (hc : carried t v = v)
    (o o' : Output) (ho : o.position ≤ o.capacity) (h : t.encode v o = (.ok (), o'))
    (rest : List Byte) :
    t.decode ⟨o'.asSlice ++ rest, o.position⟩ = (.ok v, ⟨o'.asSlice ++ rest, o'.position⟩) := by
  have := C09_round_trip_partial t ht v hs o o' ho h rest
  rwa [hc] at this

example : sampleTy.WF ∧ Supported sampleTy sampleVal ∧ carried sampleTy sampleVal = sampleVal ∧
    ∃ o', sampleTy.encode sampleVal (Output.new (List.replicate 9 0)) = (.ok (), o') :=
  ⟨⟨trivial, trivial, trivial⟩, sample_supported, rfl, _, rfl⟩
example : shapeTy.WF ∧ Supported shapeTy shapeVal ∧
    ∃ o', shapeTy.encode shapeVal (Output.new (List.replicate 9 0)) = (.ok (), o') :=
  ⟨⟨by decide, by decide, trivial, ⟨trivial, trivial⟩, ⟨trivial, trivial⟩, trivial⟩, shape_supported,
    _, rfl⟩

/-- C09 is false of sized slices that are not full: the encoding of `[7]` as a
`SizedSlice<u8, 2>` is refused (the decoder looks for a second item). -/
theorem C09_false_sized_slice :
    ∃ (t : Ty) (v : t.Val) (o' : Output), t.WF ∧
      t.encode v (Output.new [0, 0, 0]) = (.ok (), o') ∧
      t.decode (Input.new o'.asSlice) = (.panic .shortInput, ⟨o'.asSlice, 3⟩) :=
  ⟨.sizedSlice (.num (.int .u8)) 2, ⟨[7#8], by decide⟩, ⟨[1, 0, 7], 3⟩, trivial, rfl, rfl⟩

/-- C09 is false of sized slices that are not full: with data behind it, the slice comes back right
but the following data are eaten. -/
theorem C09_false_sized_slice_stream :
    ∃ (t : Ty) (v : t.Val) (o' : Output), t.WF ∧
      t.encode v (Output.new [0, 0, 0]) = (.ok (), o') ∧
      t.decode (Input.new (o'.asSlice ++ [9, 9])) = (.ok v, ⟨o'.asSlice ++ [9, 9], 4⟩) :=
  ⟨.sizedSlice (.num (.int .u8)) 2, ⟨[7#8], by decide⟩, ⟨[1, 0, 7], 3⟩, trivial, rfl, rfl⟩

/-- C09 (and C40) is false of hash sets: the set `{7}` of `u16` is encoded without its length, and
decoding it stops for lack of input. -/
theorem C09_false_hash_set :
    ∃ (t : Ty) (v : t.Val) (o' : Output), t.WF ∧
      t.encode v (Output.new [0, 0]) = (.ok (), o') ∧
      t.decode (Input.new o'.asSlice) = (.panic .shortInput, ⟨o'.asSlice, 2⟩) :=
  ⟨.hashSet (.num (.int .u16)), ⟨[7#16], by decide⟩, ⟨[7, 0], 2⟩, trivial, rfl, rfl⟩

/-- Encodes values of any types one after the other into one stream. -/
def encodeAll : List (Sigma Ty.Val) → Enc Unit
  | [] => pure ()
  | ⟨t, v⟩ :: l => do
    t.encode v
    encodeAll l

/-- Decodes values of the given types one after the other from one stream. -/
def decodeAll : List Ty → Dec (List (Sigma Ty.Val))
  | [] => pure []
  | t :: l => do
    let v ← t.decode
    let vs ← decodeAll l
    pure (⟨t, v⟩ :: vs)

/-- C10. A sequence of values of any types, encoded into one stream, decodes as that sequence from
one stream, ending at the end of the encoded data. Missing: as for C09. -/
theorem C10_streaming_partial (l : List (Sigma Ty.Val))
    (hl : ∀ x ∈ l, x.1.WF ∧ Supported x.1 x.2) :
    ∀ (o o' : Output), o.position ≤ o.capacity → encodeAll l o = (.ok (), o') →
      ∀ rest : List Byte, decodeAll (l.map Sigma.fst) ⟨o'.asSlice ++ rest, o.position⟩
        = (.ok (l.map fun x => ⟨x.1, carried x.1 x.2⟩), ⟨o'.asSlice ++ rest, o'.position⟩) := by
  suffices H : ∀ (o o' : Output), o.position ≤ o.capacity → encodeAll l o = (.ok (), o') →
      ∃ w, w.length ≤ o.remaining ∧ o' = o.put w ∧
        Decodes (decodeAll (l.map Sigma.fst)) w (l.map fun x => ⟨x.1, carried x.1 x.2⟩) by
    intro o o' ho h rest
    obtain ⟨w, hw, rfl, hd⟩ := H o o' ho h
    have hobs := Output.put_obs ho hw
    have hlen : o.asSlice.length = o.position := by
      show (o.buf.take o.pos).length = o.pos
      rw [List.length_take]
      exact Nat.min_eq_left ho
    rw [hobs.2.2.1, hobs.1, List.append_assoc, ← hlen]
    exact hd o.asSlice rest
  induction l with
  | nil =>
    intro o o' ho h
    cases h
    exact ⟨[], by simp, (Output.put_nil ho).symm, Decodes.pure _⟩
  | cons x l ih =>
    obtain ⟨t, v⟩ := x
    intro o o' ho h
    have h' : Enc.bind (t.encode v) (fun _ => encodeAll l) o = (.ok (), o') := h
    unfold Enc.bind at h'
    have hx := hl ⟨t, v⟩ (by simp)
    generalize hr : t.encode v o = r at h'
    obtain ⟨r, o1⟩ := r
    cases r with
    | ok u =>
      obtain ⟨hv, hroom, rfl⟩ := Ty.encode_ok t v ho hr
      obtain ⟨w, hw, rfl, hd⟩ := ih (fun y hy => hl y (by simp [hy])) _ _
        (Output.WF.put ho hroom) h'
      rw [Output.remaining_put ho hroom] at hw
      refine ⟨wire t v ++ w, ?_, ?_, ?_⟩
      · rw [List.length_append]; omega
      · exact Output.put_put ho (by omega)
      · exact (Ty.decode_decodes t hx.1 v hx.2 hv).bind (hd.map rfl)
    | err e => cases h'
    | panic p => cases h'
    | ub u => cases h'

example : ∃ o', encodeAll [⟨sampleTy, sampleVal⟩, ⟨shapeTy, shapeVal⟩, ⟨.usize, (3 : Nat)⟩]
    (Output.new (List.replicate 16 0)) = (.ok (), o') := ⟨_, rfl⟩

/-- C11. If two values of one type are encoded as the same octets, then they are the same (up to what
the format does not carry). Missing: values with hash maps or sets in them; see `C11_false_hash_set`. -/
theorem C11_injective_partial (t : Ty) (ht : t.WF) (v w : t.Val) (hv : Delimited t v)
    (hw : Delimited t w) (o o' p p' : Output) (ho : o.position ≤ o.capacity)
    (hp : p.position ≤ p.capacity) (h1 : t.encode v o = (.ok (), o'))
    (h2 : t.encode w p = (.ok (), p'))
    (heq : o'.asSlice.drop o.position = p'.asSlice.drop p.position) :
    carried t v = carried t w := by
  have e1 := Ty.encode_ok t v ho h1
  have e2 := Ty.encode_ok t w hp h2
  rw [Ty.encode_ok_drop t v ho h1, Ty.encode_ok_drop t w hp h2] at heq
  exact (Ty.wire_delim t ht v w hv hw e1.1 e2.1 [] [] (by rw [heq])).1

example : Delimited (.sizedSlice (.num (.int .u8)) 4) ⟨[1#8, 2#8], by decide⟩ := fun _ _ => trivial
example : ∃ o', (Ty.sizedSlice (.num (.int .u8)) 4).encode ⟨[1#8, 2#8], by decide⟩
    (Output.new [0, 0, 0, 0]) = (.ok (), o') := ⟨_, rfl⟩

/-- C11 is false of hash sets inside other types: `({1}, {})` and `({}, {1})` are encoded alike. -/
theorem C11_false_hash_set :
    ∃ (t : Ty) (v w : t.Val) (o' : Output), t.WF ∧ v ≠ w ∧
      t.encode v (Output.new [0]) = (.ok (), o') ∧ t.encode w (Output.new [0]) = (.ok (), o') := by
  refine ⟨.tuple (.cons (.hashSet (.num (.int .u8))) (.cons (.hashSet (.num (.int .u8))) .nil)),
    (⟨[1#8], by decide⟩, ⟨[], by simp⟩, ()), (⟨[], by simp⟩, ⟨[1#8], by decide⟩, ()), ⟨[1], 1⟩,
    ⟨trivial, trivial, trivial⟩, ?_, rfl, rfl⟩
  intro h
  have := congrArg Subtype.val (Prod.mk.inj h).1
  cases this

/-- C12. If what one value is encoded as is a prefix of what another value of the type is encoded as,
then the two encodings and the two values are the same. Missing: values with hash maps or sets in
them; see `C12_false_hash_set`. -/
theorem C12_prefix_free_partial (t : Ty) (ht : t.WF) (v w : t.Val) (hv : Delimited t v)
    (hw : Delimited t w) (o o' p p' : Output) (ho : o.position ≤ o.capacity)
    (hp : p.position ≤ p.capacity) (h1 : t.encode v o = (.ok (), o'))
    (h2 : t.encode w p = (.ok (), p'))
    (hpre : o'.asSlice.drop o.position <+: p'.asSlice.drop p.position) :
    o'.asSlice.drop o.position = p'.asSlice.drop p.position ∧ carried t v = carried t w := by
  have e1 := Ty.encode_ok t v ho h1
  have e2 := Ty.encode_ok t w hp h2
  rw [Ty.encode_ok_drop t v ho h1, Ty.encode_ok_drop t w hp h2] at hpre ⊢
  obtain ⟨rest, hrest⟩ := hpre
  obtain ⟨h3, h4⟩ := Ty.wire_delim t ht v w hv hw e1.1 e2.1 rest [] (by rw [hrest, List.append_nil])
  rw [h4, List.append_nil] at hrest
  exact ⟨hrest, h3⟩

example : ∃ o', (Ty.sizedSlice (.num (.int .u8)) 4).encode ⟨[], by decide⟩
    (Output.new [0, 0, 0, 0]) = (.ok (), o') := ⟨_, rfl⟩

/-- C12 is false of hash sets: `{}` is encoded as nothing, a prefix of everything. -/
theorem C12_false_hash_set :
    ∃ (t : Ty) (v w : t.Val) (o' : Output), t.WF ∧ v ≠ w ∧
      t.encode v (Output.new [0]) = (.ok (), Output.new [0]) ∧
      t.encode w (Output.new [0]) = (.ok (), o') ∧ o'.asSlice = [1] := by
  refine ⟨.hashSet (.num (.int .u8)), ⟨[], by simp⟩, ⟨[1#8], by decide⟩, ⟨[1], 1⟩, trivial, ?_, rfl,
    rfl, rfl⟩
  intro h
  cases congrArg Subtype.val h

/-- C13. A proper prefix of an encoding, as everything that is left of the input, stops with the
short-input panic. Missing: as for C09; see `C13_false_hash_set`. -/
theorem C13_truncated_partial (t : Ty) (ht : t.WF) (v : t.Val) (hs : Supported t v)
    (o o' : Output) (ho : o.position ≤ o.capacity) (h : t.encode v o = (.ok (), o'))
    (cut pre : List Byte) (hcut : cut <+: o'.asSlice.drop o.position)
    (hlt : cut.length < (o'.asSlice.drop o.position).length) :
    (t.decode ⟨pre ++ cut, pre.length⟩).1 = .panic .shortInput := by
  have e := Ty.encode_ok t v ho h
  rw [Ty.encode_ok_drop t v ho h] at hcut hlt
  obtain ⟨r, n, hn, h1, h2⟩ := t.decode_local cut
  rw [h1 pre]
  apply Classical.byContradiction
  intro hr
  obtain ⟨rest, hrest⟩ := hcut
  have h3 := h2 hr [] (cut.drop n ++ rest)
  rw [← List.append_assoc (cut.take n), List.take_append_drop, hrest] at h3
  have d := Ty.decode_decodes t ht v hs e.1 [] []
  rw [List.append_nil, h3] at d
  have := congrArg Input.pos (Prod.mk.inj d).2
  simp only [List.length_nil, Nat.zero_add] at this
  omega

example : [1, 0x34, 0x12, 2, 0, 7] <+: wire sampleTy sampleVal := by rw [sample_wire]; exact ⟨[8], rfl⟩
example : sampleTy.decode (Input.new [1, 0x34, 0x12, 2, 0, 7])
    = (.panic .shortInput, ⟨[1, 0x34, 0x12, 2, 0, 7], 6⟩) := rfl

/-- C13 is false of hash sets: the set `{0, 5}` of `u8` is encoded as `00 05`; its decoding, and not
only that of a truncation, ends in other ways: here a truncated encoding of `{0, 0x0100}` of `u16`,
namely `00 00`, is accepted as the empty set. -/
theorem C13_false_hash_set :
    ∃ (t : Ty) (v w : t.Val) (o' : Output), t.WF ∧ v ≠ w ∧
      t.encode v (Output.new [0, 0, 0, 0]) = (.ok (), o') ∧ o'.asSlice = [0, 0, 0, 1] ∧
      t.decode (Input.new [0, 0]) = (.ok w, ⟨[0, 0], 2⟩) := by
  refine ⟨.hashSet (.num (.int .u16)), ⟨[0#16, 0x100#16], by decide⟩, ⟨[], by simp⟩,
    ⟨[0, 0, 0, 1], 4⟩, trivial, ?_, rfl, rfl, rfl⟩
  intro h
  cases congrArg Subtype.val h

/-- C14. Decoding does not change the buffer, moves the position forwards within it, and does not
depend on what precedes the position; and unless it stops for lack of input, the octets that it
consumed determine its outcome and how many they are, whatever precedes and follows them. -/
theorem C14_locality (t : Ty) (i : Input) (hi : i.position ≤ i.capacity) :
    ∃ (r : Res DecErr t.Val) (n : Nat), i.position + n ≤ i.capacity ∧
      t.decode i = (r, ⟨i.buf, i.position + n⟩) ∧
      (∀ pre, t.decode ⟨pre ++ i.buf.drop i.position, pre.length⟩
        = (r, ⟨pre ++ i.buf.drop i.position, pre.length + n⟩)) ∧
      (r ≠ .panic .shortInput → ∀ pre post,
        t.decode ⟨pre ++ ((i.buf.drop i.position).take n ++ post), pre.length⟩
          = (r, ⟨pre ++ ((i.buf.drop i.position).take n ++ post), pre.length + n⟩)) := by
  obtain ⟨r, n, hn, h1, h2⟩ := t.decode_local (i.buf.drop i.pos)
  have hi' : i.pos ≤ i.buf.length := hi
  refine ⟨r, n, ?_, ?_, h1, h2⟩
  · rw [List.length_drop] at hn
    show i.pos + n ≤ i.buf.length
    omega
  · have := h1 (i.buf.take i.pos)
    rw [List.take_append_drop, List.length_take, Nat.min_eq_left hi'] at this
    exact this

example : sampleTy.decode ⟨[9, 0, 1, 0, 5, 6], 1⟩ = (.ok (none, [5#8], ()), ⟨[9, 0, 1, 0, 5, 6], 5⟩) :=
  rfl

/-- C15, first half: whatever decoding returns is encodable, and carries nothing that the format
drops. Missing: a `SystemTime` of exactly `-2^63` seconds (with overflow checks), see
`C15_false_system_time`. -/
theorem C15_decoded_encodable_partial (t : Ty) (i i' : Input) (v : t.Val)
    (h : t.decode i = (.ok v, i')) (hm : AllParts NotMinTime t v) :
    Encodable t v ∧ carried t v = v := by
  have hall : ∀ t, Everywhere (Allows (fun _ => True) (fun _ => True)) t := by
    have hA : ∀ t, Allows (fun _ => True) (fun _ => True) t := by
      intro t; unfold Allows; split <;> trivial
    exact fun t => everywhere_of_all hA t
  have := Ty.decode_ends (Pn := fun _ => True) (U := fun _ => True) trivial t (hall t) i
  rw [h] at this
  exact ⟨this.1 hm, this.2⟩

/-- C15, second half: and re-encoding it gives octets that decode to the same value again. -/
theorem C15_reencode_partial (t : Ty) (ht : t.WF) (i i' : Input) (v : t.Val)
    (h : t.decode i = (.ok v, i')) (hm : AllParts NotMinTime t v) (hs : Supported t v)
    (o : Output) (ho : o.position ≤ o.capacity) (hroom : (wire t v).length ≤ o.remaining)
    (rest : List Byte) :
    ∃ o', t.encode v o = (.ok (), o') ∧
      t.decode ⟨o'.asSlice ++ rest, o.position⟩ = (.ok v, ⟨o'.asSlice ++ rest, o'.position⟩) := by
  obtain ⟨hv, hc⟩ := C15_decoded_encodable_partial t i i' v h hm
  have he := ((Ty.encode_encodes t v).emits hv o ho).1 hroom
  exact ⟨_, he, C09_round_trip_exact_partial t ht v hs hc o _ ho he rest⟩

-- A non-canonical encoding: any non-zero sign octet means `Some`.
example : (Ty.option .bool).decode (Input.new [9, 9]) = (.ok (some true), ⟨[9, 9], 2⟩) ∧
    wire (.option .bool) (some true) = [1, 1] := ⟨rfl, rfl⟩
example : AllParts NotMinTime (.option .bool) (some true) := ⟨trivial, trivial⟩

/-- C15 is false of the earliest `SystemTime`: it decodes, but encoding it panics. -/
theorem C15_false_system_time :
    ∃ (t : Ty) (i i' : Input) (v : t.Val), t.decode i = (.ok v, i') ∧
      ∀ o, t.encode v o = (.panic .arithmeticOverflow, o) := by
  refine ⟨.systemTime linuxTime, ⟨[0, 0, 0, 0, 0, 0, 0, 0x80], 0⟩,
    ⟨[0, 0, 0, 0, 0, 0, 0, 0x80], 8⟩, ⟨-(2 : Int) ^ 63 * nanosPerSec, by decide⟩, ?_, ?_⟩
  · decide +kernel
  · intro o
    show encSystemTime linuxTime (-(2 : Int) ^ 63 * nanosPerSec) o = _
    unfold encSystemTime
    rw [if_neg (by decide)]
    simp (config := {decide := true})
    rfl

/-- C16. Decoding arbitrary octets never panics other than for lack of input. Missing: `Duration`
and `Infallible`, which panic, see `C16_false_duration`, `C16_false_infallible`. -/
theorem C16_no_other_panic_partial (t : Ty)
    (ht : Everywhere (fun t => t ≠ .duration ∧ t ≠ .infallible) t) (i : Input) (p : Panic)
    (h : (t.decode i).1 = .panic p) : p = .shortInput := by
  have hA : Everywhere (Allows (· = .shortInput) (fun _ => True)) t := by
    refine everywhere_mono ?_ t ht
    intro t ht; unfold Allows; split
    · exact absurd rfl ht.1
    · exact absurd rfl ht.2
    · trivial
    · trivial
  have := Ty.decode_ends (Pn := (· = .shortInput)) (U := fun _ => True) rfl t hA i
  rw [h] at this
  exact this

/-- C16 for all types: the only other panics are those of `Duration` and `Infallible`. -/
theorem C16_all_panics_partial (t : Ty) (i : Input) (p : Panic) (h : (t.decode i).1 = .panic p) :
    p = .shortInput ∨ p = .durationOverflow ∨ p = .infallible := by
  let Pn : Panic → Prop := fun p => p = .shortInput ∨ p = .durationOverflow ∨ p = .infallible
  have hA : ∀ t, Allows Pn (fun _ => True) t := by
    intro t; unfold Allows; split
    · exact .inr (.inl rfl)
    · exact .inr (.inr rfl)
    · trivial
    · trivial
  have := Ty.decode_ends (Pn := Pn) (U := fun _ => True) (.inl rfl) t (everywhere_of_all hA t) i
  rw [h] at this
  exact this

example : Everywhere (fun t => t ≠ .duration ∧ t ≠ .infallible) sampleTy := by
  simp [Everywhere, EverywhereFields]

/-- C16 is false of `Duration`: twelve octets are there, and decoding them panics. -/
theorem C16_false_duration :
    ∃ i : Input, (Ty.decode .duration i).1 = .panic .durationOverflow :=
  ⟨⟨[0xFF, 0xFF, 0xFF, 0xFF, 0xFF, 0xFF, 0xFF, 0xFF, 0xFF, 0xFF, 0xFF, 0xFF], 0⟩, rfl⟩

/-- C16 is false of `Infallible` (as documented): an `Err` sign of a `Result<T, Infallible>`
panics. -/
theorem C16_false_infallible :
    ∃ i : Input, (Ty.decode (.result .bool .infallible) i).1 = .panic .infallible :=
  ⟨⟨[1], 0⟩, rfl⟩

/-- C17. Decoding arbitrary octets is never undefined. Missing: types with `char` in them, see
`C17_false_char`. -/
theorem C17_no_ub_partial (t : Ty) (ht : Everywhere (· ≠ .char) t) (i : Input) (u : Ub) :
    (t.decode i).1 ≠ .ub u := by
  have hA : Everywhere (Allows (fun _ => True) (fun _ => False)) t := by
    refine everywhere_mono ?_ t ht
    intro t ht; unfold Allows; split
    · trivial
    · trivial
    · exact absurd rfl ht
    · trivial
  intro h
  have := Ty.decode_ends (Pn := fun _ => True) (U := fun _ => False) trivial t hA i
  rw [h] at this
  exact this

/-- C17 for all types: an invalid `char` is the only undefined behaviour. -/
theorem C17_only_invalid_char_partial (t : Ty) (i : Input) (u : Ub) (h : (t.decode i).1 = .ub u) :
    u = .invalidChar := by
  have hA : ∀ t, Allows (fun _ => True) (· = .invalidChar) t := by
    intro t; unfold Allows; split <;> trivial
  have := Ty.decode_ends (Pn := fun _ => True) (U := (· = .invalidChar)) trivial t
    (everywhere_of_all hA t) i
  rw [h] at this
  exact this

example : Everywhere (· ≠ .char) shapeTy := by simp [Everywhere, EverywhereFields, EverywhereVariants]

/-- C17 is false of `char`: the surrogate `0xDE00` is accepted. -/
theorem C17_false_char : ∃ i : Input, (Ty.decode .char i).1 = .ub .invalidChar :=
  ⟨⟨[0x00, 0xDE, 0, 0], 0⟩, rfl⟩

end Oct.Props
