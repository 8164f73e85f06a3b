import Verif.Proofs.Longest
import Verif.Proofs.Outcome
import Verif.Props.Samples
/-
C116: the declared maximum is attained.
-/
namespace Oct.Props
open Oct Spec
set_option linter.unusedVariables false

/-- C116 (part). The longest encoding of a type with `SizedEncode` has exactly `longest t` octets: if
there is such a number, some value fills a buffer of that length, and none is longer; if there is
none, nothing is ever encoded. -/
theorem C116_longest_partial (t : Ty) (ht : t.HasSized) :
    match longest t with
    | none => ∀ v o o', o.position ≤ o.capacity → t.encode v o ≠ (.ok (), o')
    | some n =>
      (∃ v o', t.encode v (Output.new (List.replicate n 0)) = (.ok (), o') ∧ o'.position = n) ∧
      ∀ v o o', o.position ≤ o.capacity → t.encode v o = (.ok (), o') →
        o'.position ≤ o.position + n := by
  have h := longest_spec t ht
  cases hl : longest t with
  | none =>
    rw [hl] at h
    intro v o o' ho he
    exact h v (Ty.encode_ok t v ho he).1
  | some n =>
    rw [hl] at h
    obtain ⟨⟨v, hv, hw⟩, hm⟩ := h
    have ho : (Output.new (List.replicate n 0)).position ≤ (Output.new (List.replicate n 0)).capacity :=
      Nat.zero_le _
    have hr : (wire t v).length ≤ (Output.new (List.replicate n 0)).remaining := by
      show _ ≤ (List.replicate n 0).length - 0
      rw [List.length_replicate]; omega
    refine ⟨⟨v, _, ((Ty.encode_encodes t v).emits hv _ ho).1 hr, ?_⟩, fun v o o' ho he => ?_⟩
    · rw [(Output.put_obs ho hr).1]
      show 0 + _ = n
      omega
    · obtain ⟨hv, hl, rfl⟩ := Ty.encode_ok t v ho he
      rw [(Output.put_obs ho hl).1]
      exact Nat.add_le_add_left (hm v hv) _

/-- C116 (part). Some value takes all of `MAX_ENCODED_SIZE` octets: it fills a buffer of that length
and is refused by every shorter one. Missing: types with a `Result`, a sized slice, a sized string
with a capacity beyond 65535, or with a part of which no value can be encoded; see below. -/
theorem C116_attained_partial (sizeOf : Ty → Nat) (t : Ty) (ht : t.HasSized)
    (ha : Everywhere Attained t) :
    ∃ v, (∃ o', t.encode v (Output.new (List.replicate (t.maxSize sizeOf) 0)) = (.ok (), o') ∧
        o'.position = t.maxSize sizeOf) ∧
      ∀ o o', o.position ≤ o.capacity → o.capacity - o.position < t.maxSize sizeOf →
        t.encode v o ≠ (.ok (), o') := by
  have h := longest_spec t ht
  rw [longest_attained sizeOf t ht ha] at h
  obtain ⟨⟨v, hv, hw⟩, _⟩ := h
  have ho : (Output.new (List.replicate (t.maxSize sizeOf) 0)).position
      ≤ (Output.new (List.replicate (t.maxSize sizeOf) 0)).capacity := Nat.zero_le _
  have hr : (wire t v).length ≤ (Output.new (List.replicate (t.maxSize sizeOf) 0)).remaining := by
    show _ ≤ (List.replicate _ 0).length - 0
    rw [List.length_replicate]; omega
  refine ⟨v, ⟨_, ((Ty.encode_encodes t v).emits hv _ ho).1 hr, ?_⟩, fun o o' ho hc he => ?_⟩
  · rw [(Output.put_obs ho hr).1]
    show 0 + _ = _
    omega
  · have hl := (Ty.encode_ok t v ho he).2.1
    rw [hw] at hl
    exact absurd (Nat.lt_of_lt_of_le hc hl) (Nat.lt_irrefl _)

/-- `enum { A(u8), B { x: SizedStr<3>, y: Option<char> } }` in a structure. -/
abbrev attainedTy : Ty := .struct (.cons .usize (.cons (.enum (.int .u8)
  (.cons none (.cons (.num (.int .u8)) .nil)
    (.cons (some 7) (.cons (.sizedStr 3) (.cons (.option .char) .nil)) .nil))) .nil))

example (sizeOf : Ty → Nat) : attainedTy.HasSized ∧ Everywhere Attained attainedTy ∧
    attainedTy.maxSize sizeOf = 13 :=
  ⟨⟨trivial, ⟨⟨trivial, trivial⟩, ⟨trivial, trivial, trivial⟩, trivial⟩, trivial⟩,
    ⟨trivial, trivial, ⟨⟨nofun, fun _ _ => trivial⟩, ⟨trivial, trivial⟩,
      ⟨(by decide : 3 ≤ 65535), ⟨trivial, trivial⟩, trivial⟩, trivial⟩, trivial⟩, rfl⟩

example : longest attainedTy = some 13 ∧ longest (.result .infallible .infallible) = none := ⟨rfl, rfl⟩

/-- C116 is false of sized strings with a capacity beyond 65535: `SizedStr<65536>` declares 65538
octets, one more than any of its encodings has. -/
theorem C116_false_str (sizeOf : Ty → Nat) :
    (Ty.sizedStr 65536).maxSize sizeOf = 65538 ∧
    ∀ v o o', o.position ≤ o.capacity → (Ty.sizedStr 65536).encode v o = (.ok (), o') →
      o'.position ≤ o.position + 65537 :=
  ⟨rfl, (C116_longest_partial (.sizedStr 65536) trivial).2⟩

/-- C116 is false of `Result`: `Result<usize, ()>` declares nine octets where `usize` has eight in
memory, but no encoding has more than three. -/
theorem C116_false_result (sizeOf : Ty → Nat) (h : sizeOf .usize = 8) (h' : sizeOf (.unit .unit) = 0) :
    (Ty.result .usize (.unit .unit)).maxSize sizeOf = 9 ∧
    ∀ v o o', o.position ≤ o.capacity → (Ty.result .usize (.unit .unit)).encode v o = (.ok (), o') →
      o'.position ≤ o.position + 3 :=
  ⟨by simp [Ty.maxSize, h, h'], (C116_longest_partial (.result .usize (.unit .unit)) ⟨trivial, trivial⟩).2⟩

/-- C116 is false of parts that have no values: `Option<(u64, Infallible)>` declares nine octets,
but its only encoding has one. -/
theorem C116_false_empty (sizeOf : Ty → Nat) :
    (Ty.option (.tuple (.cons (.num (.int .u64)) (.cons .infallible .nil)))).maxSize sizeOf = 9 ∧
    ∀ v o o', o.position ≤ o.capacity →
      (Ty.option (.tuple (.cons (.num (.int .u64)) (.cons .infallible .nil)))).encode v o = (.ok (), o') →
      o'.position ≤ o.position + 1 :=
  ⟨rfl, (C116_longest_partial (.option (.tuple (.cons (.num (.int .u64)) (.cons .infallible .nil))))
    ⟨trivial, trivial, trivial⟩).2⟩

/-- C116 is false of enumerations whose discriminant does not fit: `#[repr(usize)] enum { A(u64) =
65536 }` declares ten octets, but nothing is ever encoded. -/
theorem C116_false_discriminant (sizeOf : Ty → Nat) :
    (Ty.enum .usize (.cons (some 65536) (.cons (.num (.int .u64)) .nil) .nil)).maxSize sizeOf = 10 ∧
    ∀ v o o', o.position ≤ o.capacity →
      (Ty.enum .usize (.cons (some 65536) (.cons (.num (.int .u64)) .nil) .nil)).encode v o
        ≠ (.ok (), o') :=
  ⟨rfl, C116_longest_partial (.enum .usize (.cons (some 65536) (.cons (.num (.int .u64)) .nil) .nil))
    ⟨⟨trivial, trivial⟩, trivial⟩⟩

/-- C116 is false of sized slices: `SizedSlice<u8, 1>` declares one octet, and each of its encodings
has two or more. -/
theorem C116_false_slice (sizeOf : Ty → Nat) :
    (Ty.sizedSlice (.num (.int .u8)) 1).maxSize sizeOf = 1 ∧
    ∀ v o o', o.position ≤ o.capacity → (Ty.sizedSlice (.num (.int .u8)) 1).encode v o = (.ok (), o') →
      o.position + 2 ≤ o'.position := by
  refine ⟨rfl, fun v o o' ho he => ?_⟩
  obtain ⟨_, hl, rfl⟩ := Ty.encode_ok _ v ho he
  rw [(Output.put_obs ho hl).1]
  show _ ≤ _ + (leBytes 2 _ ++ _).length
  rw [List.length_append, leBytes_length]
  omega

end Oct.Props
