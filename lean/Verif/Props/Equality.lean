import Verif.Proofs.Equality
import Verif.Proofs.Delimited
import Verif.Proofs.EncodesTo
import Verif.Proofs.Everywhere
import Verif.Props.Samples
/-
C126: equality of values and equality of their encodings.
-/
namespace Oct.Props
open Oct Spec
set_option linter.unusedVariables false

/-- C126. Values that are equal (`==`) are encoded alike, with the same outcome in every stream.
Missing: floats and hash maps, see `C126_false_zero` and `C126_false_order`. -/
theorem C126_equal_partial (t : Ty) (hx : Everywhere IsExact t) (v w : t.Val)
    (h : t.equals v w = true) (o : Output) : t.encode v o = t.encode w o := by
  rw [Ty.equals_eq t hx v w h]

/-- C126. For all types that have `==`, also with floats and hash maps: values that are equal can be
encoded in the same streams, and take as many octets. -/
theorem C126_length (t : Ty) (ht : t.hasEq = true) (v w : t.Val) (h : t.equals v w = true)
    (o o' : Output) (ho : o.position ≤ o.capacity) (he : t.encode v o = (.ok (), o')) :
    ∃ o'', t.encode w o = (.ok (), o'') ∧ o''.position = o'.position := by
  obtain ⟨h1, h2⟩ := Ty.equals_shape t ht v w h
  obtain ⟨h3, h4, rfl⟩ := Ty.encode_ok t v ho he
  have h5 : (wire t w).length ≤ o.remaining := by omega
  refine ⟨_, ((Ty.encode_encodes t w).emits (h1.mp h3) o ho).1 h5, ?_⟩
  rw [(Output.put_obs ho h4).1, (Output.put_obs ho h5).1, h2]

/-- C126, conversely. Values that are encoded as the same octets are equal. Missing: floats; hash maps
and sets; and values of which the format does not carry all (times between seconds, inclusive ranges
that were iterated to their end). See the theorems `C126_false_…`. -/
theorem C126_same_octets_partial (t : Ty) (ht : t.hasEq = true) (hwf : t.WF)
    (hf : Everywhere (fun t => ¬ IsFloat t) t) (v w : t.Val) (hv : Delimited t v) (hw : Delimited t w)
    (hcv : carried t v = v) (hcw : carried t w = w) (bs : List Byte) (h1 : EncodesTo t v bs)
    (h2 : EncodesTo t w bs) : t.equals v w = true := by
  obtain ⟨e1, rfl⟩ := encodesTo_iff.mp h1
  obtain ⟨e2, h3⟩ := encodesTo_iff.mp h2
  have h4 := (Ty.wire_delim t hwf v w hv hw e1 e2 [] [] (by rw [h3])).1
  rw [hcv, hcw] at h4
  subst h4
  exact Ty.equals_refl t ht hf v e1

/-- C126, both ways, for types without floats and hash maps. -/
theorem C126_iff_partial (t : Ty) (ht : t.hasEq = true) (hwf : t.WF) (hx : Everywhere IsExact t)
    (v w : t.Val) (hv : Delimited t v) (hw : Delimited t w) (hcv : carried t v = v)
    (hcw : carried t w = w) (bs : List Byte) (h : EncodesTo t v bs) :
    t.equals v w = true ↔ EncodesTo t w bs := by
  constructor
  · intro he
    rwa [← Ty.equals_eq t hx v w he]
  · exact C126_same_octets_partial t ht hwf (everywhere_mono (fun _ h => h.1) t hx) v w hv hw hcv hcw bs h

/-- C126. Decoding what a value was encoded as gives an equal value. Missing: as for
`C126_same_octets_partial`, and sized slices that are not full. -/
theorem C126_decoded_partial (t : Ty) (ht : t.hasEq = true) (hwf : t.WF)
    (hf : Everywhere (fun t => ¬ IsFloat t) t) (v : t.Val) (hs : Supported t v) (hc : carried t v = v)
    (bs : List Byte) (h : EncodesTo t v bs) :
    ∃ w, (t.decode (Input.new bs)) = (.ok w, ⟨bs, bs.length⟩) ∧ t.equals v w = true := by
  obtain ⟨e1, rfl⟩ := encodesTo_iff.mp h
  have := Ty.decode_decodes t hwf v hs e1 [] []
  simp only [List.append_nil, List.nil_append, List.length_nil, Nat.zero_add, hc] at this
  exact ⟨v, this, Ty.equals_refl t ht hf v e1⟩

/-- C126. `==` is symmetric and transitive for all types that have it, and reflexive on what can be
encoded of those without floats. -/
theorem C126_equivalence (t : Ty) (ht : t.hasEq = true) :
    (∀ v w : t.Val, t.equals v w = true → t.equals w v = true) ∧
    (∀ u v w : t.Val, t.equals u v = true → t.equals v w = true → t.equals u w = true) ∧
    (Everywhere (fun t => ¬ IsFloat t) t → ∀ (v : t.Val) (bs : List Byte), EncodesTo t v bs →
      t.equals v v = true) :=
  ⟨Ty.equals_symm t ht, Ty.equals_trans t, fun hf v bs h => Ty.equals_refl t ht hf v (encodesTo_iff.mp h).1⟩

/-- C126. Maps and sets that are equal have the same entries, in another order. -/
theorem C126_order (k v : Ty) (hk : k.isKey = true) (hv : Everywhere IsExact v)
    (m m' : (Ty.hashMap k v).Val) : (Ty.hashMap k v).equals m m' = true → m'.val.Perm m.val := by
  intro h
  obtain ⟨l, h1, h2⟩ := mapEquals_order (fun x y => Ty.key_eq hk) m.property h
  have : m.val = l := listEquals_eq (fun p q hpq => by
    have hpq := Bool.and_eq_true_iff.mp hpq
    exact Prod.ext (Ty.key_eq hk hpq.1) (Ty.equals_eq v hv _ _ hpq.2)) _ _ h2
  rw [this]
  exact h1.symm

example : sampleTy.hasEq = true ∧ sampleTy.WF ∧ Supported sampleTy sampleVal ∧
    Delimited sampleTy sampleVal ∧ carried sampleTy sampleVal = sampleVal ∧
    Everywhere IsExact sampleTy ∧ EncodesTo sampleTy sampleVal [1, 0x34, 0x12, 2, 0, 7, 8] ∧
    sampleTy.equals sampleVal sampleVal = true :=
  ⟨rfl, ⟨trivial, trivial, trivial⟩, sample_supported, ⟨trivial, fun _ _ => trivial, trivial⟩, rfl,
    ⟨⟨id, id⟩, ⟨⟨id, id⟩, id, id⟩, ⟨⟨id, id⟩, id, id⟩, trivial⟩, encodesTo' sample_encodable sample_wire,
    by decide⟩

/-- C126, what `==` of floats is: a number is not equal to itself just if it is a NaN, i.e. if its
exponent is all ones and its fraction is not zero; and two different patterns are equal just if they
are the two zeros. -/
theorem C126_floats :
    (∀ x : BitVec 32, (Ty.num .f32).equals x x = false ↔
      x.extractLsb' 23 8 = 0xFF#8 ∧ x.extractLsb' 0 23 ≠ 0#23) ∧
    (∀ x : BitVec 64, (Ty.num .f64).equals x x = false ↔
      x.extractLsb' 52 11 = 0x7FF#11 ∧ x.extractLsb' 0 52 ≠ 0#52) ∧
    (∀ x y : BitVec 32, x ≠ y → ((Ty.num .f32).equals x y = true ↔
      x.extractLsb' 0 31 = 0#31 ∧ y.extractLsb' 0 31 = 0#31)) ∧
    (∀ x y : BitVec 64, x ≠ y → ((Ty.num .f64).equals x y = true ↔
      x.extractLsb' 0 63 = 0#63 ∧ y.extractLsb' 0 63 = 0#63)) := by
  refine ⟨fun x => ?_, fun x => ?_, fun x y h => ?_, fun x y h => ?_⟩
  · have := x.isLt
    have h3 : x.toNat / 2 ^ 23 / 2 ^ 8 = x.toNat / 2 ^ 31 := by rw [Nat.div_div_eq_div_mul]
    rw [← Bool.not_eq_true]
    show ¬ (floatEquals (2 ^ 31) 0x7F800000 x.toNat x.toNat = true) ↔ _
    simp only [floatEquals, Bool.and_eq_true, Bool.or_eq_true, decide_eq_true_eq, beq_iff_eq, ne_eq,
      ← BitVec.toNat_inj, BitVec.extractLsb'_toNat, BitVec.toNat_ofNat, Nat.shiftRight_eq_div_pow,
      and_self, true_or, and_true]
    omega
  · have := x.isLt
    have h3 : x.toNat / 2 ^ 52 / 2 ^ 11 = x.toNat / 2 ^ 63 := by rw [Nat.div_div_eq_div_mul]
    rw [← Bool.not_eq_true]
    show ¬ (floatEquals (2 ^ 63) 0x7FF0000000000000 x.toNat x.toNat = true) ↔ _
    simp only [floatEquals, Bool.and_eq_true, Bool.or_eq_true, decide_eq_true_eq, beq_iff_eq, ne_eq,
      ← BitVec.toNat_inj, BitVec.extractLsb'_toNat, BitVec.toNat_ofNat, Nat.shiftRight_eq_div_pow,
      and_self, true_or, and_true]
    omega
  · have hx : x.toNat ≠ y.toNat := fun e => h (BitVec.eq_of_toNat_eq e)
    show floatEquals (2 ^ 31) 0x7F800000 x.toNat y.toNat = true ↔ _
    simp only [floatEquals, Bool.and_eq_true, Bool.or_eq_true, decide_eq_true_eq, beq_iff_eq,
      ← BitVec.toNat_inj, BitVec.extractLsb'_toNat, BitVec.toNat_ofNat, Nat.shiftRight_eq_div_pow]
    omega
  · have hx : x.toNat ≠ y.toNat := fun e => h (BitVec.eq_of_toNat_eq e)
    show floatEquals (2 ^ 63) 0x7FF0000000000000 x.toNat y.toNat = true ↔ _
    simp only [floatEquals, Bool.and_eq_true, Bool.or_eq_true, decide_eq_true_eq, beq_iff_eq,
      ← BitVec.toNat_inj, BitVec.extractLsb'_toNat, BitVec.toNat_ofNat, Nat.shiftRight_eq_div_pow]
    omega

/-- `HashMap<u8, f32>` -/
abbrev floatMap : Ty := .hashMap (.num (.int .u8)) (.num .f32)

example : floatMap.hasEq = true ∧ floatMap.equals ⟨[(1#8, 0#32), (2#8, 0x3F800000#32)], by decide⟩
    ⟨[(2#8, 0x3F800000#32), (1#8, 0x80000000#32)], by decide⟩ = true ∧
    ∃ o', floatMap.encode ⟨[(1#8, 0#32), (2#8, 0x3F800000#32)], by decide⟩
      (Output.new [0, 0, 0, 0, 0, 0, 0, 0, 0, 0]) = (.ok (), o') := ⟨rfl, by decide, _, rfl⟩
example : (Ty.refCell .bool).hasEq = true ∧
    (Ty.refCell .bool).equals ⟨true, false⟩ ⟨true, false⟩ = false := ⟨rfl, rfl⟩

/-- C126 is false of floats: `0.0 == -0.0`, but they are encoded differently. -/
theorem C126_false_zero :
    (Ty.num .f32).equals 0#32 0x80000000#32 = true ∧ (Ty.num .f64).equals 0#64 0x8000000000000000#64 = true ∧
    EncodesTo (.num .f32) 0#32 [0, 0, 0, 0] ∧ EncodesTo (.num .f32) 0x80000000#32 [0, 0, 0, 0x80] ∧
    EncodesTo (.num .f64) 0#64 [0, 0, 0, 0, 0, 0, 0, 0] ∧
    EncodesTo (.num .f64) 0x8000000000000000#64 [0, 0, 0, 0, 0, 0, 0, 0x80] :=
  ⟨by decide, by decide, encodesTo' (t := .num .f32) trivial (by decide),
    encodesTo' (t := .num .f32) trivial (by decide), encodesTo' (t := .num .f64) trivial (by decide),
    encodesTo' (t := .num .f64) trivial (by decide)⟩

/-- C126 is false of floats: a NaN comes back bit by bit, but is not equal to itself. -/
theorem C126_false_nan : ∃ (x : (Ty.num .f32).Val) (bs : List Byte), EncodesTo (.num .f32) x bs ∧
    (Ty.num .f32).decode (Input.new bs) = (.ok x, ⟨bs, 4⟩) ∧ (Ty.num .f32).equals x x = false :=
  ⟨0x7FC00000#32, [0, 0, 0xC0, 0x7F], encodesTo' (t := .num .f32) trivial (by decide), rfl, by decide⟩

/-- C126 is false of hash sets (and maps): the same set in another order, as after another sequence of
insertions, is equal but encoded differently. -/
theorem C126_false_order : ∃ s s' : (Ty.hashSet (.num (.int .u8))).Val,
    (Ty.hashSet (.num (.int .u8))).equals s s' = true ∧
    EncodesTo (.hashSet (.num (.int .u8))) s [1, 2] ∧ EncodesTo (.hashSet (.num (.int .u8))) s' [2, 1] :=
  ⟨⟨[1#8, 2#8], by decide⟩, ⟨[2#8, 1#8], by decide⟩, by decide,
    encodesTo' (t := .hashSet (.num (.int .u8))) (v := ⟨[1#8, 2#8], by decide⟩) (fun _ _ => trivial) (by decide),
    encodesTo' (t := .hashSet (.num (.int .u8))) (v := ⟨[2#8, 1#8], by decide⟩) (fun _ _ => trivial) (by decide)⟩

/-- C126 is false of hash sets, conversely: `{}` and `{()}` differ, but both are encoded as nothing. -/
theorem C126_false_empty : ∃ s s' : (Ty.hashSet (.unit .unit)).Val,
    (Ty.hashSet (.unit .unit)).equals s s' = false ∧
    EncodesTo (.hashSet (.unit .unit)) s [] ∧ EncodesTo (.hashSet (.unit .unit)) s' [] :=
  ⟨⟨[], by simp⟩, ⟨[()], List.nodup_cons.mpr ⟨List.not_mem_nil, List.nodup_nil⟩⟩, rfl,
    encodesTo' (t := .hashSet (.unit .unit)) (v := ⟨[], by simp⟩) (fun _ _ => trivial) rfl,
    encodesTo' (t := .hashSet (.unit .unit)) (v := ⟨[()], List.nodup_cons.mpr ⟨List.not_mem_nil, List.nodup_nil⟩⟩) (fun _ _ => trivial) rfl⟩

/-- C126 is false of times: the epoch and the nanosecond after it differ, but are encoded alike. -/
theorem C126_false_time : ∃ a b : (Ty.systemTime linuxTime).Val,
    (Ty.systemTime linuxTime).equals a b = false ∧
    EncodesTo (.systemTime linuxTime) a (leBytes 8 0) ∧ EncodesTo (.systemTime linuxTime) b (leBytes 8 0) :=
  ⟨⟨0, by decide⟩, ⟨1, by decide⟩, by decide,
    encodesTo' (t := .systemTime linuxTime) (v := ⟨0, by decide⟩)
      (fun h => absurd (show (0 : Int) = -(2 : Int) ^ 63 * nanosPerSec from h.2) (by decide)) rfl,
    encodesTo' (t := .systemTime linuxTime) (v := ⟨1, by decide⟩)
      (fun h => absurd (show (1 : Int) = -(2 : Int) ^ 63 * nanosPerSec from h.2) (by decide)) rfl⟩

/-- C126 is false of inclusive ranges: `7..=7` before and after its iteration differ, but are encoded
alike; so what comes back is not equal to an iterated range. -/
theorem C126_false_exhausted : ∃ a b : (Ty.rangeInclusive (.num (.int .u8))).Val,
    (Ty.rangeInclusive (.num (.int .u8))).equals a b = false ∧
    EncodesTo (.rangeInclusive (.num (.int .u8))) a [7, 7] ∧
    EncodesTo (.rangeInclusive (.num (.int .u8))) b [7, 7] ∧
    (Ty.rangeInclusive (.num (.int .u8))).decode (Input.new [7, 7]) = (.ok a, ⟨[7, 7], 2⟩) :=
  ⟨⟨7#8, 7#8, false⟩, ⟨7#8, 7#8, true⟩, by decide,
    encodesTo' (t := .rangeInclusive (.num (.int .u8))) (v := ⟨7#8, 7#8, false⟩) ⟨trivial, trivial⟩ (by decide),
    encodesTo' (t := .rangeInclusive (.num (.int .u8))) (v := ⟨7#8, 7#8, true⟩) ⟨trivial, trivial⟩ (by decide),
    rfl⟩

/-- C126. The types this is about: those that can be compared are the ones in which there is no lock, atomic
or lazy value and no hash map or set of other than keys, and keys are what has no floats, maps, sets, locks,
atomics, lazy values and cells in it. -/
theorem C126_comparable (t : Ty) :
    (t.hasEq = true ↔ Everywhere (fun t => ¬ IsNoEq t) t) ∧
    (t.isKey = true ↔ Everywhere (fun t => ¬ IsNoKey t) t) :=
  ⟨Ty.hasEq_iff t, Ty.isKey_iff t⟩

example : (Ty.hashMap (.tuple (.cons .bool (.cons (.str .string) .nil))) (.num .f32)).hasEq = true ∧
    (Ty.hashMap (.num .f32) .bool).hasEq = false ∧ (Ty.seq .vec (.lock .mutex .bool)).hasEq = false ∧
    (Ty.enum (.int .u8) (.cons none .nil (.cons none (.cons .char .nil) .nil))).isKey = true := by
  decide

end Oct.Props
