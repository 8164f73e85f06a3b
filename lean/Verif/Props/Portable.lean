import Verif.Proofs.Portable
import Verif.Proofs.Outcome
import Verif.Props.Primitives
/-
C117: platforms.
-/
namespace Oct.Props
open Oct Spec
set_option linter.unusedVariables false

/-- C117 (part). A value that two platforms have is encoded as the same octets on both. -/
theorem C117_octets_partial (q : TimePlatform) (t : Ty) (v : t.Val) (hf : Fits q t v)
    (o o' : Output) (ho : o.position ≤ o.capacity) (h : t.encode v o = (.ok (), o')) :
    (onPlatform q t).encode (moved q t v) o = (.ok (), o') := by
  obtain ⟨hv, hl, rfl⟩ := Ty.encode_ok t v ho h
  have e := moved_wire q t v hf
  rw [← e] at hl ⊢
  exact ((Ty.encode_encodes _ _).emits (moved_encodable q t v hf hv) o ho).1 hl

/-- C117 (part). What one platform has encoded is decoded by another to the value that was encoded (up
to what the format does not carry), if the other platform has all its times; and exactly the encoding
is consumed. Missing: what C09 lacks, and times that the other platform does not have, see
`C117_time_false`. -/
theorem C117_portable_partial (q : TimePlatform) (t : Ty) (ht : t.WF) (v : t.Val)
    (hs : Supported t v) (hf : Fits q t v) (o o' : Output) (ho : o.position ≤ o.capacity)
    (h : t.encode v o = (.ok (), o')) (rest : List Byte) :
    (onPlatform q t).decode ⟨o'.asSlice ++ rest, o.position⟩
      = (.ok (carried (onPlatform q t) (moved q t v)), ⟨o'.asSlice ++ rest, o'.position⟩) := by
  obtain ⟨hv, hl, rfl⟩ := Ty.encode_ok t v ho h
  have hobs := Output.put_obs ho hl
  have hlen : o.asSlice.length = o.position := by
    show (o.buf.take o.pos).length = o.pos
    rw [List.length_take]
    exact Nat.min_eq_left ho
  rw [hobs.2.2.1, hobs.1, List.append_assoc, ← hlen, ← moved_wire q t v hf]
  exact Ty.decode_decodes _ (onPlatform_wf q t ht) _ (moved_supported q t v hs)
    (moved_encodable q t v hf hv) o.asSlice rest

/-- `(SystemTime, Option<usize>)`. -/
abbrev stampTy (p : TimePlatform) : Ty := .tuple (.cons (.systemTime p) (.cons (.option .usize) .nil))

/-- One second and a half behind the epoch. -/
abbrev stampVal : (stampTy linuxTime).Val := (⟨1500000000, by decide⟩, some (show Nat from 7), ())

example : (stampTy linuxTime).WF ∧ Supported (stampTy linuxTime) stampVal ∧
    Fits narrowTime (stampTy linuxTime) stampVal ∧
    (∃ o', (stampTy linuxTime).encode stampVal (Output.new (List.replicate 11 0)) = (.ok (), o')) ∧
    onPlatform narrowTime (stampTy linuxTime) = stampTy narrowTime ∧
    carried (stampTy narrowTime) (moved narrowTime (stampTy linuxTime) stampVal)
      = (⟨1000000000, by decide⟩, some (show Nat from 7), ()) :=
  ⟨⟨trivial, trivial, trivial⟩, ⟨trivial, trivial, trivial⟩,
    ⟨⟨by decide, fun h => absurd (show (1500000000 : Int) = _ from h.2) (by decide)⟩, trivial, trivial⟩,
    ⟨_, rfl⟩, rfl, rfl⟩

/-- C117 (part). `MAX_ENCODED_SIZE` is the same on all platforms, whatever sizes types have in memory.
Missing: types with a `Result`, see `C117_false_size`. -/
theorem C117_size_partial (q : TimePlatform) (sizeOf sizeOf' : Ty → Nat) (t : Ty)
    (h : Everywhere NotResult t) : (onPlatform q t).maxSize sizeOf' = t.maxSize sizeOf :=
  maxSize_platform q sizeOf sizeOf' t h

example : Everywhere NotResult (stampTy linuxTime) :=
  ⟨trivial, trivial, ⟨trivial, trivial⟩, trivial⟩

/-- C117 is false of times that the other platform does not have: it refuses them. -/
theorem C117_time_false (p q : TimePlatform) (v : (Ty.systemTime p).Val)
    (h : v.val ≠ -(2 : Int) ^ 63 * nanosPerSec)
    (hn : ¬ (q.lo ≤ v.val.tdiv 1000000000 * 1000000000 ∧ v.val.tdiv 1000000000 * 1000000000 ≤ q.hi)) :
    EncodesTo (.systemTime p) v (leBytesInt 8 (v.val.tdiv 1000000000)) ∧
    Yields (onPlatform q (.systemTime p)).decode (leBytesInt 8 (v.val.tdiv 1000000000))
      (.err (.systemTime (v.val.tdiv 1000000000))) := by
  refine ⟨encodesTo' (t := .systemTime p) (v := v) (fun h' => h h'.2) rfl, ?_⟩
  have ht := truncSeconds_mem p v.val v.property
  have hlb := p.lo_bound
  have hhb := p.hi_bound
  rw [show ((nanosPerSec : Nat) : Int) = 1000000000 from rfl] at ht hlb hhb
  exact (C41_decode q _ (by omega)).2 hn

example : ∃ v : (Ty.systemTime linuxTime).Val, v.val ≠ -(2 : Int) ^ 63 * nanosPerSec ∧
    ¬ (narrowTime.lo ≤ v.val.tdiv 1000000000 * 1000000000 ∧
      v.val.tdiv 1000000000 * 1000000000 ≤ narrowTime.hi) :=
  ⟨⟨-1500000000, by decide⟩, by decide⟩

/-- C117 is false of the size of a `Result`: that of `Result<usize, ()>` is nine octets where `usize`
has eight octets in memory, and three where it has two. -/
theorem C117_false_size : ∃ t : Ty, t.HasSized ∧ ∀ sizeOf sizeOf' : Ty → Nat,
    sizeOf (.unit .unit) = 0 → sizeOf' (.unit .unit) = 0 → sizeOf .usize = 8 → sizeOf' .usize = 2 →
    t.maxSize sizeOf = 9 ∧ t.maxSize sizeOf' = 3 :=
  ⟨.result .usize (.unit .unit), ⟨trivial, trivial⟩, fun s s' h1 h2 h3 h4 => by
    simp [Ty.maxSize, h1, h2, h3, h4]⟩

end Oct.Props
