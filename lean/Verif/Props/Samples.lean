import Verif.Spec.Format
import Verif.Spec.RoundTrip
/-
Concrete types and values used in the examples beside the property theorems.
-/
namespace Oct.Props
open Oct Spec

/-- `struct Sample(Option<u16>, Vec<u8>)`. -/
abbrev sampleTy : Ty :=
  .struct (.cons (.option (.num (.int .u16))) (.cons (.seq .vec (.num (.int .u8))) .nil))

/-- `Sample(Some(0x1234), vec![7, 8])`. -/
def sampleVal : sampleTy.Val := (some (0x1234#16 : BitVec 16), ([7#8, 8#8], ()))

theorem sample_wire : wire sampleTy sampleVal = [1, 0x34, 0x12, 2, 0, 7, 8] := by decide

theorem sample_encodable : Encodable sampleTy sampleVal :=
  ⟨trivial, ⟨by decide, fun _ _ => trivial⟩, trivial⟩

theorem sample_supported : Supported sampleTy sampleVal :=
  ⟨trivial, fun _ _ => trivial, trivial⟩

/-- `#[repr(u8)] enum Shape { Dot = 2, Line(u8), Text(String) = 7 }`. -/
abbrev shapeTy : Ty :=
  .enum (.int .u8) (.cons (some 2) .nil (.cons none (.cons (.num (.int .u8)) .nil)
    (.cons (some 7) (.cons (.str .string) .nil) .nil)))

/-- `Shape::Line(5)`. -/
def shapeVal : shapeTy.Val := .inr (.inl (5#8, ()))

theorem shape_wire : wire shapeTy shapeVal = [3, 5] := by decide

theorem shape_encodable : Encodable shapeTy shapeVal := ⟨trivial, trivial, trivial⟩

theorem shape_supported : Supported shapeTy shapeVal := ⟨trivial, trivial⟩

/-- A platform like Linux, where a `SystemTime` is a signed sixty-four-bit number of seconds and a
number of nanoseconds, in a build with overflow checks. -/
def linuxTime : TimePlatform where
  lo := -(2 : Int) ^ 63 * nanosPerSec
  hi := (2 : Int) ^ 63 * nanosPerSec - 1
  overflowChecks := true
  lo_le := by decide
  le_hi := by decide
  lo_bound := by decide
  hi_bound := by decide

end Oct.Props
