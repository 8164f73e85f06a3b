import Verif.Model.CopyIter
import Verif.Model.Slot
import Verif.Model.SizedStr
import Verif.Props.Samples
/-
The unit tests and documentation examples of the crate, replayed against the model.

None of this is a proof of a property. It is evidence that the model means what the code means: the
authors' own expectations, transcribed one by one, hold of the model.

Left out: the test for formatting of benchmarks (there is none), the examples that only print or
only compare `size_of_val`, and the examples with sockets (the exchange over a network is
`Verif.Model.Party`; the encodings of its messages are below).
-/
namespace Oct.Props.Tests
open Oct

/-- `test!` of oct/src/encode/encode/tests.rs:29-41: encode into a zeroed buffer of exactly the
expected size and compare what was written. -/
def encodes (t : Ty) (v : t.Val) (data : List Byte) : Bool :=
  match t.encode v (Output.new (List.replicate data.length 0)) with
  | (.ok (), o) => o.buf.take o.position == data
  | _ => false

/-- `test!` of oct/src/decode/decode/tests.rs:28-37: decode and compare the values. -/
def decodes (t : Ty) (data : List Byte) (v : t.Val) : Bool :=
  match (t.decode (Input.new data)).1 with
  | .ok w => decide (w = v)
  | _ => false

abbrev u8 : Ty := .num (.int .u8)
abbrev u16 : Ty := .num (.int .u16)
abbrev u32 : Ty := .num (.int .u32)
abbrev u64 : Ty := .num (.int .u64)
abbrev u128 : Ty := .num (.int .u128)
abbrev i8 : Ty := .num (.int .i8)
abbrev i16 : Ty := .num (.int .i16)
abbrev i32 : Ty := .num (.int .i32)
abbrev i64 : Ty := .num (.int .i64)
abbrev f64 : Ty := .num .f64

/-! ### `test_encode`: oct/src/encode/encode/tests.rs:43-87 -/

example : encodes u8 0x00#8 [0x00] := by decide
example : encodes u8 0xFF#8 [0xFF] := by decide
example : encodes u8 0x7F#8 [0x7F] := by decide

example : encodes u16 0x0F7E#16 [0x7E, 0x0F] := by decide

example : encodes u32 0x002F87E7#32 [0xE7, 0x87, 0x2F, 0x00] := by decide

example : encodes u64 0xF337CF8BDB032B39#64 [0x39, 0x2B, 0x03, 0xDB, 0x8B, 0xCF, 0x37, 0xF3] := by
  decide

example : encodes u128 0x45A0156A3677178A832E3C2C8410581A#128
    [0x1A, 0x58, 0x10, 0x84, 0x2C, 0x3C, 0x2E, 0x83,
     0x8A, 0x17, 0x77, 0x36, 0x6A, 0x15, 0xA0, 0x45] := by
  decide

example : encodes (.sizedStr 0x1) ⟨[0x41], by decide⟩ [0x01, 0x00, 0x41] := by decide

/-- `"løgmaður"` in UTF-8, as the compiler writes the literal. -/
example : "løgmaður".toUTF8.toList =
    [0x6C, 0xC3, 0xB8, 0x67, 0x6D, 0x61, 0xC3, 0xB0, 0x75, 0x72] := by decide +kernel

example : encodes (.sizedStr 0x24)
    ⟨[0x6C, 0xC3, 0xB8, 0x67, 0x6D, 0x61, 0xC3, 0xB0, 0x75, 0x72], by decide⟩
    [0x0A, 0x00, 0x6C, 0xC3, 0xB8, 0x67, 0x6D, 0x61,
     0xC3, 0xB0, 0x75, 0x72] := by
  decide

example : encodes (.array .char 0x5)
    ⟨['δ', 'Ɛ', 'λ', 'Τ', 'α'], rfl⟩
    [0xB4, 0x03, 0x00, 0x00, 0x90, 0x01, 0x00, 0x00,
     0xBB, 0x03, 0x00, 0x00, 0xA4, 0x03, 0x00, 0x00,
     0xB1, 0x03, 0x00, 0x00] := by
  decide

example : encodes (.result u16 .char) (.ok 0x4545#16) [0x00, 0x45, 0x45] := by decide
example : encodes (.result u16 .char) (.err '�') [0x01, 0xFD, 0xFF, 0x00, 0x00] := by decide

example : encodes (.option (.unit .unit)) none [0x00] := by decide
example : encodes (.option (.unit .unit)) (some ()) [0x01] := by decide

example : encodes (.seq .vec u16) [0x8000#16, 0x8000#16, 0x8000#16]
    [0x03, 0x00, 0x00, 0x80, 0x00, 0x80, 0x00, 0x80] := by
  decide

example : encodes (.systemTime linuxTime) ⟨0, by decide⟩
    [0x00, 0x00, 0x00, 0x00, 0x00, 0x00, 0x00, 0x00] := by
  decide

example : encodes (.systemTime linuxTime) ⟨-1000000000, by decide⟩
    [0xFF, 0xFF, 0xFF, 0xFF, 0xFF, 0xFF, 0xFF, 0xFF] := by
  decide

example : encodes (.systemTime linuxTime) ⟨1000000000, by decide⟩
    [0x01, 0x00, 0x00, 0x00, 0x00, 0x00, 0x00, 0x00] := by
  decide

/-! ### `test_encode_derive`: oct/src/encode/encode/tests.rs:89-115 -/

/-- `struct Foo(char)`. -/
abbrev foo : Ty := .struct (.cons .char .nil)

/-- `enum Bar { Unit = 0x45, Pretty(bool) = 127, Teacher { initials: [char; 0x3] } }`, whose
representation is `u8` in one test and `i64` in another. -/
abbrev bar (r : Repr) : Ty :=
  .enum r (.cons (some 0x45) .nil (.cons (some 127) (.cons .bool .nil)
    (.cons none (.cons (.array .char 0x3) .nil) .nil)))

example : encodes foo ('ﷲ', ()) [0xF2, 0xFD, 0x00, 0x00] := by decide

example : encodes (bar (.int .u8)) (.inl ()) [0x45] := by decide

example : encodes (bar (.int .u8)) (.inr (.inl (true, ()))) [0x7F, 0x01] := by decide

example : encodes (bar (.int .u8)) (.inr (.inr (.inl (⟨['T', 'L', '\x00'], rfl⟩, ()))))
    [0x80, 0x54, 0x00, 0x00, 0x00, 0x4C, 0x00, 0x00,
     0x00, 0x00, 0x00, 0x00, 0x00] := by
  decide

/-! ### `test_decode`: oct/src/decode/decode/tests.rs:39-83 -/

example : decodes i8 [0x00] (BitVec.ofInt 8 0x00) := by decide
example : decodes i8 [0x7F] (BitVec.ofInt 8 0x7F) := by decide
example : decodes i8 [0x80] (BitVec.ofInt 8 (-0x80)) := by decide
example : decodes i8 [0xFF] (BitVec.ofInt 8 (-0x01)) := by decide

example : decodes i16 [0x00, 0x00] (BitVec.ofInt 16 0x0000) := by decide
example : decodes i16 [0xFF, 0x7F] (BitVec.ofInt 16 0x7FFF) := by decide
example : decodes i16 [0x00, 0x80] (BitVec.ofInt 16 (-0x8000)) := by decide
example : decodes i16 [0xFF, 0xFF] (BitVec.ofInt 16 (-0x0001)) := by decide

example : decodes i32 [0x00, 0x00, 0x00, 0x00] (BitVec.ofInt 32 0x00000000) := by decide
example : decodes i32 [0xFF, 0xFF, 0xFF, 0x7F] (BitVec.ofInt 32 0x7FFFFFFF) := by decide
example : decodes i32 [0x00, 0x00, 0x00, 0x80] (BitVec.ofInt 32 (-0x80000000)) := by decide
example : decodes i32 [0xFF, 0xFF, 0xFF, 0xFF] (BitVec.ofInt 32 (-0x00000001)) := by decide

example : decodes i64 [0x00, 0x00, 0x00, 0x00, 0x00, 0x00, 0x00, 0x00]
    (BitVec.ofInt 64 0x0000000000000000) := by decide
example : decodes i64 [0xFF, 0xFF, 0xFF, 0xFF, 0xFF, 0xFF, 0xFF, 0x7F]
    (BitVec.ofInt 64 0x7FFFFFFFFFFFFFFF) := by decide
example : decodes i64 [0x00, 0x00, 0x00, 0x00, 0x00, 0x00, 0x00, 0x80]
    (BitVec.ofInt 64 (-0x8000000000000000)) := by decide
example : decodes i64 [0xFF, 0xFF, 0xFF, 0xFF, 0xFF, 0xFF, 0xFF, 0xFF]
    (BitVec.ofInt 64 (-0x0000000000000001)) := by decide

example : decodes u128
    [0x7F, 0x8F, 0x6F, 0x9F, 0x5F, 0xAF, 0x4F, 0xBF,
     0x3F, 0xCF, 0x2F, 0xDF, 0x1F, 0xEF, 0x0F, 0xFF]
    0xFF0FEF1FDF2FCF3FBF4FAF5F9F6F8F7F#128 := by
  decide

example : decodes .char [0xFD, 0xFF, 0x00, 0x00] '�' := by decide

example : decodes (.array .char 0x5)
    [0xBB, 0x03, 0x00, 0x00, 0x91, 0x03, 0x00, 0x00,
     0xBC, 0x03, 0x00, 0x00, 0x94, 0x03, 0x00, 0x00,
     0xB1, 0x03, 0x00, 0x00]
    ⟨['λ', 'Α', 'μ', 'Δ', 'α'], rfl⟩ := by
  decide

example : decodes (.option (.unit .unit)) [0x00] none := by decide
example : decodes (.option (.unit .unit)) [0x01] (some ()) := by decide

example : decodes (.result (.unit .unit) i8) [0x00, 0x00] (.ok ()) := by decide
example : decodes (.result (.unit .unit) i8) [0x01, 0x7F] (.err 0x7F#8) := by decide

example : decodes (.seq .vec u16) [0x02, 0x00, 0xBB, 0xAA, 0xDD, 0xCC] [0xAABB#16, 0xCCDD#16] := by
  decide

example : decodes (.str .string) [0x06, 0x00, 0xE6, 0x97, 0xA5, 0xE6, 0x9C, 0xAC]
    ⟨"日本".toUTF8.toList, by decide +kernel⟩ := by
  decide +kernel

/-! ### `test_decode_derive`: oct/src/decode/decode/tests.rs:85-129 -/

/-- `struct ProcExit { exit_code: i32, timestmap: u64 }`. -/
abbrev procExit : Ty := .struct (.cons i32 (.cons u64 .nil))

/-- `struct NewByte(u8)`. -/
abbrev newByte : Ty := .struct (.cons u8 .nil)

/-- `struct Unit`. -/
abbrev unitStruct : Ty := .struct .nil

/-- `enum UnitOrFields { Unit, Unnamed(i32), Named { timestamp: u64 } }`. -/
abbrev unitOrFields : Ty :=
  .enum .isize (.cons none .nil (.cons none (.cons i32 .nil) (.cons none (.cons u64 .nil) .nil)))

example : decodes procExit
    [0x01, 0x00, 0x00, 0x00, 0x00, 0xE1, 0x0B, 0x5E,
     0x00, 0x00, 0x00, 0x00]
    (0x1#32, (1577836800#64, ())) := by
  decide

example : decodes newByte [0x80] (0x80#8, ()) := by decide

example : decodes unitStruct [] () := by decide

example : decodes unitOrFields
    [0x00, 0x00, 0x00, 0x00, 0x00, 0x00, 0x00, 0x00,
     0x00, 0x00]
    (.inl ()) := by
  decide

example : decodes unitOrFields
    [0x01, 0x00, 0xFF, 0xFF, 0xFF, 0xFF, 0x00, 0x00,
     0x00, 0x00]
    (.inr (.inl (BitVec.ofInt 32 (-0x1), ()))) := by
  decide

example : decodes unitOrFields
    [0x02, 0x00, 0x4C, 0xC8, 0xC5, 0x66, 0x00, 0x00,
     0x00, 0x00]
    (.inr (.inr (.inl (1724237900#64, ())))) := by
  decide

/-! ### `test_sized_encode` and `test_sized_encode_derive`: oct/src/encode/sized_encode/tests.rs:42-102

`sizeOf` is whatever the compiler says; the tested types do not depend on it. -/

/-- `assert_encoded_size!`. -/
def Sizes (t : Ty) (n : Nat) : Prop := ∀ sizeOf : Ty → Nat, t.maxSize sizeOf = n

/-- `Option<NonZero<…>>`. -/
abbrev optNonZero (r : Repr) : Ty := .option (.nonZero r)

example : Sizes .bool 0x1 := fun _ => rfl
example : Sizes .char 0x4 := fun _ => rfl
example : Sizes (.num .f32) 0x4 := fun _ => rfl
example : Sizes (.num .f64) 0x8 := fun _ => rfl
example : Sizes (.num (.int .i128)) 0x10 := fun _ => rfl
example : Sizes (.num (.int .i16)) 0x2 := fun _ => rfl
example : Sizes (.num (.int .i32)) 0x4 := fun _ => rfl
example : Sizes (.num (.int .i64)) 0x8 := fun _ => rfl
example : Sizes (.num (.int .i8)) 0x1 := fun _ => rfl
example : Sizes .isize 0x2 := fun _ => rfl
example : Sizes (.sizedStr 0x45) 0x47 := fun _ => rfl
example : Sizes .infallible 0x0 := fun _ => rfl
example : Sizes .ipAddr 0x11 := fun _ => rfl
example : Sizes .ipv4 0x4 := fun _ => rfl
example : Sizes .ipv6 0x10 := fun _ => rfl
example : Sizes (optNonZero (.int .i128)) 0x11 := fun _ => rfl
example : Sizes (optNonZero (.int .i16)) 0x3 := fun _ => rfl
example : Sizes (optNonZero (.int .i32)) 0x5 := fun _ => rfl
example : Sizes (optNonZero (.int .i64)) 0x9 := fun _ => rfl
example : Sizes (optNonZero (.int .i8)) 0x2 := fun _ => rfl
example : Sizes (optNonZero .isize) 0x3 := fun _ => rfl
example : Sizes (optNonZero (.int .u128)) 0x11 := fun _ => rfl
example : Sizes (optNonZero (.int .u16)) 0x3 := fun _ => rfl
example : Sizes (optNonZero (.int .u32)) 0x5 := fun _ => rfl
example : Sizes (optNonZero (.int .u64)) 0x9 := fun _ => rfl
example : Sizes (optNonZero (.int .u8)) 0x2 := fun _ => rfl
example : Sizes (optNonZero .usize) 0x3 := fun _ => rfl
example : Sizes (.unit .phantomData) 0x0 := fun _ => rfl
example : Sizes .socketAddr 0x1B := fun _ => rfl
example : Sizes .socketAddrV4 0x6 := fun _ => rfl
example : Sizes .socketAddrV6 0x1A := fun _ => rfl
example : Sizes u128 0x10 := fun _ => rfl
example : Sizes u16 0x2 := fun _ => rfl
example : Sizes u32 0x4 := fun _ => rfl
example : Sizes u64 0x8 := fun _ => rfl
example : Sizes u8 0x1 := fun _ => rfl
example : Sizes .usize 0x2 := fun _ => rfl
example : Sizes (.unit .unit) 0x0 := fun _ => rfl
example : Sizes foo 0x4 := fun _ => rfl
example : Sizes (bar (.int .i64)) 0x14 := fun _ => rfl

/-! ### `test_sized_iter_clone`: oct/src/sized_iter/tests.rs:24-46

Octets are `Copy`. Note that the item that `nth` returned is returned again (`C122_false_again`). -/

/-- What `n` calls of `next` give, in order; `none` if a call is undefined or panics. -/
def nexts {α : Type} : Nat → SizedIter α → Option (List (Option α))
  | 0, _ => some []
  | n + 1, it =>
    match it.nextCopy with
    | .ok (x, it') => (nexts n it').map (x :: ·)
    | _ => none

/-- The iterators `data0` and `data1` after line 32. -/
def cloned : Option (SizedIter Byte × SizedIter Byte) :=
  match SizedStr.new 0x9 ⟨"français".toUTF8.toList, by decide +kernel⟩ with
  | .ok data =>
    match data.intoBytes.intoIter.nthCopy true 0x4 with
    | .ok (_, data0) =>
      match data0.clone with
      | .ok data1 => some (data0, data1)
      | _ => none
    | _ => none
  | _ => none

example : cloned.map (fun (data0, data1) => (nexts 6 data0, nexts 6 data1)) = some
    (some [some 0xC3, some 0xA7, some 0x61, some 0x69, some 0x73, none],
     some [some 0xC3, some 0xA7, some 0x61, some 0x69, some 0x73, none]) := by
  decide +kernel

/-! ### `test_sized_iter_double_ended`: oct/src/sized_iter/tests.rs:48-68 -/

/-- Calls of `next` (`false`) and `next_back` (`true`). -/
def bothEnds {α : Type} : List Bool → SizedIter α → Option (List (Option α))
  | [], _ => some []
  | b :: bs, it =>
    match if b then it.nextBack else it.next with
    | .ok (x, it') => (bothEnds bs it').map (x :: ·)
    | _ => none

example : bothEnds [false, true, false, true, false, true, false, true, false, true, false]
    (SizedSlice.fromArray false
      ['H', 'E', 'L', 'L', 'O', ' ', 'W', 'O', 'R', 'L', 'D']).intoIter
    = some [some 'H', some 'D', some 'E', some 'L', some 'L', some 'R', some 'L', some 'O', some 'O',
        some 'W', some ' '] := by
  decide

/-! ### `test_sized_slice_from_iter`: oct/src/sized_slice/tests.rs:25-47

The numbers are those that the test expects; the sine is not modelled. -/

example : ((SizedSlice.fromIter 0x10 [0, 708, 826, 19, 572, 919, 78, 431]).asSlice
    : Res Empty (List Nat)) = .ok [0, 708, 826, 19, 572, 919, 78, 431] := rfl

/-! ### `test_buf_write_read`: oct/src/slot/tests.rs:25-47 -/

/-- The slot after line 39. -/
def slot0 : Res EncErr Unit × Slot := (Slot.new (fun _ => 0) .char).write .char '👍'

example : slot0.1 = .ok () ∧ slot0.2.asSlice = .ok [0x4D, 0xF4, 0x01, 0x00] := by decide

/-- The slot after line 42. -/
def slot1 : Res Empty Unit × Slot := slot0.2.copyFromSlice [0x00, 0xD8, 0x00, 0x00]

example : slot1.1 = .ok () ∧ slot1.2.read .char = .err (.char 0xD800) := by decide

/-- The slot after line 45. -/
def slot2 : Res Empty Unit × Slot := slot1.2.copyFromSlice [0x3A, 0xFF, 0x00, 0x00]

example : slot2.1 = .ok () ∧ slot2.2.read .char = .ok 'Ｚ' := by decide

/-! ### Tests of oct/src/sized_str/tests.rs -/

/-- `test_fixed_str_from_iter`: 26-30. -/
example : (SizedStr.fromIter 0x4 "hello world".toList).map (fun s => s.asBytes (ε := Empty))
    = .ok (.ok "hell".toUTF8.toList) := by
  decide +kernel

/-- `SizedStr::try_from(text).unwrap()`, if it does not panic. -/
def sized (n : Nat) (text : String) : Option SizedStr :=
  if h : Utf8.valid text.toUTF8.toList = true then
    match SizedStr.fromStr n ⟨text.toUTF8.toList, h⟩ with
    | .ok s => some s
    | _ => none
  else none

/-- `string0`, `string1` and `string2` of `test_fixed_str_size`: 34-36. -/
def strings : List (Option SizedStr) :=
  [sized 0x0C "Hello there!", sized 0x12 "MEIN_GROẞ_GOTT", sized 0x05 "Hello"]

/-- `test_fixed_str_size`: 38-48. -/
def compared : List (List (Option (Res Empty (Option Ordering)))) :=
  strings.map fun a => strings.map fun b => a.bind fun a => b.map fun b => a.cmp b

example : compared
    = [[some (.ok (some .eq)), some (.ok (some .lt)), some (.ok (some .gt))],
       [some (.ok (some .gt)), some (.ok (some .eq)), some (.ok (some .gt))],
       [some (.ok (some .lt)), some (.ok (some .lt)), some (.ok (some .eq))]] := by
  decide +kernel

/-- `test_fixed_str_size`: 50-52. -/
example : strings.map (fun a => a.map fun s => s.asBytes (ε := Empty))
    = [some (.ok "Hello there!".toUTF8.toList), some (.ok "MEIN_GROẞ_GOTT".toUTF8.toList),
       some (.ok "Hello".toUTF8.toList)] := by
  decide +kernel

/-- `test_fixed_str_from_utf8`: 55-95. -/
example : SizedStr.fromUtf8 0x3 [0x41, 0xF7, 0x63] = .err (.badUtf8 0xF7 0x1) := by decide

example : "A÷c".toUTF8.toList = [0x41, 0xC3, 0xB7, 0x63] ∧
    ∃ s, SizedStr.fromUtf8 0x4 [0x41, 0xC3, 0xB7, 0x63] = .ok s := ⟨by decide +kernel, _, rfl⟩

example : SizedStr.fromUtf8 0x4 [0x32, 0x30, 0x20, 0xAC] = .err (.badUtf8 0xAC 0x3) := by decide

example : "20€".toUTF8.toList = [0x32, 0x30, 0xE2, 0x82, 0xAC] ∧
    ∃ s, SizedStr.fromUtf8 0x5 [0x32, 0x30, 0xE2, 0x82, 0xAC] = .ok s := ⟨by decide +kernel, _, rfl⟩

/-! ### Examples in the documentation -/

/-- `struct Ints` of oct/src/lib.rs:90-129. -/
abbrev ints : Ty := .struct (.cons u8 (.cons u16 (.cons u32 (.cons u64 (.cons u128 .nil)))))

/-- `VALUE`. -/
def intsVal : ints.Val :=
  (0x00#8, (0x0201#16, (0x06050403#32, (0x0E0D0C0B0A090807#64,
    (0x1E1D1C1B1A191817161514131211100F#128, ())))))

/-- The slot after `buf.write(VALUE)`. -/
def intsSlot : Res EncErr Unit × Slot := (Slot.withCapacity 0x100).write ints intsVal

example : intsSlot.1 = .ok () ∧ intsSlot.2.len = 0x1F ∧
    intsSlot.2.asSlice = .ok
      [0x00, 0x01, 0x02, 0x03, 0x04, 0x05, 0x06, 0x07,
       0x08, 0x09, 0x0A, 0x0B, 0x0C, 0x0D, 0x0E, 0x0F,
       0x10, 0x11, 0x12, 0x13, 0x14, 0x15, 0x16, 0x17,
       0x18, 0x19, 0x1A, 0x1B, 0x1C, 0x1D, 0x1E] ∧
    intsSlot.2.read ints = .ok intsVal := by
  decide +kernel

/-- oct/src/lib.rs:142-151. -/
example : encodes .char 'Ж' [0x16, 0x04, 0x00, 0x00] := by decide

/-- oct/src/lib.rs:155-176: five characters one after another are the fields of a tuple. -/
example : encodes (.tuple (.cons .char (.cons .char (.cons .char (.cons .char (.cons .char .nil))))))
    ('ل', ('ا', ('م', ('د', ('ا', ())))))
    [0x44, 0x06, 0x00, 0x00, 0x27, 0x06, 0x00, 0x00,
     0x45, 0x06, 0x00, 0x00, 0x2F, 0x06, 0x00, 0x00,
     0x27, 0x06, 0x00, 0x00] := by
  decide

/-- oct/src/lib.rs:185-205. -/
example : decodes u16 [0x54, 0x45] 0x4554#16 := by decide

example : ∃ i, u8.decode (Input.new [0x54, 0x45]) = (.ok 0x54#8, i) ∧
    (u8.decode i).1 = .ok 0x45#8 := ⟨_, rfl, rfl⟩

example : decodes (.tuple (.cons u8 (.cons u8 .nil))) [0x54, 0x45] (0x54#8, (0x45#8, ())) := by decide

/-- `enum Area` of oct/src/lib.rs:218-227. -/
abbrev area : Ty :=
  .enum .isize (.cons none .nil (.cons none .nil (.cons none .nil (.cons none .nil .nil))))

/-- `enum Request` of oct/src/lib.rs:229-236. -/
abbrev request : Ty :=
  .enum .isize (.cons none (.cons area .nil) (.cons none (.cons area .nil)
    (.cons none (.cons area .nil) .nil)))

/-- `enum Response` of oct/src/lib.rs:238-245. -/
abbrev response : Ty :=
  .enum .isize (.cons none (.cons f64 .nil) (.cons none (.cons f64 .nil)
    (.cons none (.cons f64 .nil) .nil)))

/-- `Request::AtmosphericTemperature { area: Area::AlQuds }` arrives (lib.rs:279-280, 301-303). -/
def requestSlot : Res EncErr Unit × Slot :=
  (Slot.new (fun _ => 0) request).write request (.inr (.inr (.inl (.inl (), ()))))

example : requestSlot.1 = .ok () ∧ requestSlot.2.asSlice = .ok [0x02, 0x00, 0x00, 0x00] ∧
    requestSlot.2.read request = .ok (.inr (.inr (.inl (.inl (), ())))) := by
  decide

/-- `Response::AtmosphericTemperature(44.4)` arrives (lib.rs:284-286, 307-310). -/
def responseSlot : Res EncErr Unit × Slot :=
  (Slot.new (fun _ => 0) response).write response (.inr (.inr (.inl (0x4046333333333333#64, ()))))

example : responseSlot.1 = .ok () ∧
    responseSlot.2.asSlice = .ok [0x02, 0x00, 0x33, 0x33, 0x33, 0x33, 0x33, 0x33, 0x46, 0x40] ∧
    responseSlot.2.read response = .ok (.inr (.inr (.inl (0x4046333333333333#64, ())))) := by
  decide

/-- `enum Request` of oct/src/slot/mod.rs:54-61. -/
abbrev chat : Ty :=
  .enum .isize (.cons none (.cons (.sizedStr 0x40) .nil) (.cons none (.cons (.sizedStr 0x40) .nil)
    (.cons none (.cons (.sizedStr 0x80) .nil) .nil)))

/-- The slot of oct/src/slot/mod.rs:63-65. -/
def chatSlot : Res EncErr Unit × Slot :=
  (Slot.new (fun _ => 0) chat).write chat
    (.inl (⟨"epsiloneridani".toUTF8.toList, by decide +kernel⟩, ()))

example : chatSlot.1 = .ok () ∧
    chatSlot.2.asSlice = .ok ([0, 0, 0x0E, 0] ++ "epsiloneridani".toUTF8.toList) := by
  decide +kernel

/-- `enum Num` of oct/src/encode/mod.rs:71-97. -/
abbrev num : Ty :=
  .enum .isize (.cons (some 0x2) .nil (.cons none .nil (.cons (some 0x0) .nil (.cons none .nil .nil))))

/-- The slot after `Zero`, `One`, `Two` and `Three` in turn. -/
def numSlots : List (Res Empty (List Byte)) :=
  let w (s : Slot) (v : num.Val) : Slot := (s.write num v).2
  let s0 := w (Slot.withCapacity 2) (.inr (.inr (.inl ())))
  let s1 := w s0 (.inr (.inr (.inr (.inl ()))))
  let s2 := w s1 (.inl ())
  let s3 := w s2 (.inr (.inl ()))
  [s0, s1, s2, s3].map Slot.asSlice

example : numSlots =
    [.ok [0x00, 0x00], .ok [0x01, 0x00], .ok [0x02, 0x00], .ok [0x03, 0x00]] := by
  decide

end Oct.Props.Tests
