import Verif.Model.Formatting
import Verif.Model.StringErrors
/-
`Debug` of the errors, which is derived: oct/src/error/*.rs. What `derive(Debug)` writes is modelled after
the documentation of `core::fmt` (`DebugStruct`, `DebugTuple`); of the options of a formatter, only the
alternate form is modelled (`{:?}` and `{:#?}`). SIMPLIFICATION: text is what was written in total, and
writers do not fail. SIMPLIFICATION: a discriminant is shown as its number; `bool` as discriminant is never
unassigned.
-/
namespace Oct

mutual

/-- What a derived `Debug` tells its formatter. -/
inductive Shown where
  /-- An integer, with its own `Debug`. -/
  | num (i : Int)
  /-- `Name` -/
  | unit (name : String)
  /-- `debug_tuple`; a pair has no name. -/
  | tuple (name : String) (args : ShownArgs)
  /-- `debug_struct` -/
  | struct (name : String) (fields : ShownFields)

/-- The values in a tuple. -/
inductive ShownArgs where
  | last (x : Shown)
  | cons (x : Shown) (rest : ShownArgs)

/-- The fields of a structure. -/
inductive ShownFields where
  | last (field : String) (x : Shown)
  | cons (field : String) (x : Shown) (rest : ShownFields)

end

mutual

/-- `{:?}` -/
def Shown.plain : Shown → List Char
  | .num i => showInt i
  | .unit n => n.toList
  | .tuple n a => n.toList ++ '(' :: (a.plain ++ [')'])
  | .struct n f => n.toList ++ ' ' :: '{' :: ' ' :: (f.plain ++ [' ', '}'])

def ShownArgs.plain : ShownArgs → List Char
  | .last x => x.plain
  | .cons x a => x.plain ++ ',' :: ' ' :: a.plain

def ShownFields.plain : ShownFields → List Char
  | .last n x => n.toList ++ ':' :: ' ' :: x.plain
  | .cons n x f => n.toList ++ ':' :: ' ' :: (x.plain ++ ',' :: ' ' :: f.plain)

end

mutual

/-- `{:#?}` -/
def Shown.pretty : Shown → List Char
  | .num i => showInt i
  | .unit n => n.toList
  | .tuple n a => n.toList ++ '(' :: '\n' :: (a.pretty ++ [')'])
  | .struct n f => n.toList ++ ' ' :: '{' :: '\n' :: (f.pretty ++ ['}'])

def ShownArgs.pretty : ShownArgs → List Char
  | .last x => indented true (x.pretty ++ [',', '\n'])
  | .cons x a => indented true (x.pretty ++ [',', '\n']) ++ a.pretty

def ShownFields.pretty : ShownFields → List Char
  | .last n x => indented true (n.toList ++ ':' :: ' ' :: (x.pretty ++ [',', '\n']))
  | .cons n x f => indented true (n.toList ++ ':' :: ' ' :: (x.pretty ++ [',', '\n'])) ++ f.pretty

end

/-- A variant or structure with one value and no name for it. -/
def Shown.wrap (name : String) (x : Shown) : Shown := .tuple name (.last x)

/-- One field. -/
def Shown.struct1 (name a : String) (x : Shown) : Shown := .struct name (.last a x)

/-- Two fields. -/
def Shown.struct2 (name a : String) (x : Shown) (b : String) (y : Shown) : Shown :=
  .struct name (.cons a x (.last b y))

/-- Three fields. -/
def Shown.struct3 (name a : String) (x : Shown) (b : String) (y : Shown) (c : String) (z : Shown) : Shown :=
  .struct name (.cons a x (.cons b y (.last c z)))

/-- `Debug` of `BorrowError` in the standard library. -/
def borrowShown : Shown := .unit "BorrowError"

/-- `Debug` of the encode errors: oct/src/error/usize_encode_error.rs:28-33, isize_encode_error.rs:28-33,
collection_encode_error.rs:30-38, item_encode_error.rs:29-37, enum_encode_error.rs:29-37,
ref_cell_encode_error.rs:31-39, generic_encode_error.rs:41-53; that of a pair is the standard library's. -/
def EncErr.shown : EncErr → Shown
  | .usize n => .wrap "UsizeEncodeError" (.num n)
  | .isize i => .wrap "IsizeEncodeError" (.num i)
  | .badLength e => .wrap "BadLength" e.shown
  | .badItem e => .wrap "BadItem" e.shown
  | .item i e => .struct2 "ItemEncodeError" "index" (.num i) "error" e.shown
  | .pair i e => .tuple "" (.cons (.num i) (.last e.shown))
  | .badDiscriminant e => .wrap "BadDiscriminant" e.shown
  | .badField e => .wrap "BadField" e.shown
  | .badBorrow => .wrap "BadBorrow" borrowShown
  | .badValue e => .wrap "BadValue" e.shown
  | .gLargeIsize i => .wrap "LargeIsize" (.wrap "IsizeEncodeError" (.num i))
  | .gLargeUsize n => .wrap "LargeUsize" (.wrap "UsizeEncodeError" (.num n))

/-- `Debug` of `Utf8Error` (oct/src/error/utf8_error.rs:26-34). -/
def utf8Shown (value : Byte) (index : Nat) : Shown :=
  .struct2 "Utf8Error" "value" (.num value.toNat) "index" (.num index)

/-- `Debug` of `LengthError` (oct/src/error/length_error.rs:33-41). -/
def lengthShown (capacity len : Nat) : Shown :=
  .struct2 "LengthError" "capacity" (.num capacity) "len" (.num len)

/-- `Debug` of `CStringDecodeError` (oct/src/error/c_string_decode_error.rs:32-37). -/
def cStringShown (index : Nat) : Shown := .struct1 "CStringDecodeError" "index" (.num index)

/-- `Debug` of `NonZeroDecodeError` (oct/src/error/non_zero_decode_error.rs:28-29). -/
def nonZeroShown : Shown := .unit "NonZeroDecodeError"

/-- `Debug` of `SystemTimeDecodeError` (oct/src/error/system_time_decode_error.rs:30-35). -/
def systemTimeShown (t : Int) : Shown := .struct1 "SystemTimeDecodeError" "timestamp" (.num t)

/-- `Debug` of the decode errors: those above, oct/src/error/char_decode_error.rs:32-37,
collection_decode_error.rs:34-49, item_decode_error.rs:29-37, enum_decode_error.rs:29-46 and
generic_decode_error.rs:46-76. -/
def DecErr.shown : DecErr → Shown
  | .char c => .struct1 "CharDecodeError" "code_point" (.num c)
  | .cString i => cStringShown i
  | .nonZero => nonZeroShown
  | .systemTime t => systemTimeShown t
  | .length c l => lengthShown c l
  | .utf8 v i => utf8Shown v i
  | .badLength e => .wrap "BadLength" e.shown
  | .badItem e => .wrap "BadItem" e.shown
  | .item i e => .struct2 "ItemDecodeError" "index" (.num i) "error" e.shown
  | .unassigned v => .struct1 "UnassignedDiscriminant" "value" (.num v)
  | .badField e => .wrap "BadField" e.shown
  | .gBadString v i => .wrap "BadString" (utf8Shown v i)
  | .gNullString i => .wrap "NullString" (cStringShown i)
  | .gNullInteger => .wrap "NullInteger" nonZeroShown
  | .gSmallBuffer c l => .wrap "SmallBuffer" (lengthShown c l)
  | .gUnassigned v => .struct1 "UnassignedDiscriminant" "value" (.num v)
  | .gNarrowSystemTime t => .wrap "NarrowSystemTime" (systemTimeShown t)

/-- `Debug` of `StringError` (oct/src/error/string_error.rs:28-40) and `Utf16Error`
(oct/src/error/utf16_error.rs:26-34). -/
def StringError.shown : StringError → Shown
  | .badUtf16 v i => .wrap "BadUtf16" (.struct2 "Utf16Error" "value" (.num v.toNat) "index" (.num i))
  | .badUtf8 v i => .wrap "BadUtf8" (utf8Shown v i)
  | .smallBuffer e => .wrap "SmallBuffer" (lengthShown e.capacity e.len)

/-- `Debug` of `InputError`: oct/src/error/input_error.rs:28-39. -/
def inputShown (capacity position count : Nat) : Shown :=
  .struct3 "InputError" "capacity" (.num capacity) "position" (.num position) "count" (.num count)

/-- `Debug` of `OutputError`: oct/src/error/output_error.rs:25-39. -/
def outputShown (capacity position count : Nat) : Shown :=
  .struct3 "OutputError" "capacity" (.num capacity) "position" (.num position) "count" (.num count)

/-- `Debug` of what `source` gives. -/
def Cause.shown : Cause → Shown
  | .enc e => e.shown
  | .dec e => e.shown
  | .borrow => borrowShown

end Oct
