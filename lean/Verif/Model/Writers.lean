import Verif.Model.StringErrors
import Verif.Model.Formatting
/-
`Display` and `Debug` as programs that call a writer, which may refuse what it is given: `impl Display` in oct/src/error,
and the impls for containers and slots. What `write!` does is modelled after `core::fmt::write`: literals are written and
arguments are shown in order, and the first failure is returned. In how many pieces numbers are written is left open.
-/
namespace Oct

/-- `fmt::Write::write_str` of a writer with state `σ`: whether it succeeds, and the state then. -/
abbrev Writer (σ : Type) := List Char → σ → Bool × σ

/-- `fmt` of an impl of `Display` or `Debug`, for writers with state `σ`. -/
abbrev Shower (σ : Type) := Writer σ → FmtOptions → σ → Bool × σ

/-- A piece of the format string of `write!`: a literal, or an argument with the options of its placeholder. -/
inductive FmtPiece (σ : Type) where
  | lit (s : List Char)
  | arg (o : FmtOptions) (f : Shower σ)

variable {σ : Type}

/-- `write!(f, ..)`; the options of `f` do not matter. Literals that are empty are not written. -/
def writeFmt : List (FmtPiece σ) → Shower σ
  | [], _, _, s => (true, s)
  | .lit [] :: l, w, o, s => writeFmt l w o s
  | .lit (c :: cs) :: l, w, o, s =>
    match w (c :: cs) s with
    | (true, s) => writeFmt l w o s
    | (false, s) => (false, s)
  | .arg p f :: l, w, o, s =>
    match f w p s with
    | (true, s) => writeFmt l w o s
    | (false, s) => (false, s)

/-- The impls of the standard library that the crate uses. -/
structure StdFmt (σ : Type) where
  /-- `Display` of integers. -/
  int : Int → Shower σ
  /-- `UpperHex` of unsigned integers. -/
  upperHex : Nat → Shower σ
  /-- `Display` of `BorrowError`. -/
  borrow : Shower σ

namespace FmtPiece

/-- A literal. -/
def str (s : String) : FmtPiece σ := .lit (text s)

/-- `{}` -/
def shown (f : Shower σ) : FmtPiece σ := .arg .plain f

end FmtPiece

open FmtPiece

/-- `Display` of the encode errors: oct/src/error/usize_encode_error.rs:37-44, isize_encode_error.rs:37-45,
collection_encode_error.rs:46-53, item_encode_error.rs:45-47, enum_encode_error.rs:45-52, ref_cell_encode_error.rs:43-51,
generic_encode_error.rs:57-67 (whose variants hold the errors of the first two). The pair is not `Display`. -/
def EncErr.fmt (std : StdFmt σ) : EncErr → Shower σ
  | .usize n => writeFmt [str "unsigned size value (", shown (std.int n),
      str ") cannot be serialised: must be at most (", shown (std.int 65535), str ")"]
  | .isize i => writeFmt [str "signed size value (", shown (std.int i),
      str ") cannot be serialised: must be in the range (", shown (std.int (-32768)), str ") to (",
      shown (std.int 32767), str ")"]
  | .badLength e => writeFmt [str "unable to encode collection length: ", shown (e.fmt std)]
  | .badItem e => writeFmt [str "unable to encode collection item: ", shown (e.fmt std)]
  | .item i e => writeFmt [str "could not encode item at `", shown (std.int i), str "`: ", shown (e.fmt std)]
  | .pair _ _ => fun _ _ s => (true, s)
  | .badDiscriminant e => writeFmt [str "discriminant could not be encoded: ", shown (e.fmt std)]
  | .badField e => writeFmt [str "field could not be encoded: ", shown (e.fmt std)]
  | .badBorrow => writeFmt [str "unable to encode reference cell: ", shown std.borrow]
  | .badValue e => writeFmt [str "unable to encode reference cell: ", shown (e.fmt std)]
  | .gLargeUsize n => writeFmt [shown (writeFmt [str "unsigned size value (", shown (std.int n),
      str ") cannot be serialised: must be at most (", shown (std.int 65535), str ")"])]
  | .gLargeIsize i => writeFmt [shown (writeFmt [str "signed size value (", shown (std.int i),
      str ") cannot be serialised: must be in the range (", shown (std.int (-32768)), str ") to (",
      shown (std.int 32767), str ")"])]

/-- `Display` of `Utf8Error`: oct/src/error/utf8_error.rs:38-40. -/
def fmtUtf8 (std : StdFmt σ) (v : Byte) (i : Nat) : Shower σ :=
  writeFmt [str "found invalid utf-8 octet ",
    .arg { alternate := true, zeroPad := true, width := some 2 } (std.upperHex v.toNat), str " at offset (",
    shown (std.int i), str ")"]

/-- `Display` of `CStringDecodeError`: oct/src/error/c_string_decode_error.rs:41-43. -/
def fmtCString (std : StdFmt σ) (i : Nat) : Shower σ :=
  writeFmt [str "expected c string but found null value within bounds at '", shown (std.int i), str "`"]

/-- `Display` of `NonZeroDecodeError`: oct/src/error/non_zero_decode_error.rs:33-35. -/
def fmtNonZero : Shower σ := writeFmt [str "expected non-zero integer but found `0`"]

/-- `Display` of `SystemTimeDecodeError`: oct/src/error/system_time_decode_error.rs:40-42. -/
def fmtSystemTime (std : StdFmt σ) (t : Int) : Shower σ :=
  writeFmt [str "could not represent `", shown (std.int t), str "` as a system timestamp"]

/-- `Display` of `LengthError`: oct/src/error/length_error.rs:45-47. -/
def fmtLength (std : StdFmt σ) (c l : Nat) : Shower σ :=
  writeFmt [str "collection of size (", shown (std.int c), str ") cannot hold (", shown (std.int l), str ") elements"]

/-- `Display` of the decode errors: the above and oct/src/error/char_decode_error.rs:41-43,
collection_decode_error.rs:57-64, item_decode_error.rs:45-47, enum_decode_error.rs:54-65, generic_decode_error.rs:80-101. -/
def DecErr.fmt (std : StdFmt σ) : DecErr → Shower σ
  | .char c => writeFmt [str "code point U+", .arg { zeroPad := true, width := some 4 } (std.upperHex c),
      str " is not defined"]
  | .cString i => fmtCString std i
  | .nonZero => fmtNonZero
  | .systemTime t => fmtSystemTime std t
  | .length c l => fmtLength std c l
  | .utf8 v i => fmtUtf8 std v i
  | .badLength e => writeFmt [str "unable to decode collection length: ", shown (e.fmt std)]
  | .badItem e => writeFmt [str "unable to decode collection item: ", shown (e.fmt std)]
  | .item i e => writeFmt [str "could not decode item at `", shown (std.int i), str "`: ", shown (e.fmt std)]
  | .unassigned v => writeFmt [str "`", shown (std.int v),
      str "` is not an assigned discriminant for the given enumeration"]
  | .badField e => writeFmt [str "variant could not be decoded: ", shown (e.fmt std)]
  | .gBadString v i => writeFmt [shown (fmtUtf8 std v i)]
  | .gNullString i => writeFmt [shown (fmtCString std i)]
  | .gNullInteger => writeFmt [shown fmtNonZero]
  | .gSmallBuffer c l => writeFmt [shown (fmtLength std c l)]
  | .gUnassigned v => writeFmt [str "discriminant value `", .arg { alternate := true } (std.upperHex v),
      str " has not been assigned"]
  | .gNarrowSystemTime t => writeFmt [shown (fmtSystemTime std t)]

/-- `Display` of `Utf16Error`: oct/src/error/utf16_error.rs:38-40. -/
def fmtUtf16 (std : StdFmt σ) (v : BitVec 16) (i : Nat) : Shower σ :=
  writeFmt [str "found invalid utf-16 hextet ",
    .arg { alternate := true, zeroPad := true, width := some 4 } (std.upperHex v.toNat), str " at offset (",
    shown (std.int i), str ")"]

/-- `Display` of `StringError`: oct/src/error/string_error.rs:44-55. -/
def StringError.fmt (std : StdFmt σ) : StringError → Shower σ
  | .badUtf16 v i => writeFmt [str "bad utf-16: ", shown (fmtUtf16 std v i)]
  | .badUtf8 v i => writeFmt [str "bad utf-8: ", shown (fmtUtf8 std v i)]
  | .smallBuffer e => writeFmt [str "buffer too small: ", shown (fmtLength std e.capacity e.len)]

/-- `Display` of `InputError`: oct/src/error/input_error.rs:43-51. -/
def fmtInput (std : StdFmt σ) (capacity position count : Nat) : Shower σ :=
  writeFmt [str "cannot read (", shown (std.int count), str ") bytes at (", shown (std.int position),
    str ") from input stream with capacity of (", shown (std.int capacity), str ")"]

/-- `Display` of `OutputError`: oct/src/error/output_error.rs:43-51. -/
def fmtOutput (std : StdFmt σ) (capacity position count : Nat) : Shower σ :=
  writeFmt [str "cannot write (", shown (std.int count), str ") bytes at (", shown (std.int position),
    str ") to output stream with capacity of (", shown (std.int capacity), str ")"]

/-- What is done with the result of a call that cannot fail. -/
def Res.andRun {α : Type} (r : Res Empty α) (f : α → Bool × σ) : Res Empty (Bool × σ) :=
  match r with
  | .ok a => .ok (f a)
  | .err e => nomatch e
  | .panic p => .panic p
  | .ub u => .ub u

/-- `Debug for SizedSlice`: oct/src/sized_slice/mod.rs:234-239; `slice` is `Debug` of `[T]`. -/
def SizedSlice.fmt {α : Type} (slice : List α → Shower σ) (s : SizedSlice α) (w : Writer σ) (o : FmtOptions) (st : σ) :
    Res Empty (Bool × σ) :=
  s.asSlice.andRun fun l => slice l w o st

/-- `Debug for SizedStr` (oct/src/sized_str/mod.rs:138-143) and `Display` (145-150); `str` is the impl of `str`. -/
def SizedStr.fmt (str : List Byte → Shower σ) (s : SizedStr) (w : Writer σ) (o : FmtOptions) (st : σ) :
    Res Empty (Bool × σ) :=
  s.inner.asSlice.andRun fun l => str l w o st

/-- `Debug for Slot`: oct/src/slot/mod.rs:356-359. -/
def Slot.fmt (slice : List Byte → Shower σ) (s : Slot) (w : Writer σ) (o : FmtOptions) (st : σ) :
    Res Empty (Bool × σ) :=
  s.asSlice.andRun fun l => writeFmt [shown (slice l)] w o st

end Oct
