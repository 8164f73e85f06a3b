import Verif.Model.ErrorTypes
import Verif.Model.SizedStr
/-
Messages and sources of `StringError` and `Utf16Error`: oct/src/error/string_error.rs and utf16_error.rs.
-/
namespace Oct

/-- `Display` of `Utf16Error`: oct/src/error/utf16_error.rs:39. -/
def utf16Message (value : BitVec 16) (index : Nat) : List Char :=
  text "found invalid utf-16 hextet " ++ showHexAlt 4 value.toNat ++ text " at offset (" ++ showNat index ++
    text ")"

/-- What `source` of a `StringError` may give. -/
inductive StringCause where
  /-- A `Utf16Error`. -/
  | utf16 (value : BitVec 16) (index : Nat)
  /-- A `Utf8Error` or a `LengthError`. -/
  | dec (e : DecErr)

namespace StringError

/-- `Display` of `StringError`: oct/src/error/string_error.rs:44-55. -/
def message : StringError → List Char
  | .badUtf16 v i => text "bad utf-16: " ++ utf16Message v i
  | .badUtf8 v i => text "bad utf-8: " ++ (DecErr.utf8 v i).message
  | .smallBuffer e => text "buffer too small: " ++ (DecErr.length e.capacity e.len).message

/-- `Error::source` of `StringError`: oct/src/error/string_error.rs:60-68. -/
def source : StringError → Option StringCause
  | .badUtf16 v i => some (.utf16 v i)
  | .badUtf8 v i => some (.dec (.utf8 v i))
  | .smallBuffer e => some (.dec (.length e.capacity e.len))

end StringError

/-- `Error::source` of these; `Utf16Error` (oct/src/error/utf16_error.rs:43) keeps the default. -/
def StringCause.source : StringCause → Option Cause
  | .utf16 _ _ => none
  | .dec e => e.source

/-- What is displayed for them. -/
def StringCause.message : StringCause → List Char
  | .utf16 v i => utf16Message v i
  | .dec e => e.message

end Oct
