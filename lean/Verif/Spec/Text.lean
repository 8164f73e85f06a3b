/-
Specification of UTF-8 text: the concatenation of the encodings of chars, where the encoding of one
char is Lean core's `String.utf8EncodeChar`.
-/
namespace Oct.Spec

/-- UTF-8 of a sequence of chars. -/
def utf8 (cs : List Char) : List UInt8 := cs.flatMap String.utf8EncodeChar

/-- The octets are the UTF-8 encoding of some chars. -/
def IsUtf8 (bs : List UInt8) : Prop := ∃ cs : List Char, bs = utf8 cs

end Oct.Spec
