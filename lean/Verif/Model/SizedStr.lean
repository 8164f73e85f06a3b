import Verif.Model.SizedSlice
/-
`SizedStr` as it is stored: a `SizedSlice<u8, N>`. Files: oct/src/sized_str/mod.rs, conv.rs, cmp.rs.
-/
namespace Oct

/-- `StringError`: oct/src/error/string_error.rs:31-40. -/
inductive StringError where
  /-- `BadUtf16(Utf16Error { value, index })`; nothing in the crate returns it. -/
  | badUtf16 (value : BitVec 16) (index : Nat)
  /-- `SmallBuffer(LengthError)`. -/
  | smallBuffer (e : LengthError)
  /-- `BadUtf8(Utf8Error { value, index })`. -/
  | badUtf8 (value : Byte) (index : Nat)
  deriving DecidableEq

/-- `str`: octets that `str::from_utf8` accepts. -/
abbrev Str := {bs : List Byte // Utf8.valid bs = true}

/-- `char::encode_utf8` and `char::len_utf8` of std: Lean core's UTF-8 encoder. -/
def charUtf8 (c : Char) : List Byte := String.utf8EncodeChar c

/-- `pub struct SizedStr<const N: usize>(SizedSlice<u8, N>)`: oct/src/sized_str/mod.rs:75. -/
structure SizedStr where
  inner : SizedSlice Byte
  deriving DecidableEq

namespace SizedStr

/-- `SizedStr::from_raw_parts` (unsafe): oct/src/sized_str/conv.rs:109-115. -/
def fromRawParts (buf : List Byte) (len : Nat) : SizedStr := ⟨{ buf := buf.map some, len := len }⟩

/-- `SizedStr::from_utf8_unchecked` (unsafe): oct/src/sized_str/conv.rs:85-95. SIMPLIFICATION: the
`debug_assert!` (86) is subsumed by the out-of-bounds case. -/
def fromUtf8Unchecked {ε : Type} (n : Nat) (s : List Byte) : Res ε SizedStr :=
  if s.length > n then .ub .outOfBounds
  else .ok (fromRawParts (s ++ (List.replicate n 0).drop s.length) s.length)

/-- `SizedStr::new`: oct/src/sized_str/mod.rs:86-91. -/
def new (n : Nat) (s : Str) : Res StringError SizedStr :=
  if s.val.length > n then .err (.smallBuffer { capacity := n, len := s.val.length })
  else fromUtf8Unchecked n s.val

/-- `SizedStr::from_utf8`: oct/src/sized_str/conv.rs:57-75. -/
def fromUtf8 (n : Nat) (s : List Byte) : Res StringError SizedStr :=
  if s.length > n then .err (.smallBuffer { capacity := n, len := s.length })
  else
    match Utf8.check s with
    | none => fromUtf8Unchecked n s
    | some i =>
      match s[i]? with
      | some c => .err (.badUtf8 c i)
      | none => .panic .indexOutOfBounds

/-- `FromStr::from_str`: oct/src/sized_str/conv.rs:298-304. `TryFrom<&str>` (330-336) and
`TryFrom<String>` (341-347) forward to it. -/
def fromStr (n : Nat) (s : Str) : Res StringError SizedStr :=
  if s.val.length > n then .err (.smallBuffer { capacity := n, len := s.val.length })
  else fromUtf8Unchecked n s.val

/-- `TryFrom<char>`: oct/src/sized_str/conv.rs:318-327. That the text of a char is a `str` is part of
the type of `encode_utf8`; here it is the hypothesis `h`. -/
def tryFromChar (n : Nat) (c : Char) (h : Utf8.valid (charUtf8 c) = true) :
    Res StringError SizedStr :=
  fromStr n ⟨charUtf8 c, h⟩

/-- The loop of `from_iter`: oct/src/sized_str/mod.rs:160-173. `buf[start..stop]` panics when out of
bounds. -/
def collectLoop (n : Nat) : List Char → (buf : List Byte) → (len : Nat) →
    Res Empty (List Byte × Nat)
  | [], buf, len => .ok (buf, len)
  | c :: cs, buf, len =>
    let rem := n - len
    let req := (charUtf8 c).length
    if rem < req then .ok (buf, len)
    else
      let start := len
      let stop := start + req
      if stop > buf.length then .panic .indexOutOfBounds
      else collectLoop n cs (buf.take start ++ charUtf8 c ++ buf.drop stop) (len + req)

/-- `FromIterator<char>::from_iter`: oct/src/sized_str/mod.rs:154-178, for an iterator that yields
`cs`. SIMPLIFICATION: finite iterators. -/
def fromIter (n : Nat) (cs : List Char) : Res Empty SizedStr :=
  (collectLoop n cs (List.replicate n 0) 0).map fun (buf, len) => fromRawParts buf len

/-- `SizedStr::decode`, giving the stored form: oct/src/sized_str/code.rs:27-45. `Ty.sizedStr` uses
`decSizedStr` instead, which gives the text. -/
def decode (n : Nat) : Dec SizedStr := do
  let len ← decUsize
  let data ← Dec.read len
  match fromUtf8 n data with
  | .ok s => pure s
  | .err (.badUtf8 value index) => Dec.fail (.badItem (.utf8 value index))
  | .err (.smallBuffer e) => Dec.fail (.badLength (.length e.capacity e.len))
  | .err (.badUtf16 _ _) => Dec.panic .unreachable
  | .panic p => Dec.panic p
  | .ub u => Dec.ub u

/-- Mutation through `as_mut_str` (oct/src/sized_str/conv.rs:166-176), `AsMut`, `BorrowMut`,
`DerefMut` or `IndexMut`: safe code can change the text only to a text of the same number of octets
(`text`); `None` if it is not. -/
def setText (s : SizedStr) (text : Str) : Option SizedStr :=
  if text.val.length = s.inner.len then
    some ⟨{ s.inner with buf := text.val.map some ++ s.inner.buf.drop s.inner.len }⟩
  else none

/-- `Default` (derived, oct/src/sized_str/mod.rs:74): that of the inner slice. -/
def default (n : Nat) : SizedStr := ⟨SizedSlice.default n⟩

/-- `Clone` (derived, oct/src/sized_str/mod.rs:74): that of the inner slice. -/
def clone {ε : Type} (s : SizedStr) : Res ε SizedStr := s.inner.clone.map SizedStr.mk

/-- `SizedStr::capacity`, `len`, `is_empty`, `is_full`: oct/src/sized_str/mod.rs:98-123. -/
def capacity (s : SizedStr) : Nat := s.inner.capacity

/-- See `capacity`. -/
def len (s : SizedStr) : Nat := s.inner.len

/-- See `capacity`. -/
def isEmpty (s : SizedStr) : Bool := s.inner.isEmpty

/-- See `capacity`. -/
def isFull (s : SizedStr) : Bool := s.inner.isFull

/-- `SizedStr::as_bytes`: oct/src/sized_str/conv.rs:140-148; `as_str` (155-159) reinterprets it. -/
def asBytes {ε : Type} (s : SizedStr) : Res ε (List Byte) := s.inner.asSlice

/-- `SizedStr::into_raw_parts`: oct/src/sized_str/conv.rs:186-194: the whole buffer is read as
`[u8; N]`, which is undefined if an octet is uninitialised. -/
def intoRawParts {ε : Type} (s : SizedStr) : Res ε (List Byte × Nat) :=
  match initAll s.inner.buf with
  | some l => .ok (l, s.inner.len)
  | none => .ub .uninitRead

/-- `SizedStr::into_bytes`: oct/src/sized_str/conv.rs:199-202. -/
def intoBytes (s : SizedStr) : SizedSlice Byte := s.inner

/-- `SizedStr::into_boxed_str` (oct/src/sized_str/conv.rs:209-212) and `into_string` (221-223). -/
def intoBoxedStr {ε : Type} (s : SizedStr) : Res ε (List Byte) := s.inner.intoBoxedSlice 1

/-- `<str as Hash>::hash` of std: the octets, then `0xFF`. -/
def hashStr (s : List Byte) : List (SizedSlice.HashFeed Byte) := s.map .octet ++ [.octet 0xFF]

/-- `SizedStr::hash`: oct/src/sized_str/mod.rs:180-185. -/
def hash {ε : Type} (s : SizedStr) : Res ε (List (SizedSlice.HashFeed Byte)) :=
  (s.asBytes (ε := ε)).map hashStr

/-- `PartialEq` between sized strings: oct/src/sized_str/cmp.rs:36-41 (with `&str`, `String`:
43-57), comparing `str`s, i.e. their octets. -/
def eq {ε : Type} (a b : SizedStr) : Res ε Bool :=
  match a.asBytes (ε := ε), b.asBytes (ε := ε) with
  | .ok l, .ok m => .ok (SizedSlice.eqSlice (· == ·) l m)
  | .ub u, _ => .ub u
  | _, .ub u => .ub u
  | _, _ => .panic .unreachable

/-- `PartialOrd` / `Ord` of sized strings: oct/src/sized_str/cmp.rs:29-34, 59-80: lexicographic on
octets, as `str`. -/
def cmp {ε : Type} (a b : SizedStr) : Res ε (Option Ordering) :=
  match a.asBytes (ε := ε), b.asBytes (ε := ε) with
  | .ok l, .ok m => .ok (SizedSlice.cmpSlice (fun x y => some (compare x.toNat y.toNat)) l m)
  | .ub u, _ => .ub u
  | _, .ub u => .ub u
  | _, _ => .panic .unreachable

end SizedStr
end Oct
