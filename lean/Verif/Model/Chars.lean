import Verif.Model.SizedStr
/-
`SizedStr::chars` and `SizedStr::char_indices`: oct/src/sized_str/mod.rs:125-135. Both call the method
of `str`; the iterators of core (`core::str::Chars`, `core::str::CharIndices`, with
`core::str::validations::next_code_point` and `next_code_point_reverse`) are modelled on the octets
that are left. The functions of core are `unsafe`: they take an octet that is not there
(`unwrap_unchecked`) or make a char of a number that is none (`from_u32_unchecked`) if the octets are
not UTF-8, both of which are undefined.
-/
namespace Oct

/-- `utf8_acc_cont_byte`: `(ch << 6) | (byte & 0x3F)`. -/
def accCont (ch : Nat) (byte : Byte) : Nat := (ch <<< 6) ||| (byte.toNat &&& 0x3F)

/-- `char::from_u32_unchecked`, of the number in front of what is left. -/
def charOf (ch : Nat) (rest : List Byte) : Res Empty (Option Char × List Byte) :=
  if h : ch.isValidChar then .ok (some (Char.ofNatAux ch h), rest) else .ub .invalidChar

/-- `Chars::next`. -/
def charsNext : List Byte → Res Empty (Option Char × List Byte)
  | [] => .ok (none, [])
  | x :: r =>
    if x.toNat < 128 then charOf x.toNat r
    else
      let init := x.toNat &&& 0x1F
      match r with
      | [] => .ub .outOfBounds
      | y :: r =>
        if x.toNat ≥ 0xE0 then
          match r with
          | [] => .ub .outOfBounds
          | z :: r =>
            let yz := accCont (y.toNat &&& 0x3F) z
            if x.toNat ≥ 0xF0 then
              match r with
              | [] => .ub .outOfBounds
              | w :: r => charOf (((init &&& 7) <<< 18) ||| accCont yz w) r
            else charOf ((init <<< 12) ||| yz) r
        else charOf (accCont init y) r

/-- `utf8_is_cont_byte`: `(byte as i8) < -64`. -/
def isContByte (b : Byte) : Bool := decide (128 ≤ b.toNat ∧ b.toNat < 192)

/-- `Chars::next_back`, on the octets from the last to the first. -/
def charsBack : List Byte → Res Empty (Option Char × List Byte)
  | [] => .ok (none, [])
  | w :: r =>
    if w.toNat < 128 then charOf w.toNat r
    else
      match r with
      | [] => .ub .outOfBounds
      | z :: r =>
        if isContByte z = true then
          match r with
          | [] => .ub .outOfBounds
          | y :: r =>
            if isContByte y = true then
              match r with
              | [] => .ub .outOfBounds
              | x :: r => charOf (accCont (accCont (accCont (x.toNat &&& 0x07) y) z) w) r
            else charOf (accCont (accCont (y.toNat &&& 0x0F) z) w) r
        else charOf (accCont (z.toNat &&& 0x1F) w) r

/-- The same on the octets in order. -/
def charsNextBack (rest : List Byte) : Res Empty (Option Char × List Byte) :=
  (charsBack rest.reverse).map fun (c, r) => (c, r.reverse)

/-- `Chars::size_hint`: `((len + 3) / 4, Some(len))`. -/
def charsHint (rest : List Byte) : Nat × Option Nat := ((rest.length + 3) / 4, some rest.length)

/-- `Chars::as_str`: what is left. -/
def charsAsStr (rest : List Byte) : List Byte := rest

/-- `CharIndices { front_offset, iter }`. -/
structure CharIndices where
  frontOffset : Nat
  rest : List Byte
  deriving DecidableEq

namespace CharIndices

/-- `CharIndices::next`: the offset moves on by as much as the iterator has got shorter. -/
def next (it : CharIndices) : Res Empty (Option (Nat × Char) × CharIndices) :=
  match charsNext it.rest with
  | .ok (none, r) => .ok (none, { it with rest := r })
  | .ok (some c, r) =>
    .ok (some (it.frontOffset, c),
      { frontOffset := it.frontOffset + (it.rest.length - r.length), rest := r })
  | .err e => .err e
  | .panic p => .panic p
  | .ub u => .ub u

/-- `CharIndices::next_back`: the position is that of the end of what is left. -/
def nextBack (it : CharIndices) : Res Empty (Option (Nat × Char) × CharIndices) :=
  match charsNextBack it.rest with
  | .ok (none, r) => .ok (none, { it with rest := r })
  | .ok (some c, r) => .ok (some (it.frontOffset + r.length, c), { it with rest := r })
  | .err e => .err e
  | .panic p => .panic p
  | .ub u => .ub u

/-- `CharIndices::offset`: the position of what comes next. -/
def offset (it : CharIndices) : Nat := it.frontOffset

end CharIndices

/-- A call to an iterator from both ends. -/
inductive EndOp where
  /-- `next()` -/
  | next
  /-- `next_back()` -/
  | nextBack
  deriving DecidableEq

/-- The calls one after the other: what they return, and what is left. -/
def runEnds {σ β : Type} (next back : σ → Res Empty (Option β × σ)) (s : σ) :
    List EndOp → Res Empty (List (Option β) × σ)
  | [] => .ok ([], s)
  | op :: ops =>
    match (match op with | .next => next s | .nextBack => back s) with
    | .ok (b, s') => (runEnds next back s' ops).map fun (bs, s'') => (b :: bs, s'')
    | .err e => .err e
    | .panic p => .panic p
    | .ub u => .ub u

namespace SizedStr

/-- `SizedStr::chars`: oct/src/sized_str/mod.rs:125-129. -/
def chars (s : SizedStr) : Res Empty (List Byte) := s.asBytes

/-- `SizedStr::char_indices`: oct/src/sized_str/mod.rs:131-135. -/
def charIndices (s : SizedStr) : Res Empty CharIndices :=
  (s.asBytes (ε := Empty)).map fun l => { frontOffset := 0, rest := l }

end SizedStr

end Oct
