/-
Facts about Rust's `core`/`std` that the modelled code calls into: little-endian conversion of
integers and UTF-8 validation. These are external to /repo; they are modelled from their
documentation and (for UTF-8) from the algorithm in `core::str::validations`.
-/
namespace Oct

/-- `to_le_bytes` of an `n`-octet integer whose bit pattern is `x`
(called at oct/src/encode/encode/mod.rs:861). -/
def toLe : (n : Nat) → (x : Nat) → List UInt8
  | 0, _ => []
  | n + 1, x => UInt8.ofNat (x % 256) :: toLe n (x / 256)

/-- `from_le_bytes` (called at oct/src/decode/decode/mod.rs:829), as a bit pattern. -/
def fromLe : List UInt8 → Nat
  | [] => 0
  | b :: bs => b.toNat + 256 * fromLe bs

/-- `Ipv4Addr::to_bits` / `Ipv6Addr::to_bits`: the octets read in network (big-endian) order
(called at oct/src/encode/encode/mod.rs:423, :434). -/
def fromBe (l : List UInt8) : Nat := l.foldl (fun acc b => acc * 256 + b.toNat) 0

/-- `Ipv4Addr::from_bits` / `Ipv6Addr::from_bits` (called at oct/src/decode/decode/mod.rs:411,
:423): the octets of `x` in network order. -/
def toBe (n : Nat) (x : Nat) : List UInt8 := (toLe n x).reverse

namespace Utf8

/-- A continuation octet, `(b as i8) < -64`. -/
def isCont (b : UInt8) : Bool := 0x80 ≤ b.toNat && b.toNat ≤ 0xBF

/-- Length in octets of the well-formed UTF-8 sequence at the start of the list, if there is one.
Follows `run_utf8_validation` of `core::str::validations`. -/
def seqLen : List UInt8 → Option Nat
  | [] => none
  | a :: r =>
    let x := a.toNat
    if x < 0x80 then some 1
    else if 0xC2 ≤ x ∧ x ≤ 0xDF then
      match r with
      | b :: _ => if isCont b then some 2 else none
      | _ => none
    else if 0xE0 ≤ x ∧ x ≤ 0xEF then
      match r with
      | b :: c :: _ =>
        let y := b.toNat
        if ((x = 0xE0 ∧ 0xA0 ≤ y ∧ y ≤ 0xBF) ∨ (0xE1 ≤ x ∧ x ≤ 0xEC ∧ 0x80 ≤ y ∧ y ≤ 0xBF) ∨
            (x = 0xED ∧ 0x80 ≤ y ∧ y ≤ 0x9F) ∨ (0xEE ≤ x ∧ x ≤ 0xEF ∧ 0x80 ≤ y ∧ y ≤ 0xBF)) ∧
            isCont c = true then some 3 else none
      | _ => none
    else if 0xF0 ≤ x ∧ x ≤ 0xF4 then
      match r with
      | b :: c :: d :: _ =>
        let y := b.toNat
        if ((x = 0xF0 ∧ 0x90 ≤ y ∧ y ≤ 0xBF) ∨ (0xF1 ≤ x ∧ x ≤ 0xF3 ∧ 0x80 ≤ y ∧ y ≤ 0xBF) ∨
            (x = 0xF4 ∧ 0x80 ≤ y ∧ y ≤ 0x8F)) ∧ isCont c = true ∧ isCont d = true
        then some 4 else none
      | _ => none
    else none

/-- The scanning loop of `run_utf8_validation`, started at offset `i`. `fuel` bounds the number of
iterations; `check` supplies one per octet, which suffices as every step advances. -/
def checkFrom : (fuel : Nat) → (i : Nat) → List UInt8 → Option Nat
  | _, _, [] => none
  | 0, i, _ => some i
  | fuel + 1, i, bs =>
    match seqLen bs with
    | none => some i
    | some n => checkFrom fuel (i + n) (bs.drop n)

/-- `str::from_utf8(bs)` (called at oct/src/decode/decode/mod.rs:710,
oct/src/sized_str/conv.rs:60): `none` for `Ok`, and `some i` for an `Err(e)` with
`e.valid_up_to() == i`. -/
def check (bs : List UInt8) : Option Nat := checkFrom bs.length 0 bs

/-- Whether `str::from_utf8` accepts the octets. -/
def valid (bs : List UInt8) : Bool := (check bs).isNone

end Utf8
end Oct
