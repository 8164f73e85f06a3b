import Verif.Model.SizedEncode
/-
How the compiler evaluates `MAX_ENCODED_SIZE`: in `usize`, of as many bits as the target has, where an
overflow in a constant is an error of compilation. `Ty.maxSize` is the value without overflow. Line
numbers without a file are those of oct/src/encode/sized_encode/mod.rs.
-/
namespace Oct

/-- `a + b` in a constant of type `usize` of `w` bits; nothing if one operand has no value or the sum
overflows. -/
def constAdd (w : Nat) (a b : Option Nat) : Option Nat :=
  a.bind fun a => b.bind fun b => if a + b < 2 ^ w then some (a + b) else none

/-- `a * b` likewise. -/
def constMul (w : Nat) (a b : Option Nat) : Option Nat :=
  a.bind fun a => b.bind fun b => if a * b < 2 ^ w then some (a * b) else none

mutual

/-- `T::MAX_ENCODED_SIZE` on a target with a `usize` of `w` bits. SIMPLIFICATION: the constants of
types that are not made of others are taken as numbers (they are at most 27, and targets have at least
16 bits). -/
def Ty.sizeConst (w : Nat) (sizeOf : Ty → Nat) : Ty → Option Nat
  | .wrap _ t => t.sizeConst w sizeOf                   -- 85-98, 106-108, 122-138, 168-176, 198-222, 244, 283, 316
  | .array t n => constMul w (t.sizeConst w sizeOf) (some n)       -- 100-102
  | .option t => constAdd w (some 1) (t.sizeConst w sizeOf)        -- 184-188
  | .result t e =>                                      -- 228-236
    constAdd w (some 1) (some (if sizeOf t > sizeOf e then sizeOf t else sizeOf e))
  | .bound t => constAdd w (some 1) (t.sizeConst w sizeOf)         -- 114-118
  | .range t => constMul w (t.sizeConst w sizeOf) (some 2)         -- 194-196
  | .rangeInclusive t => constMul w (t.sizeConst w sizeOf) (some 2)  -- 206-208
  | .lock _ t => t.sizeConst w sizeOf                   -- 180-182, 240-242
  | .refCell t => t.sizeConst w sizeOf                  -- 224-226
  | .sizedStr n =>                                      -- oct/src/sized_str/code.rs:58-62
    constAdd w (some 2) (constMul w (some 1) (some n))
  | .sizedSlice t n => constMul w (t.sizeConst w sizeOf) (some n)  -- oct/src/sized_slice/code.rs:61-63
  | .tuple fs => fs.sizeConst w sizeOf (some 0)         -- 295-305
  | .struct fs => fs.sizeConst w sizeOf (some 0)        -- oct-macros/src/impls/sized_encode_struct.rs:34
  | .enum r vs => vs.sizeConst w sizeOf r (some 0)      -- oct-macros/src/impls/sized_encode_enum.rs:44-58
  | t => some (t.maxSize sizeOf)

/-- `0x0 + A::MAX_ENCODED_SIZE + B::MAX_ENCODED_SIZE + ..`, from left to right; `acc` is the sum so
far. -/
def Fields.sizeConst (w : Nat) (sizeOf : Ty → Nat) : Fields → (acc : Option Nat) → Option Nat
  | .nil, acc => acc
  | .cons t fs, acc => fs.sizeConst w sizeOf (constAdd w acc (t.sizeConst w sizeOf))

/-- The block of oct-macros/src/impls/sized_encode_enum.rs:46-57; `total` is `total_size`. The
representation is the last summand (33-41). -/
def Variants.sizeConst (w : Nat) (sizeOf : Ty → Nat) : Variants → Repr → (total : Option Nat) → Option Nat
  | .nil, _, total => total
  | .cons _ fs vs, r, total =>
    vs.sizeConst w sizeOf r (total.bind fun total =>
      (constAdd w (fs.sizeConst w sizeOf (some 0)) (some r.bytes)).map fun current =>
        if current > total then current else total)

end

end Oct
