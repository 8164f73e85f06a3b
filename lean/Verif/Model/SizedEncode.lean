import Verif.Model.Decode
/-
`SizedEncode`: oct/src/encode/sized_encode/mod.rs, oct/src/sized_slice/code.rs:61-63,
oct/src/sized_str/code.rs:58-62, oct-macros/src/impls/sized_encode_struct.rs, sized_encode_enum.rs.
Line numbers without a file are those of oct/src/encode/sized_encode/mod.rs.
-/
namespace Oct

mutual

/-- Whether the type implements `SizedEncode`. -/
def Ty.HasSized : Ty → Prop
  | .unit .phantomPinned => False
  | .seq _ _ => False
  | .hashMap _ _ => False
  | .hashSet _ => False
  | .str _ => False
  | .cStr _ => False
  | .wrap _ t => t.HasSized
  | .array t _ => t.HasSized
  | .option t => t.HasSized
  | .result t e => t.HasSized ∧ e.HasSized
  | .bound t => t.HasSized
  | .range t => t.HasSized
  | .rangeInclusive t => t.HasSized
  | .lock _ t => t.HasSized
  | .refCell t => t.HasSized
  | .sizedSlice t _ => t.HasSized
  | .tuple fs => fs.HasSized
  | .struct fs => fs.HasSized
  | .enum _ vs => vs.HasSized
  | _ => True

/-- All fields implement `SizedEncode` (where clauses of the tuple impl 295-305; the derive macro's
constants do not compile otherwise). -/
def Fields.HasSized : Fields → Prop
  | .nil => True
  | .cons t fs => t.HasSized ∧ fs.HasSized

/-- All fields of all variants implement `SizedEncode`. -/
def Variants.HasSized : Variants → Prop
  | .nil => True
  | .cons _ fs vs => fs.HasSized ∧ vs.HasSized

end

mutual

/-- `T::MAX_ENCODED_SIZE`. `sizeOf` is `core::mem::size_of`, which depends on the compiler and is
used by `Result` only (228-236). For types without `SizedEncode` the value is irrelevant. -/
def Ty.maxSize (sizeOf : Ty → Nat) : Ty → Nat
  | .num k => k.bytes                                   -- 287-293
  | .bool => 1                                          -- 110-112
  | .char => 4                                          -- 130-132
  | .usize => 2                                         -- 279-281
  | .isize => 2                                         -- 164-166
  | .nonZero r => r.bytes                               -- 308-314
  | .unit _ => 0                                        -- 190-192, 202-204, 275-277
  | .infallible => 0                                    -- 146-148
  | .wrap _ t => t.maxSize sizeOf                       -- 85-98, 106-108, 122-138, 168-176, 198-222, 244, 283, 316
  | .array t n => t.maxSize sizeOf * n                  -- 100-102
  | .seq _ _ => 0
  | .hashMap _ _ => 0
  | .hashSet _ => 0
  | .option t => 1 + t.maxSize sizeOf                   -- 184-188
  | .result t e =>                                      -- 228-236
    1 + (if sizeOf t > sizeOf e then sizeOf t else sizeOf e)
  | .bound t => 1 + t.maxSize sizeOf                    -- 114-118
  | .range t => t.maxSize sizeOf * 2                    -- 194-196
  | .rangeInclusive t => t.maxSize sizeOf * 2           -- 206-208
  | .lock _ t => t.maxSize sizeOf                       -- 180-182, 240-242
  | .refCell t => t.maxSize sizeOf                      -- 224-226
  | .duration => 8 + 4                                  -- 140-144
  | .systemTime _ => 8                                  -- 271-273
  | .ipv4 => 4                                          -- 156-158
  | .ipv6 => 16                                         -- 160-162
  | .ipAddr => 1 + 16                                   -- 150-154
  | .socketAddrV4 => 4 + 2                              -- 254-258
  | .socketAddrV6 => 16 + 2 + 4 + 4                     -- 261-267
  | .socketAddr => 1 + (16 + 2 + 4 + 4)                 -- 248-252
  | .str _ => 0
  | .cStr _ => 0
  | .sizedStr n => 2 + 1 * n                            -- oct/src/sized_str/code.rs:58-62
  | .sizedSlice t n => t.maxSize sizeOf * n             -- oct/src/sized_slice/code.rs:61-63
  | .tuple fs => fs.maxSize sizeOf                      -- 295-305
  | .struct fs => fs.maxSize sizeOf                     -- oct-macros/src/impls/sized_encode_struct.rs:27-36
  | .enum r vs => vs.maxSize sizeOf r                   -- oct-macros/src/impls/sized_encode_enum.rs:44-58

/-- Sum over the fields. -/
def Fields.maxSize (sizeOf : Ty → Nat) : Fields → Nat
  | .nil => 0
  | .cons t fs => t.maxSize sizeOf + fs.maxSize sizeOf

/-- Maximum over the variants of the sum over the fields and the discriminant
(oct-macros/src/impls/sized_encode_enum.rs:46-56; zero without variants). -/
def Variants.maxSize (sizeOf : Ty → Nat) : Variants → Repr → Nat
  | .nil, _ => 0
  | .cons _ fs vs, r => max (fs.maxSize sizeOf + r.bytes) (vs.maxSize sizeOf r)

end

end Oct
