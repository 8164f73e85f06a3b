import Verif.Model.Contracts
import Verif.Spec.Text
import Verif.Spec.SlotMemory
/-
What the documentation of the unsafe functions demands of the caller ("# Safety").
-/
namespace Oct.Spec
open Oct

/-- `SizedSlice::from_raw_parts` (oct/src/sized_slice/conv.rs:45-49): "The value of `len` may not exceed
that of `N`. Additionally, all elements of `buf` in the range specified by `len` must be initialised." -/
def PartsContract {α : Type} (buf : List (MaybeUninit α)) (len : Nat) : Prop :=
  len ≤ buf.length ∧ ∀ i, i < len → ∃ a, buf[i]? = some (some a)

/-- `SizedSlice::set_len` (oct/src/sized_slice/mod.rs:154-158): "The new length `len` may not be larger
than `N`. It is only valid to enlarge vectors if `T` supports being in a purely uninitialised state." -/
def LenContract {α : Type} (blank : Option α) (s : SizedSlice α) (len : Nat) : Prop :=
  len ≤ s.buf.length ∧ (s.len < len → ∃ b, blank = some b)

/-- `SizedStr::from_raw_parts` (oct/src/sized_str/conv.rs:103-106): "The value of `len` may not exceed
that of `N`. Additionally, the octets in `buf` (from index zero up to the value of `len`) must be valid
UTF-8 codepoints." -/
def TextPartsContract (buf : List Byte) (len : Nat) : Prop :=
  len ≤ buf.length ∧ IsUtf8 (buf.take len)

/-- `SizedStr::from_utf8_unchecked` (oct/src/sized_str/conv.rs:79-82): "Each byte value must be a valid
UTF-8 code point." Read as: the octets are valid UTF-8. Nothing is said of their number. -/
def OctetsContract (s : List Byte) : Prop := IsUtf8 s

/-- `Slot::set_len_unchecked` (oct/src/slot/mod.rs:207-210): "The value of `len` may never be greater than
the capacity of the slot." -/
def SlotLenContract (s : Slot) (len : Nat) : Prop := len ≤ s.buf.length

/-- `Slot::from_raw_parts` (oct/src/slot/mod.rs:99-102): "The provided pointer `ptr` must be a valid
reference to a mutable array of exactly `capacity` elements. This array must additionally be allocated
with the global allocator [..], and `len` must also be within the bounds of this array." The array is
`d`; there is none if `cap` is zero. -/
def SlotPartsContract (m : Mem Byte) (ptr : Ptr) (cap len : Nat) (d : List Byte) : Prop :=
  d.length = cap ∧ (cap ≠ 0 → ptr.off = 0 ∧ m ptr.alloc = some (d.map some)) ∧ len ≤ cap

/-- The operations of a program, each of which is as documented in the state in which it happens. A safe
function may be called in any state; that the arrays have the same length is a matter of types. -/
def Documented {α : Type} (debug : Bool) (blank : Option α) : SizedSlice α → List (UnsafeOp α) → Prop
  | _, [] => True
  | s, op :: ops =>
    (match op with
      | .fromRawParts buf len => buf.length = s.buf.length ∧ PartsContract buf len
      | .setLen len => LenContract blank s len
      | .writePtr i _ => i < s.buf.length
      | _ => True) ∧ Documented debug blank (op.step debug blank s).2 ops

/-- What is copied into the sized slice fits, each time. (`copy_from_slice` is not said to need this: see
C28.) -/
def CopiesFit {α : Type} (debug : Bool) (blank : Option α) : SizedSlice α → List (UnsafeOp α) → Prop
  | _, [] => True
  | s, op :: ops =>
    (match op with
      | .copyFrom data => data.length ≤ s.buf.length
      | _ => True) ∧ CopiesFit debug blank (op.step debug blank s).2 ops

/-- What a program with unsafe code sees: the operation returns, or indexing panics as documented. -/
def Fine {α : Type} (ops : List (UnsafeOp α)) (xs : List (Res Empty (List α))) : Prop :=
  xs.length = ops.length ∧ ∀ (k : Nat) (x : Res Empty (List α)), xs[k]? = some x →
    (∃ l, x = .ok l) ∨ x = .panic .indexOutOfBounds ∧ ∃ i a, ops[k]? = some (.set i a)

end Oct.Spec
