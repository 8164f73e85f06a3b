import Verif.Model.SizedStr
/-
The capacities of the vectors and strings that sized slices and strings are turned into.
-/
namespace Oct

/-- `Vec<T>` or `String` (of octets), with what `capacity` gives. -/
structure Owned (α : Type) where
  items : List α
  capacity : Nat
  deriving DecidableEq

/-- `<[T]>::into_vec` and `<str>::into_string` of std: the box becomes the buffer of the vector, so
its capacity is the number of items (for items that are not of size zero). -/
def Owned.ofBox {α : Type} (l : List α) : Owned α := ⟨l, l.length⟩

/-- `SizedSlice::into_vec`: oct/src/sized_slice/conv.rs:145-147. -/
def SizedSlice.intoOwned {α ε : Type} (itemSize : Nat) (s : SizedSlice α) : Res ε (Owned α) :=
  (s.intoBoxedSlice itemSize).map Owned.ofBox

/-- `SizedStr::into_string`: oct/src/sized_str/conv.rs:221-223. "The capacity of the resulting
`String` object is equal to the value of `N`" (216). -/
def SizedStr.intoString {ε : Type} (s : SizedStr) : Res ε (Owned Byte) :=
  (s.intoBoxedStr (ε := ε)).map Owned.ofBox

end Oct
