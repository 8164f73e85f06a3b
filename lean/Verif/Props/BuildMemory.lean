import Verif.Proofs.BuildMemory
import Verif.Props.Memory
/-
C80: vectors, arrays, sized slices and strings are built in memory within bounds, from initialised
cells only, and a decoding that fails gives its buffer back.
-/
namespace Oct.Props
open Oct Spec
set_option linter.unusedVariables false

/-- C80, `Vec<T>`. The decoding that works in memory has the results of the list model; so it is
undefined only if decoding an item is. If it succeeds, the vector's length is its capacity, the buffer
is exactly the items, and nothing is allocated if there are none. No other allocation is touched, and if
it fails or panics, memory is as before. -/
theorem C80_vec (t : Ty) (a : Nat) (I : Input) (m : Mem t.Val) (ha : m a = none) :
    ∃ m', rawVecDecode t.decode a I m
        = (((Ty.seq .vec t).decode I).1.map (fun l => ⟨⟨a, 0⟩, List.length l, List.length l⟩),
            ((Ty.seq .vec t).decode I).2, m') ∧
      (∀ b, b ≠ a → m' b = m b) ∧
      (∀ l : List t.Val, ((Ty.seq .vec t).decode I).1 = .ok l →
        m' a = if l = [] then none else some (l.map some)) ∧
      ((∀ l, ((Ty.seq .vec t).decode I).1 ≠ .ok l) → (∀ u, ((Ty.seq .vec t).decode I).1 ≠ .ub u) →
        m' = m) := by
  obtain ⟨m', h1, h2, h3, h4⟩ := rawVecDecode_spec t.decode a I m ha
  refine ⟨m', h1, h2, fun l e => ?_, h4⟩
  rw [h3 l e]

/-- The memory without any allocation. -/
def noMem {α : Type} : Mem α := fun _ => none

example : (rawVecDecode Ty.bool.decode 7 ⟨[2, 0, 0, 1], 0⟩ noMem).1 = .ok ⟨⟨7, 0⟩, 2, 2⟩ ∧
    (rawVecDecode Ty.bool.decode 7 ⟨[2, 0, 0, 1], 0⟩ noMem).2.2 7 = some [some false, some true] :=
  ⟨rfl, rfl⟩

/-- A vector whose second item is bad: the buffer is given back. -/
example : (rawVecDecode (Ty.option (.nonZero (.int .u8))).decode 7 ⟨[2, 0, 0, 1, 0], 0⟩ noMem).1
      = .err (.badItem (.item 1 .nonZero)) ∧
    (rawVecDecode (Ty.option (.nonZero (.int .u8))).decode 7 ⟨[2, 0, 0, 1, 0], 0⟩ noMem).2.2 7 = none :=
  ⟨rfl, rfl⟩

/-- C80, `[T; N]`: every cell is initialised when the array is read. -/
theorem C80_array (t : Ty) (n a : Nat) (I : Input) (m : Mem t.Val) (ha : m a = none) :
    ∃ m', rawArrayDecode t.decode n a I m
        = (((Ty.array t n).decode I).1.map Subtype.val, ((Ty.array t n).decode I).2, m') ∧
      ((∀ u, ((Ty.array t n).decode I).1 ≠ .ub u) → m' = m) :=
  rawArrayDecode_spec t.decode n a I m ha

example : (rawArrayDecode Ty.bool.decode 2 7 ⟨[0, 1], 0⟩ noMem).1 = .ok [false, true] := rfl

/-- C80, `SizedSlice<T, N>`: every cell of the value is initialised, those beyond its length too, and
the first ones are the items. -/
theorem C80_sized_slice (t : Ty) (n a : Nat) (I : Input) (m : Mem t.Val) (ha : m a = none) :
    ∃ r m', rawSizedDecode t.decode n a I m = (r, ((Ty.sizedSlice t n).decode I).2, m') ∧
      ((∀ u, r ≠ .ub u) → m' = m) ∧
      SizedAgrees n r ((Ty.sizedSlice t n).decode I).1 :=
  rawSizedDecode_spec t.decode n a I m ha

example : (rawSizedDecode Ty.bool.decode 2 7 ⟨[1, 0, 0, 1], 0⟩ noMem).1
    = .ok ⟨[some false, some true], 1⟩ := rfl

/-- C80, `String`. -/
theorem C80_string : BuildsText (rawTextDecode testUtf8) fun I =>
    (((Ty.str .string).decode I).1.map Subtype.val, ((Ty.str .string).decode I).2) := by
  intro a i m I ha h
  have := rawTextDecode_spec testUtf8 ha h
  rw [textDec_utf8] at this
  exact this

/-- C80, `CString`. -/
theorem C80_c_string : BuildsText (rawTextDecode testNul) fun I =>
    (((Ty.cStr .cString).decode I).1.map Subtype.val, ((Ty.cStr .cString).decode I).2) := by
  intro a i m I ha h
  have := rawTextDecode_spec testNul ha h
  rw [textDec_nul] at this
  exact this

/-- A stream in memory that holds the text `hi`. -/
def textMem : Mem Byte := noMem.alloc 0 [some 2, some 0, some 104, some 105]

example : ShowsInput textMem ⟨⟨⟨0, 0⟩, 4⟩, 0⟩ ⟨[2, 0, 104, 105], 0⟩ ∧ textMem 7 = none ∧
    (rawTextDecode testUtf8 7 ⟨⟨⟨0, 0⟩, 4⟩, 0⟩ textMem).1 = .ok ⟨⟨7, 0⟩, 2, 2⟩ ∧
    (rawTextDecode testNul 7 ⟨⟨⟨0, 0⟩, 4⟩, 0⟩ textMem).2.2 7 = some [some 104, some 105] := by
  refine ⟨⟨⟨rfl, rfl⟩, rfl, by decide⟩, rfl, ?_, rfl⟩
  have := C80_string 7 ⟨⟨⟨0, 0⟩, 4⟩, 0⟩ textMem ⟨[2, 0, 104, 105], 0⟩ rfl ⟨⟨rfl, rfl⟩, rfl, by decide⟩
  obtain ⟨m', h, -⟩ := this
  rw [h]
  rfl

/-- C80. None of these is undefined but by an invalid `char` among the items. -/
theorem C80_undefined_only_char (t : Ty) (a : Nat) (I : Input) (m : Mem t.Val) (ha : m a = none)
    (n : Nat) (u : Ub) (h : (rawVecDecode t.decode a I m).1 = .ub u ∨
      (rawArrayDecode t.decode n a I m).1 = .ub u ∨ (rawSizedDecode t.decode n a I m).1 = .ub u) :
    u = .invalidChar ∧ ¬ Everywhere (· ≠ .char) t := by
  have key : ∀ s : Ty, (Everywhere (· ≠ .char) t → Everywhere (· ≠ .char) s) → (s.decode I).1 = .ub u →
      u = .invalidChar ∧ ¬ Everywhere (· ≠ .char) t := fun s hs hu =>
    ⟨C17_only_invalid_char_partial s I u hu, fun ht => C17_no_ub_partial s (hs ht) I u hu⟩
  rcases h with h | h | h
  · obtain ⟨m', e, -⟩ := C80_vec t a I m ha
    rw [e] at h
    refine key (.seq .vec t) (fun ht => ⟨by simp, ht⟩) ?_
    cases hq : ((Ty.seq .vec t).decode I).1 with
    | ub x => rw [hq] at h; injection h with h; rw [h]
    | ok x => rw [hq] at h; exact nomatch h
    | err x => rw [hq] at h; exact nomatch h
    | panic x => rw [hq] at h; exact nomatch h
  · obtain ⟨m', e, -⟩ := C80_array t n a I m ha
    rw [e] at h
    refine key (.array t n) (fun ht => ⟨by simp, ht⟩) ?_
    cases hq : ((Ty.array t n).decode I).1 with
    | ub x => rw [hq] at h; injection h with h; rw [h]
    | ok x => rw [hq] at h; exact nomatch h
    | err x => rw [hq] at h; exact nomatch h
    | panic x => rw [hq] at h; exact nomatch h
  · obtain ⟨r, m', e, -, hr⟩ := C80_sized_slice t n a I m ha
    rw [e] at h
    refine key (.sizedSlice t n) (fun ht => ⟨by simp, ht⟩) ?_
    have h' : r = .ub u := h
    subst h'
    cases hq : ((Ty.sizedSlice t n).decode I).1 with
    | ub x => rw [hq] at hr; have : u = x := hr; rw [this]
    | ok x => rw [hq] at hr; exact hr.elim
    | err x => rw [hq] at hr; exact hr.elim
    | panic x => rw [hq] at hr; exact hr.elim

example : (rawArrayDecode Ty.char.decode 1 7 ⟨[0x00, 0xDE, 0, 0], 0⟩ noMem).1 = .ub .invalidChar := rfl

end Oct.Props
