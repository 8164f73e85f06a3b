import Verif.Proofs.Reserve
/-
C131: buffers that decoding asks for are never larger than `isize::MAX`.
-/
namespace Oct.Props
open Oct Spec

/-- C131 (false). A length for which the buffer of a `Vec` would be too large makes `Vec::decode` panic, before
the first item is read: the two octets of the length are all that it takes, whatever comes after them. -/
theorem C131_false (T : Target) (t : Ty) (n : Nat) (hn : n ≤ 65535) (h : T.isizeMax < n * T.size t)
    (pre rest : List Byte) :
    (Ty.seq .vec t).decodeOn T ⟨pre ++ (leBytes 2 n ++ rest), pre.length⟩ =
      (.panic .capacityOverflow, ⟨pre ++ (leBytes 2 n ++ rest), pre.length + 2⟩) := by
  have := prefix_overflow (fits := T.vecFits t) (n := n) hn (by simp [Target.vecFits]; omega)
    (f := fun len => decItems (t.decodeOn T) len 0 >>= fun vs => pure vs.val) pre rest
  rwa [leBytes_length] at this

/-- A machine of 16 bits: `isize::MAX` is 32767. The tables are those of hashbrown with groups of 4, for
entries of one octet: the number of buckets is a power of two. -/
def avr : Target where
  isizeMax := 32767
  size := fun _ => 1
  tableFits := fun size len => decide (len = 0 ∨
    (if len < 4 then 4 else if len < 8 then 8 else if len < 15 then 16 else
      (List.range 18).foldr (fun k r => if len * 8 / 7 ≤ 2 ^ k then 2 ^ k else r) 0) * (size + 1) + 4
        ≤ 32767)
  tableFits_zero := fun s => by simp

/-- On a machine of 16 bits, the octets FF FF make `Vec::<u8>::decode` panic. -/
example : (Ty.seq .vec (.num (.int .u8))).decodeOn avr ⟨[255, 255], 0⟩ =
    (.panic .capacityOverflow, ⟨[255, 255], 2⟩) :=
  C131_false avr (.num (.int .u8)) 65535 (by decide) (by decide) [] []

/-- On a machine of 32 bits, they make `Vec::<[u8; 40000]>::decode` panic. -/
example (T : Target) (hT : T.isizeMax = 2 ^ 31 - 1) (h : T.size (.array (.num (.int .u8)) 40000) = 40000) :
    (Ty.seq .vec (.array (.num (.int .u8)) 40000)).decodeOn T ⟨[255, 255], 0⟩ =
      (.panic .capacityOverflow, ⟨[255, 255], 2⟩) :=
  C131_false T _ 65535 (by decide) (by rw [hT, h]; decide) [] []

/-- Also those of hash sets, for fewer keys: the table takes more space than the keys. -/
example : (Ty.hashSet (.num (.int .u8))).decodeOn avr ⟨[255, 63], 0⟩ =
    (.panic .capacityOverflow, ⟨[255, 63], 2⟩) :=
  prefix_overflow (fits := avr.setFits (.num (.int .u8))) (n := 16383) (by decide) (by decide +kernel) [] []

/-- C131. Decoding is otherwise as if all buffers fitted: it differs from Model/Decode only if it panics for
want of room. -/
theorem C131_agrees (T : Target) (t : Ty) (i : Input)
    (h : (t.decodeOn T i).1 ≠ .panic .capacityOverflow) : t.decodeOn T i = t.decode i :=
  (t.decodeOn_agrees T i).resolve_right h

example : (Ty.seq .vec (.num (.int .u8))).decodeOn avr ⟨[2, 0, 5, 6], 0⟩ =
    (Ty.seq .vec (.num (.int .u8))).decode ⟨[2, 0, 5, 6], 0⟩ :=
  C131_agrees avr _ _ (fun h => nomatch h)

/-- C131 (partial). If the largest collection of each of the types that occur fits, decoding never asks for a
buffer that is too large. Missing: the others do, see `C131_false`. -/
theorem C131_partial (T : Target) (t : Ty) (ht : Everywhere (Roomy T) t) (i : Input) :
    (t.decodeOn T i).1 ≠ .panic .capacityOverflow := by
  intro h
  have := t.decodeOn_ends T (not_overflows_of_roomy T t ht) i
  rw [h] at this
  exact this rfl

/-- On a machine of 64 bits, `Vec`s of items of up to 2^47 octets are such. -/
example (T : Target) (hT : T.isizeMax = 2 ^ 63 - 1) (t : Ty) (ht : T.size t ≤ 2 ^ 47)
    (h : Everywhere (Roomy T) t) : Everywhere (Roomy T) (.seq .vec t) :=
  ⟨by show 65535 * T.size t ≤ T.isizeMax
      rw [hT]; omega, h⟩

/-- Without the collections, all machines will do. -/
example (T : Target) : Everywhere (Roomy T) (.tuple (.cons (.str .string) (.cons (.array .char 5) .nil))) :=
  ⟨trivial, trivial, ⟨trivial, trivial⟩, trivial⟩

/-- C131, exactly: some octets make decoding ask for a buffer that is too large if and only if decoding can get
to a `Vec` whose items are too large for 65535 of them, or to a hash map or hash set whose table can be too
large. -/
theorem C131_exactly (T : Target) (t : Ty) (hw : t.WF) :
    (∃ i, (t.decodeOn T i).1 = .panic .capacityOverflow) ↔ Overflows T t := by
  constructor
  · rintro ⟨i, h⟩
    refine Classical.byContradiction fun hn => ?_
    have := t.decodeOn_ends T hn i
    rw [h] at this
    exact this rfl
  · intro h
    obtain ⟨bs, h⟩ := t.decodeOn_overflow T hw h
    exact ⟨_, by rw [h [] []]⟩

/-- In that case, the same octets do so wherever they are in the stream. -/
theorem C131_anywhere (T : Target) (t : Ty) (hw : t.WF) (h : Overflows T t) :
    ∃ bs, ∀ pre rest, t.decodeOn T ⟨pre ++ (bs ++ rest), pre.length⟩ =
      (.panic .capacityOverflow, ⟨pre ++ (bs ++ rest), pre.length + bs.length⟩) :=
  t.decodeOn_overflow T hw h

/-- A `Vec` behind an `Infallible` is never reached. -/
example (T : Target) : ¬ Overflows T (.tuple (.cons .infallible (.cons (.seq .vec (.num (.int .u8))) .nil))) := by
  rintro (h | ⟨h, _⟩)
  · exact h
  · exact h

/-- One in an empty array neither, but one in a `LinkedList` is. -/
example : ¬ Overflows avr (.array (.seq .vec (.num (.int .u8))) 0) ∧
    Overflows avr (.seq .linkedList (.seq .vec (.num (.int .u8)))) :=
  ⟨fun h => h.1 rfl, .inl (by decide)⟩

/-- C131. What is reserved for a text, and for the null octet after it if it is a C string, is not larger than
the input, and that is in memory already. -/
theorem C131_text (i i' : Input) :
    (∀ s, decString i = (.ok s, i') → s.val.length < i.buf.length) ∧
    ∀ s, decCString i = (.ok s, i') → s.val.length + 1 < i.buf.length := by
  have hl : ∀ d : List Byte, (∃ rest, i.buf.drop i.pos = (leBytes 2 d.length ++ d) ++ rest) →
      d.length + 1 < i.buf.length := by
    rintro d ⟨rest, h⟩
    have := congrArg List.length h
    simp only [List.length_drop, List.length_append, leBytes_length] at this
    omega
  constructor
  · intro s h
    obtain ⟨bs, ⟨hb, _⟩, _, rfl⟩ := ((decString_parses i i').1 s).mp h
    have := hl _ hb
    omega
  · intro s h
    obtain ⟨bs, ⟨hb, _⟩, _, rfl⟩ := ((decCString_parses i i').1 s).mp h
    exact hl _ hb

example : decString ⟨[1, 0, 97], 0⟩ = (.ok ⟨[97], by decide⟩, ⟨[1, 0, 97], 3⟩) ∧
    decCString ⟨[1, 0, 97], 0⟩ = (.ok ⟨[97], by decide⟩, ⟨[1, 0, 97], 3⟩) := ⟨rfl, rfl⟩

end Oct.Props
