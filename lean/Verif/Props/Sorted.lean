import Verif.Proofs.Sorted
/-
C146: do octets sort as the values they encode?
-/
namespace Oct.Props
open Oct Spec
set_option linter.unusedVariables false

/-- C146. Octets are ordered as the values they encode, whatever is behind them, if the values are made of octets and
truth values, without lengths greater than one or discriminants greater than 255. -/
theorem C146_behind (t : Ty) (ht : t.WF) (hs : Sortable t) (a b : t.Val) (r s : List UInt8) :
    octetwise (wire t a ++ r) (wire t b ++ s) = (valueOrder t a b).then (octetwise r s) :=
  sortsOn t ht hs a b r s

/-- C146. In particular, if nothing is behind them. -/
theorem C146_sorts_partial (t : Ty) (ht : t.WF) (hs : Sortable t) : Sorts t := by
  intro a b _ _
  have := C146_behind t ht hs a b [] []
  rw [List.append_nil, List.append_nil] at this
  rw [this]
  show (valueOrder t a b).then .eq = _
  cases valueOrder t a b <;> rfl

/-- C146. Then values are encoded as the same octets just if neither is before the other. -/
theorem C146_same (t : Ty) (ht : t.WF) (hs : Sortable t) (a b : t.Val) : wire t a = wire t b ↔ valueOrder t a b = .eq := by
  have h := C146_behind t ht hs a b [] []
  rw [List.append_nil, List.append_nil] at h
  constructor
  · intro e
    rw [e, octetwise_refl] at h
    cases hv : valueOrder t a b with
    | eq => rfl
    | lt => rw [hv] at h; exact nomatch h
    | gt => rw [hv] at h; exact nomatch h
  · intro e
    rw [e] at h
    exact octetwise_eq _ _ h

/-- `struct Key { kind: Kind, tag: Option<u8>, digest: [u8; 2] }`, with `#[repr(u16)] enum Kind { A = 7, B(bool) }`. -/
def keyTy : Ty := .struct (.cons (.enum (.int .u16) (.cons (some 7) .nil (.cons none (.cons .bool .nil) .nil)))
  (.cons (.option (.num (.int .u8))) (.cons (.array (.num (.int .u8)) 2) .nil)))

/-- A key. -/
def aKey : keyTy.Val := (.inr (.inl (false, ())), some 3#8, ⟨[1#8, 2#8], rfl⟩, ())

/-- Another. -/
def anotherKey : keyTy.Val := (.inr (.inl (false, ())), some 3#8, ⟨[1#8, 9#8], rfl⟩, ())

example : keyTy.WF ∧ Sortable keyTy := by
  refine ⟨⟨⟨by decide, by decide, ?_⟩, trivial, trivial, trivial⟩, ⟨by decide, ?_⟩, trivial, trivial, trivial⟩
  · exact ⟨trivial, ⟨trivial, trivial⟩, trivial⟩
  · exact ⟨trivial, ⟨trivial, trivial⟩, trivial⟩
example : wire keyTy aKey = [8, 0, 0, 1, 3, 1, 2] ∧ valueOrder keyTy aKey anotherKey = .lt ∧
    octetwise (wire keyTy aKey) (wire keyTy anotherKey) = .lt := by decide

/-- C146. The order of sized slices and sized strings meant here is what the comparisons of the crate compute. -/
theorem C146_crate {ε α : Type} (f : α → α → Ordering) :
    (∀ (a b : SizedSlice α) (l m : List α), a.asSlice (ε := ε) = .ok l → b.asSlice (ε := ε) = .ok m →
      a.partialCmp (ε := ε) (fun x y => some (f x y)) b = .ok (some (itemwise f l m))) ∧
    ∀ (a b : SizedStr) (l m : List UInt8), a.asBytes (ε := ε) = .ok l → b.asBytes (ε := ε) = .ok m →
      a.cmp (ε := ε) b = .ok (some (octetwise l m)) := by
  refine ⟨fun a b l m ha hb => ?_, fun a b l m ha hb => ?_⟩
  · unfold SizedSlice.partialCmp
    simp only [ha, hb, cmpSlice_itemwise]
  · unfold SizedStr.cmp
    simp only [ha, hb]
    rw [cmpSlice_itemwise]
    rfl

example : (SizedStr.mk ⟨[some 97, some 98, none], 2⟩).asBytes (ε := Empty) = .ok [97, 98] := by decide

/-- C146. Of the types that are not made of others, these are all: numbers of more than one octet, signed numbers,
characters, durations, addresses and texts do not sort. -/
theorem C146_leaves (t : Ty) (hl : Leaf t) (ho : HasOrder t) : Sorts t ↔ Sortable t := by
  have texts : ¬ octetwise (leBytes 2 1 ++ [98]) (leBytes 2 2 ++ [97, 97]) = octetwise [98] [97, 97] := by decide
  refine ⟨fun h => ?_, fun h => C146_sorts_partial t ?_ h⟩
  · cases t with
    | num k =>
      cases k with
      | int k =>
        cases k with
        | u8 => trivial
        | i8 => exact absurd (h (255#8) (0#8) trivial trivial) (by decide)
        | i16 => exact absurd (h (65535#16) (0#16) trivial trivial) (by decide)
        | i32 => exact absurd (h (-1#32) (0#32) trivial trivial) (by decide)
        | i64 => exact absurd (h (-1#64) (0#64) trivial trivial) (by decide)
        | i128 => exact absurd (h (-1#128) (0#128) trivial trivial) (by decide)
        | u16 => exact absurd (h (1#16) (256#16) trivial trivial) (by decide)
        | u32 => exact absurd (h (1#32) (256#32) trivial trivial) (by decide)
        | u64 => exact absurd (h (1#64) (256#64) trivial trivial) (by decide)
        | u128 => exact absurd (h (1#128) (256#128) trivial trivial) (by decide)
      | f32 => exact ho.elim
      | f64 => exact ho.elim
    | bool => trivial
    | char => exact absurd (h 'a' 'Ā' trivial trivial) (by decide)
    | usize => exact absurd (h (1 : Nat) (256 : Nat) (by decide : (1 : Nat) ≤ 65535) (by decide : (256 : Nat) ≤ 65535)) (by decide)
    | isize => exact absurd (h (-1 : Int) (0 : Int) (by decide : (-32768 : Int) ≤ -1 ∧ (-1 : Int) ≤ 32767)
        (by decide : (-32768 : Int) ≤ 0 ∧ (0 : Int) ≤ 32767)) (by decide)
    | nonZero r =>
      cases r with
      | int k =>
        cases k with
        | u8 => trivial
        | i8 => exact absurd (h ⟨-1, by decide⟩ ⟨1, by decide⟩ trivial trivial) (by decide)
        | i16 => exact absurd (h ⟨-1, by decide⟩ ⟨1, by decide⟩ trivial trivial) (by decide)
        | i32 => exact absurd (h ⟨-1, by decide⟩ ⟨1, by decide⟩ trivial trivial) (by decide)
        | i64 => exact absurd (h ⟨-1, by decide⟩ ⟨1, by decide⟩ trivial trivial) (by decide)
        | i128 => exact absurd (h ⟨-1, by decide⟩ ⟨1, by decide⟩ trivial trivial) (by decide)
        | u16 => exact absurd (h ⟨1, by decide⟩ ⟨256, by decide⟩ trivial trivial) (by decide)
        | u32 => exact absurd (h ⟨1, by decide⟩ ⟨256, by decide⟩ trivial trivial) (by decide)
        | u64 => exact absurd (h ⟨1, by decide⟩ ⟨256, by decide⟩ trivial trivial) (by decide)
        | u128 => exact absurd (h ⟨1, by decide⟩ ⟨256, by decide⟩ trivial trivial) (by decide)
      | usize => exact absurd (h ⟨1, by decide⟩ ⟨256, by decide⟩ (by decide : (1 : Int) ≤ 65535)
          (by decide : (256 : Int) ≤ 65535)) (by decide)
      | isize => exact absurd (h ⟨-1, by decide⟩ ⟨1, by decide⟩ (by decide : (-32768 : Int) ≤ -1 ∧ (-1 : Int) ≤ 32767)
          (by decide : (-32768 : Int) ≤ 1 ∧ (1 : Int) ≤ 32767)) (by decide)
    | unit k => cases k <;> first | trivial | exact ho.elim
    | infallible => trivial
    | duration => exact absurd (h ⟨1#64, 0, by decide⟩ ⟨256#64, 0, by decide⟩ trivial trivial) (by decide)
    | ipv4 => exact absurd (h ⟨[0, 0, 0, 1], rfl⟩ ⟨[1, 0, 0, 0], rfl⟩ trivial trivial) (by decide)
    | ipv6 => exact absurd (h ⟨[0, 0, 0, 0, 0, 0, 0, 0, 0, 0, 0, 0, 0, 0, 0, 1], rfl⟩
        ⟨[1, 0, 0, 0, 0, 0, 0, 0, 0, 0, 0, 0, 0, 0, 0, 0], rfl⟩ trivial trivial) (by decide)
    | ipAddr => exact absurd (h (.v4 ⟨[0, 0, 0, 1], rfl⟩) (.v4 ⟨[1, 0, 0, 0], rfl⟩) trivial trivial) (by decide)
    | socketAddrV4 => exact absurd (h ⟨⟨[0, 0, 0, 1], rfl⟩, 0⟩ ⟨⟨[1, 0, 0, 0], rfl⟩, 0⟩ trivial trivial) (by decide)
    | socketAddrV6 => exact absurd (h ⟨⟨[0, 0, 0, 0, 0, 0, 0, 0, 0, 0, 0, 0, 0, 0, 0, 1], rfl⟩, 0, 0, 0⟩
        ⟨⟨[1, 0, 0, 0, 0, 0, 0, 0, 0, 0, 0, 0, 0, 0, 0, 0], rfl⟩, 0, 0, 0⟩ trivial trivial) (by decide)
    | socketAddr =>
      exact absurd (h (.v4 ⟨⟨[0, 0, 0, 1], rfl⟩, 0⟩) (.v4 ⟨⟨[1, 0, 0, 0], rfl⟩, 0⟩) trivial trivial) (by decide)
    | str k => exact absurd (h ⟨[98], by decide⟩ ⟨[97, 97], by decide⟩ (by decide : 1 ≤ 65535) (by decide : 2 ≤ 65535)) texts
    | cStr k => exact absurd (h ⟨[98], by decide⟩ ⟨[97, 97], by decide⟩ (by decide : 1 ≤ 65535) (by decide : 2 ≤ 65535)) texts
    | sizedStr n =>
      show n ≤ 1
      refine Nat.not_lt.mp fun hn => ?_
      exact absurd (h ⟨[98], by decide, by show 1 ≤ n; omega⟩ ⟨[97, 97], by decide, by show 2 ≤ n; omega⟩
        (by decide : 1 ≤ 65535) (by decide : 2 ≤ 65535)) texts
    | _ => exact hl.elim
  · cases t <;> first | trivial | exact hl.elim

example : Leaf .char ∧ HasOrder .char := ⟨trivial, trivial⟩

/-- C146. Nor does any collection of unlimited length, of items of which there is one. -/
theorem C146_lists (k : SeqKind) (t : Ty) (x : t.Val) (hx : Encodable t x) : ¬ Sorts (.seq k t) := by
  intro h
  have h := h (List.replicate 1 x) (List.replicate 256 x)
    ⟨by show (List.replicate 1 x).length ≤ _; rw [List.length_replicate]; omega,
      fun y hy => List.eq_of_mem_replicate hy ▸ hx⟩
    ⟨by show (List.replicate 256 x).length ≤ _; rw [List.length_replicate]; omega,
      fun y hy => List.eq_of_mem_replicate hy ▸ hx⟩
  have e1 : valueOrder (.seq k t) (List.replicate 1 x) (List.replicate 256 x) = .lt := by
    show itemwise (valueOrder t) (List.replicate 1 x) (List.replicate 256 x) = _
    have : List.replicate 256 x = List.replicate 1 x ++ x :: List.replicate 254 x := rfl
    rw [this]
    exact itemwise_longer _ _ _ fun y _ => valueOrder_refl t y
  have e2 : octetwise (wire (.seq k t) (List.replicate 1 x)) (wire (.seq k t) (List.replicate 256 x)) = .gt := by
    show octetwise (leBytes 2 (List.replicate 1 x).length ++ _) (leBytes 2 (List.replicate 256 x).length ++ _) = _
    rw [List.length_replicate, List.length_replicate]
    rfl
  rw [e1, e2] at h
  exact nomatch h

example : Encodable (.num (.int .u8)) 0#8 := trivial

/-- C146 is false: of numbers of two octets, say, `1` is before `256`, but is encoded as octets behind those of
`256`. -/
theorem C146_false : ¬ ∀ t : Ty, t.WF → HasOrder t → Sorts t := fun h =>
  (C146_leaves (.num (.int .u16)) trivial trivial).mp (h _ trivial trivial)

end Oct.Props
