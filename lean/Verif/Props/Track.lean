import Verif.Proofs.TrackLost
import Verif.Proofs.TrackKeep
import Verif.Proofs.RoundTrip
import Verif.Props.Samples
/-
C81-C83: what becomes of the allocations that decoding makes.
-/
namespace Oct.Props
open Oct Spec
set_option linter.unusedVariables false

/-- C81. The account of the heap does not change what is decoded. -/
theorem C81_decodes (t : Ty) (I : Input) (n : Nat) :
    (t.track I n).res = (t.decode I).1 ∧ (t.track I n).rest = (t.decode I).2 :=
  t.track_erases I n

/-- C81. Each allocation that decoding makes is owned by the value, kept by a sized slice of it, freed,
or lost; it is so exactly once, and nothing else is. -/
theorem C81_balance (t : Ty) (I : Input) (n : Nat) : Balanced n (t.track I n) := t.track_bal I n

/-- C81. Where two keys of a hash map are equal, the map goes on to own the first key and the last value;
the key that was decoded again and the value that it replaces are what is freed. -/
theorem C81_replaced {α β : Type} [DecidableEq α] (k : α) (hk hv ok ov : Holding) (b : β)
    (l2 : List (α × β)) (h2 : Holdings) : ∀ (l1 : List (α × β)) (h1 : Holdings), l1.length = h1.length →
    (∀ e ∈ l1, e.1 ≠ k) →
    holdInsert k hk hv (l1 ++ (k, b) :: l2) (h1 ++ (ok, ov) :: h2)
      = (h1 ++ (ok, hv) :: h2, ⟨hk.owned ++ ov.owned, hk.kept ++ ov.kept⟩)
  | [], [], _, _ => by
    rw [List.nil_append, List.nil_append, holdInsert, if_pos rfl]
    rfl
  | e :: l1, g :: h1, hl, hn => by
    rw [List.cons_append, List.cons_append, holdInsert, if_neg (hn e List.mem_cons_self),
      C81_replaced k hk hv ok ov b l2 h2 l1 h1 (Nat.succ.inj hl)
        fun x hx => hn x (List.mem_cons_of_mem _ hx)]
    rfl

/-- A map that has the keys 3 and 5, of which the latter is decoded again. -/
example : holdInsert 5 ⟨[20], []⟩ ⟨[21], []⟩ [(3, 'a'), (5, 'b')] [(⟨[10], []⟩, ⟨[11], []⟩), (⟨[12], []⟩, ⟨[13], []⟩)]
    = ([(⟨[10], []⟩, ⟨[11], []⟩), (⟨[12], []⟩, ⟨[21], []⟩)], ⟨[20, 13], []⟩) := rfl

/-- C81. So nothing is freed twice, and nothing that the value owns or keeps has been freed. -/
theorem C81_no_double_free (t : Ty) (I : Input) (n : Nat) :
    (t.track I n).freed.Nodup ∧ (t.track I n).owned.Nodup ∧
    ∀ a ∈ (t.track I n).freed, a ∉ (t.track I n).owned ∧ a ∉ (t.track I n).kept ∧ n ≤ a := by
  obtain ⟨h1, h2, -⟩ := C81_balance t I n
  generalize t.track I n = x at h1 h2 ⊢
  have le : ∀ a, x.owned.count a + x.kept.count a + x.freed.count a + x.lost.count a ≤ 1 := by
    intro a
    rw [h2 a]
    split <;> omega
  refine ⟨List.nodup_iff_count.mpr fun a => ?_, List.nodup_iff_count.mpr fun a => ?_, fun a ha => ?_⟩
  · have := le a; omega
  · have := le a; omega
  · have hp := List.count_pos_iff.mpr ha
    have := le a
    refine ⟨fun hm => ?_, fun hm => ?_, ?_⟩
    · have := List.count_pos_iff.mpr hm; omega
    · have := List.count_pos_iff.mpr hm; omega
    · have h3 := h2 a
      by_cases hr : n ≤ a ∧ a < x.next
      · exact hr.1
      · rw [if_neg hr] at h3; omega

/-- The types of the samples: `Box<NonZeroU8>` and vectors and lists of it. -/
def boxed : Ty := .wrap .box (.nonZero (.int .u8))

/-- Two boxes are decoded. The value owns the buffer and the boxes. -/
example : ((Ty.seq .vec boxed).track ⟨[2, 0, 7, 8], 0⟩ 10).owned = [10, 11, 12] ∧
    ((Ty.seq .vec boxed).track ⟨[2, 0, 7, 8], 0⟩ 10).freed = [] := ⟨rfl, rfl⟩

/-- A map with the same key twice: the second key and the first value are freed. -/
example : ((Ty.hashMap boxed boxed).track ⟨[2, 0, 7, 8, 7, 9], 0⟩ 10).freed = [13, 12] ∧
    ((Ty.hashMap boxed boxed).track ⟨[2, 0, 7, 8, 7, 9], 0⟩ 10).owned = [10, 11, 14] := ⟨rfl, rfl⟩

/-- C82 is false: a vector whose second box is bad is refused with an error. The buffer is freed, but
the first box is not. -/
theorem C82_false :
    ∃ (t : Ty) (I : Input) (n : Nat) (e : DecErr), (t.decode I).1 = .err e ∧ (t.track I n).res = .err e ∧
      (t.track I n).freed = [n] ∧ (t.track I n).lost = [n + 1] :=
  ⟨.seq .vec boxed, ⟨[2, 0, 7, 0], 0⟩, 10, .badItem (.item 1 .nonZero), rfl, rfl, rfl, rfl⟩

/-- Arrays and sized slices are no better; linked lists are. -/
example : ((Ty.array boxed 2).track ⟨[7, 0], 0⟩ 10).lost = [10] ∧
    ((Ty.sizedSlice boxed 2).track ⟨[2, 0, 7, 0], 0⟩ 10).lost = [10] ∧
    ((Ty.seq .linkedList boxed).track ⟨[2, 0, 7, 0], 0⟩ 10).freed = [11, 10] := ⟨rfl, rfl, rfl⟩

/-- C82. A decoding that does not succeed has freed everything that it allocated. Missing: types with
vectors, arrays or sized slices whose items may own allocations (an array of one such item is fine). -/
theorem C82_no_leak_partial (t : Ty) (ht : TidyHeap t) (I : Input) (n : Nat)
    (h : ∀ v, (t.decode I).1 ≠ .ok v) :
    ∀ a, (t.track I n).freed.count a = if n ≤ a ∧ a < (t.track I n).next then 1 else 0 := by
  intro a
  obtain ⟨h1, h2, h3⟩ := C81_balance t I n
  obtain ⟨e1, e2⟩ := h3 fun v hv => h v ((C81_decodes t I n).1 ▸ hv)
  have h4 := h2 a
  rw [e1, e2, (t.track_loses0 ht I n).2] at h4
  simpa using h4

/-- A structure of a text, a list of boxes and a vector of numbers. -/
def tidySample : Ty := .struct (.cons (.str .string) (.cons (.seq .linkedList boxed)
  (.cons (.seq .vec (.nonZero (.int .u8))) .nil)))

example : TidyHeap tidySample ∧
    (tidySample.track ⟨[1, 0, 97, 1, 0, 7, 2, 0, 1, 0], 0⟩ 10).next = 14 ∧
    (tidySample.track ⟨[1, 0, 97, 1, 0, 7, 2, 0, 1, 0], 0⟩ 10).lost = [] := by
  refine ⟨?_, rfl, rfl⟩
  simp [TidyHeap, tidySample, boxed, Everywhere, EverywhereFields, PlainItems, Plain, NoHeap]

/-- C82, how much is lost: if `k` items of a vector can be decoded and the next one cannot, then
everything that the `k` items own or keep is lost, besides what decoding that one loses. -/
theorem C82_items_lost (t : Ty) (I I1 : Input) (n k len : Nat) (vs : Items t.Val k)
    (hu : decUsize I = (.ok len, I1)) (hk : k < len)
    (hvs : (trackItems t.track k 0 I1 (n + 1)).res = .ok vs)
    (hf : ∀ v, (t.track (trackItems t.track k 0 I1 (n + 1)).rest
      (trackItems t.track k 0 I1 (n + 1)).next).res ≠ .ok v) :
    (∀ l, ((Ty.seq .vec t).decode I).1 ≠ .ok l) ∧
    ∀ a, ((Ty.seq .vec t).track I n).lost.count a
      = (trackItems t.track k 0 I1 (n + 1)).lost.count a
        + (trackItems t.track k 0 I1 (n + 1)).owned.count a
        + (trackItems t.track k 0 I1 (n + 1)).kept.count a
        + (t.track (trackItems t.track k 0 I1 (n + 1)).rest
            (trackItems t.track k 0 I1 (n + 1)).next).lost.count a := by
  obtain ⟨h1, h2⟩ := items_lost t.track k 0 len I1 (n + 1) vs hk hvs hf
  obtain ⟨v1, -, v2, -⟩ := trackVec_lost t.track len I I1 n hu (by omega) h1
  refine ⟨fun l h => v1 l (((C81_decodes (.seq .vec t) I n).1).trans h), fun a => ?_⟩
  exact (congrArg (List.count a) v2).trans (h2 a)

/-- C82. How bad it gets: for every `k` up to 65534 there are `k + 3` octets that a vector of boxes
refuses with an error, with `k` boxes lost. -/
theorem C82_unbounded_false (k : Nat) (hk : k < 65535) (n : Nat) :
    ∃ (d : List Byte) (e : DecErr), d.length = k + 3 ∧ ((Ty.seq .vec boxed).decode (Input.new d)).1 = .err e ∧
      ((Ty.seq .vec boxed).track (Input.new d) n).lost.length = k := by
  obtain ⟨e, h1, h2⟩ := boxes_lost k 0 (n + 1) (leBytes 2 (k + 1))
  have hu := decUsize_decodes (k + 1) (by omega) [] (List.replicate k 1 ++ [0])
  have hl : ([] : List Byte).length + (leBytes 2 (k + 1)).length = (leBytes 2 (k + 1)).length := by simp
  rw [hl] at hu
  have hn : ∀ v, (trackItems boxed.track (k + 1) 0
      ⟨leBytes 2 (k + 1) ++ (List.replicate k 1 ++ [0]), (leBytes 2 (k + 1)).length⟩ (n + 1)).res
        ≠ .ok v := fun v h => nomatch h1.symm.trans h
  obtain ⟨-, v1, v2, -⟩ := trackVec_lost boxed.track (k + 1) _ _ n hu (by omega) hn
  refine ⟨leBytes 2 (k + 1) ++ (List.replicate k 1 ++ [0]), e, ?_, ?_, ?_⟩
  · simp [leBytes_length]; omega
  · exact ((C81_decodes (.seq .vec boxed) _ n).1).symm.trans (v1 e h1)
  · exact (congrArg List.length v2).trans h2

/-- C83 is false: dropping a sized slice with a box in it does not free the box. -/
theorem C83_false : ∃ (t : Ty) (I : Input) (n : Nat) (v : t.Val), (t.decode I).1 = .ok v ∧
    (t.track I n).next = n + 1 ∧ n ∉ (t.track I n).owned ∧ n ∉ (t.track I n).freed :=
  ⟨.sizedSlice boxed 1, ⟨[1, 0, 7], 0⟩, 10, ⟨[⟨7, by decide⟩], by decide⟩, rfl, rfl, by decide, by decide⟩

/-- C83. When a value has been decoded, it owns everything that decoding it allocated and did not free:
dropping it gives all memory back. Missing: types with sized slices whose items may own allocations. -/
theorem C83_owned_partial (t : Ty) (ht : Everywhere PlainSized t) (I : Input) (n : Nat) (v : t.Val)
    (h : (t.decode I).1 = .ok v) :
    ∀ a, (t.track I n).owned.count a + (t.track I n).freed.count a
      = if n ≤ a ∧ a < (t.track I n).next then 1 else 0 := by
  intro a
  obtain ⟨h1, h2, h3⟩ := C81_balance t I n
  have h4 := h2 a
  have hk := t.track_keeps0 ht I n v ((C81_decodes t I n).1.trans h)
  rw [hk.1, hk.2] at h4
  simpa using h4

/-- Vectors and arrays of boxes are among these types. -/
example : Everywhere PlainSized (.array (.seq .vec boxed) 2) ∧
    ((Ty.array (.seq .vec boxed) 2).track ⟨[1, 0, 7, 0, 0], 0⟩ 10).owned = [10, 11] := by
  refine ⟨?_, rfl⟩
  simp [boxed, Everywhere, PlainSized]

/-- C83. Values without boxes, strings and collections are decoded without any allocation. -/
theorem C83_plain (t : Ty) (ht : Plain t) (I : Input) (n : Nat) : (t.track I n).next = n :=
  (t.track_noAlloc ht I n).1

example : Plain (.array (.option (.sizedStr 4)) 3) ∧ ¬ Plain boxed := by
  constructor
  · simp [Plain, Everywhere, NoHeap]
  · intro h; exact h.1

end Oct.Props
