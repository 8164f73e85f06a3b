import Verif.Proofs.Scarce
import Verif.Proofs.ScarceAsks
import Verif.Props.Costs
/-
C144: when memory runs out.
-/
namespace Oct.Props
open Oct Spec
set_option linter.unusedVariables false

/-- A typical 64-bit platform. -/
def usualHeap : HeapOf where
  size t := match t with
    | .num (.int .u8) => 1
    | .num (.int .u16) => 2
    | .wrap _ _ => 8
    | .seq _ _ | .str _ | .cStr _ => 24
    | _ => 16
  counted n := 16 + n
  node n := 16 + n
  table n len := (n + 1) * (2 * len + 2) + 16

/-- C144. Decoding asks for the same memory whatever the allocator does, until it refuses: what is asked for is given by
the type and the input alone. If all is granted, what comes, and what is left of the input, are what come and are left
where memory cannot run out (Model/Decode). Else the program aborts at the first request that is refused. -/
theorem C144_same (H : HeapOf) (t : Ty) (I : Input) : ∃ l : List Nat, (∀ n ∈ l, 0 < n) ∧ ∀ g before,
    (Granted g before l ∧ t.scarce H g I before = (.came (t.decode I).1, (t.decode I).2, before ++ l)) ∨
    ∃ p n q I', l = p ++ n :: q ∧ Granted g before p ∧ g (before ++ p) n = false ∧
      t.scarce H g I before = (.aborted, I', before ++ (p ++ [n])) := by
  obtain ⟨l, h0, _, h⟩ := t.scarce_serves H .calls I
  refine ⟨l, fun n hn => Nat.pos_of_ne_zero (h0 n hn), fun g before => ?_⟩
  have h := h g before
  rwa [t.cost_same .calls I] at h

/-- C144. What comes of decoding does not depend on the allocator, unless the program aborts. -/
theorem C144_agree (H : HeapOf) (t : Ty) (I : Input) (g : Allocator) (before : List Nat) :
    (∃ I' asked, t.scarce H g I before = (.aborted, I', asked)) ∨
    ∃ asked, t.scarce H g I before = (.came (t.decode I).1, (t.decode I).2, asked) := by
  obtain ⟨l, _, h⟩ := C144_same H t I
  rcases h g before with ⟨_, e⟩ | ⟨p, n, q, I', _, _, _, e⟩
  · exact .inr ⟨_, e⟩
  · exact .inl ⟨I', _, e⟩

/-- C144. By the time a value has come, exactly what its parts take has been asked for, in the order in which they
occur: a buffer before its items, a node or a box after what it holds, and entries of maps and of sets, and items of
sized slices, also where they are then replaced or cut off. -/
theorem C144_asks (H : HeapOf) (t : Ty) (g : Allocator) (I I' : Input) (v : t.Val) (before asked : List Nat)
    (h : t.scarce H g I before = (.came (.ok v), I', asked)) : ∃ l, asked = before ++ l ∧ Asks H t v l :=
  t.scarce_asked H g I before v I' asked h

/-- `Vec<Box<u8>>`. -/
abbrev boxedBytesTy : Ty := .seq .vec (.wrap .box (.num (.int .u8)))

/-- Two boxes take sixteen octets for the buffer and then one octet each. With seventeen octets, the program aborts at
the second. -/
example : boxedBytesTy.scarce usualHeap (budget 18) ⟨[2, 0, 7, 8], 0⟩ [] =
      (.came (.ok (show List (BitVec 8) from [7, 8])), ⟨[2, 0, 7, 8], 4⟩, [16, 1, 1]) ∧
    boxedBytesTy.scarce usualHeap (budget 17) ⟨[2, 0, 7, 8], 0⟩ [] = (.aborted, ⟨[2, 0, 7, 8], 4⟩, [16, 1, 1]) := by
  exact ⟨rfl, rfl⟩

theorem granted_budget (B : Nat) : ∀ (l before : List Nat), before.sum + l.sum ≤ B → Granted (budget B) before l
  | [], _, _ => trivial
  | n :: l, before, h => by
    rw [List.sum_cons] at h
    refine ⟨decide_eq_true (by omega), granted_budget B l _ ?_⟩
    rw [List.sum_append, List.sum_singleton]
    omega

theorem budget_granted (B : Nat) : ∀ (l before : List Nat), Granted (budget B) before l → before.sum ≤ B →
    before.sum + l.sum ≤ B
  | [], _, _, h => h
  | n :: l, before, h, _ => by
    have h1 : before.sum + n ≤ B := of_decide_eq_true h.1
    have h2 := budget_granted B l _ h.2 (by rw [List.sum_append, List.sum_singleton]; exact h1)
    rw [List.sum_append, List.sum_singleton] at h2
    rw [List.sum_cons]
    omega

/-- C144. With so many octets in all, decoding goes on to its end if and only if all that it asks for is no more. -/
theorem C144_budget (H : HeapOf) (t : Ty) (I : Input) : ∃ l : List Nat, (∀ n ∈ l, 0 < n) ∧ ∀ B,
    (l.sum ≤ B ∧ t.scarce H (budget B) I [] = (.came (t.decode I).1, (t.decode I).2, l)) ∨
    (B < l.sum ∧ ∃ I' asked, t.scarce H (budget B) I [] = (.aborted, I', asked)) := by
  obtain ⟨l, h0, h⟩ := C144_same H t I
  refine ⟨l, h0, fun B => ?_⟩
  rcases h (budget B) [] with ⟨hg, e⟩ | ⟨p, n, q, I', hp, _, hn, e⟩
  · exact .inl ⟨by simpa using budget_granted B l [] hg (Nat.zero_le _), e⟩
  · refine .inr ⟨?_, I', _, e⟩
    have hn' : ¬ ([] ++ p).sum + n ≤ B := of_decide_eq_false hn
    rw [hp, List.sum_append, List.sum_cons]
    rw [List.nil_append] at hn'
    omega

/-- C144. So much memory is enough: for each octet consumed and once more, what the rate of the type (C102, C103) says
if each allocation takes `a` octets and `c` for each item of a buffer, and if no value comes, what may have been reserved
in vain. -/
theorem C144_enough (H : HeapOf) (a c : Nat) (t : Ty) (ht : WithinHeap H a c t) (I : Input) (hI : I.WF) (B : Nat)
    (hB : rate ⟨0, a, c⟩ t * (1 + consumed I (t.decode I).2)
      + (if came (t.decode I).1 then 0 else pending ⟨0, a, c⟩ t) ≤ B) :
    ∃ asked, t.scarce H (budget B) I [] = (.came (t.decode I).1, (t.decode I).2, asked) ∧ asked.sum ≤ B := by
  obtain ⟨l, h0, h1, h⟩ := t.scarce_serves H ⟨0, a, c⟩ I
  have hl : l.sum ≤ B := Nat.le_trans (Nat.le_trans (h1 ht) (cost_le ⟨0, a, c⟩ t I hI)) hB
  have hg : Granted (budget B) [] l := granted_budget B l [] (by simpa using hl)
  have h := h (budget B) []
  rw [t.cost_same ⟨0, a, c⟩ I] at h
  rcases h with ⟨_, e⟩ | ⟨p, n, q, I', hp, _, hn, _⟩
  · exact ⟨l, e, hl⟩
  · subst hp
    rw [granted_append] at hg
    exact absurd (hg.2.1.symm.trans hn) (by simp)

/-- Each box takes one octet and each item of the buffer eight. -/
example : WithinHeap usualHeap 1 8 boxedBytesTy := ⟨Nat.le_refl _, Nat.le_refl _, trivial⟩

/-- C144. Types that put nothing on the heap never abort the program, and ask for nothing. -/
theorem C144_inline (H : HeapOf) (t : Ty) (ht : Inline t) (I : Input) (hI : I.WF) (g : Allocator) (before : List Nat) :
    t.scarce H g I before = (.came (t.decode I).1, (t.decode I).2, before) := by
  obtain ⟨l, h0, h1, h⟩ := t.scarce_serves H ⟨0, 0, 0⟩ I
  have hl : l = [] := by
    have h2 := Nat.le_trans (h1 (everywhere_mono (inline_within H) t ht)) (cost_le ⟨0, 0, 0⟩ t I hI)
    have h3 : pending ⟨0, 0, 0⟩ t = 0 := Nat.le_zero.mp (by simpa using pending_le ⟨0, 0, 0⟩ t)
    rw [rate_free, h3, ite_self, Nat.zero_mul] at h2
    cases l with
    | nil => rfl
    | cons n l =>
      have := h0 n List.mem_cons_self
      rw [List.sum_cons] at h2
      omega
  subst hl
  have h := h g before
  rw [t.cost_same ⟨0, 0, 0⟩ I] at h
  rcases h with ⟨_, e⟩ | ⟨p, n, q, I', hp, _⟩
  · rw [List.append_nil] at e
    exact e
  · exact absurd hp (by simp)

/-- `SizedStr<8>` is such a type, and `Box<SizedStr<8>>` is not. -/
example : Inline (.sizedStr 8) ∧ ¬ Inline (.wrap .box (.sizedStr 8)) := ⟨trivial, fun h => h.1⟩

theorem ff_len (rest : List UInt8) : decUsize ⟨0xFF :: 0xFF :: rest, 0⟩ = (.ok 65535, ⟨0xFF :: 0xFF :: rest, 2⟩) := by
  have h : (Dec.readInto 2) ⟨0xFF :: 0xFF :: rest, 0⟩ = (.ok [0xFF, 0xFF], ⟨0xFF :: 0xFF :: rest, 2⟩) := by
    unfold Dec.readInto Input.readInto Input.remaining
    simp [Input.capacity, Input.position, show ¬ rest.length + 1 + 1 < 2 by omega]
  show (Dec.readInto 2 >>= fun data => pure (fromLe data) : Dec Nat) _ = _
  show Dec.bind _ _ _ = _
  unfold Dec.bind
  rw [h]
  rfl

/-- C144 is false: two octets abort the program before anything else is read, if there is no room for as many items as
they say. The items need not be there; and no error is reported. -/
theorem C144_false_aborts (H : HeapOf) (t : Ty) (hs : 0 < H.size t) (g : Allocator)
    (hg : g [] (65535 * H.size t) = false) (rest : List UInt8) :
    (Ty.seq .vec t).scarce H g ⟨0xFF :: 0xFF :: rest, 0⟩ [] =
      (.aborted, ⟨0xFF :: 0xFF :: rest, 2⟩, [65535 * H.size t]) := by
  show scarceVec g (H.size t) (t.scarce H g) _ _ = _
  unfold scarceVec Scarce.bind Scarce.of
  rw [ff_len]
  simp only [Scarce.ask]
  rw [if_neg (by omega), hg]
  rfl

/-- C144 is false: a sized slice that is to be moved into a box loses its items if memory has run out: the panic can be
caught, the items are not destroyed, and nobody has them any more. -/
theorem C144_false_lost : ∃ (items : List Nat) (s s' : Tally), items ≠ [] ∧ s.dropped = [] ∧
    boxItems false items s = (.unwind, s') ∧ s'.dropped = [] :=
  ⟨[1, 2], ⟨[], 3, []⟩, ⟨[], 3, []⟩, by simp, rfl, rfl, rfl⟩

/-- Else it loses none. -/
theorem C144_boxed_partial (items : List Nat) (s : Tally) : boxItems true items s = (.ok items, s) := rfl

end Oct.Props
