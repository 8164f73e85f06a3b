import Verif.Spec.SlotMemory
import Verif.Proofs.MemoryTy
import Verif.Proofs.Slot
/- Lemmas for C79: slots in memory. -/
namespace Oct
open Spec Mem
set_option linter.unusedVariables false

theorem Spec.Owns.holds {m : Mem Byte} {s : RawSlice} {d : List Byte} (h : Owns m s d) : Holds m s d := by
  refine ⟨h.1, ?_⟩
  by_cases hn : s.len = 0
  · have hd : d = [] := List.eq_nil_of_length_eq_zero (h.1 ▸ hn)
    rw [hn, hd]
    rfl
  · obtain ⟨h1, h2⟩ := h.2 hn
    refine (load_some hn).mpr ⟨_, h2, ?_, ?_⟩
    · rw [h1, List.length_map, ← h.1, Nat.zero_add]
      exact Nat.le_refl _
    · rw [h1, List.drop_zero, List.take_of_length_le (by rw [List.length_map, h.1]; exact Nat.le_refl _)]

/-- What is owned stays owned when allocations stay. -/
theorem Spec.Owns.step {m m' : Mem Byte} {s : RawSlice} {d d' : List Byte} (h : Owns m s d)
    (hm : (m' s.ptr.alloc).map List.length = (m s.ptr.alloc).map List.length) (h' : Holds m' s d') :
    Owns m' s d' := by
  refine ⟨h'.1, fun hn => ?_⟩
  obtain ⟨h1, h2⟩ := h.2 hn
  refine ⟨h1, ?_⟩
  obtain ⟨c, h3, h4, h5⟩ := (load_some hn).mp h'.2
  rw [h2, h3] at hm
  have hl : c.length = d.length := (Option.some.inj hm).trans (List.length_map _)
  rw [h1, List.drop_zero, List.take_of_length_le (by rw [hl, h.1]; exact Nat.le_refl _)] at h5
  rw [h3, h5]

theorem Spec.Owns.congr {m m' : Mem Byte} {s : RawSlice} {d : List Byte} (h : Owns m s d)
    (e : s.len ≠ 0 → m' s.ptr.alloc = m s.ptr.alloc) : Owns m' s d :=
  ⟨h.1, fun hn => ⟨(h.2 hn).1, (e hn).trans (h.2 hn).2⟩⟩

/-- One slot is changed. -/
theorem Spec.ShowsHeap.set {base : Mem Byte} {h : SlotHeap} {L : List Slot} (H : ShowsHeap base h L)
    {i : Nat} {s s' : RawSlot} {S S' : Slot} {m' : Mem Byte} (hi : h.slots[i]? = some s)
    (hI : L[i]? = some S) (hb : s'.buf = s.buf) (hs : ShowsSlot m' s' S')
    (ho : ∀ a, (s.buf.len ≠ 0 → s.buf.ptr.alloc ≠ a) → m' a = h.mem a) :
    ShowsHeap base ⟨h.slots.set i s', m'⟩ (L.set i S') := by
  have get : ∀ (j : Nat) (q : RawSlot), (h.slots.set i s')[j]? = some q →
      (j = i ∧ q = s') ∨ (j ≠ i ∧ h.slots[j]? = some q) := by
    intro j q hq
    rw [List.getElem?_set] at hq
    by_cases e : i = j
    · rw [if_pos e] at hq
      split at hq
      · exact .inl ⟨e.symm, (Option.some.inj hq).symm⟩
      · exact nomatch hq
    · rw [if_neg e] at hq
      exact .inr ⟨Ne.symm e, hq⟩
  have getL : ∀ (j : Nat) (q : Slot), (L.set i S')[j]? = some q →
      (j = i ∧ q = S') ∨ (j ≠ i ∧ L[j]? = some q) := by
    intro j q hq
    rw [List.getElem?_set] at hq
    by_cases e : i = j
    · rw [if_pos e] at hq
      split at hq
      · exact .inl ⟨e.symm, (Option.some.inj hq).symm⟩
      · exact nomatch hq
    · rw [if_neg e] at hq
      exact .inr ⟨Ne.symm e, hq⟩
  refine ⟨?_, ?_, ?_, ?_, ?_⟩
  · simp only [List.length_set, H.length]
  · intro j q Q hq hQ
    rcases get j q hq with ⟨e, rfl⟩ | ⟨e, hq⟩
    · subst e
      rcases getL j Q hQ with ⟨-, rfl⟩ | ⟨e, -⟩
      · exact hs
      · exact absurd rfl e
    · rcases getL j Q hQ with ⟨e', -⟩ | ⟨-, hQ⟩
      · exact absurd e' e
      · obtain ⟨h1, h2⟩ := H.shows_ j q Q hq hQ
        refine ⟨h1.congr fun hn => ho _ fun hn' => ?_, h2⟩
        exact H.apart i j s q (Ne.symm e) hi hq hn' hn
  · intro j k q q' hjk hq hq' hn hn'
    rcases get j q hq with ⟨e, rfl⟩ | ⟨e, hq1⟩
    · subst e
      rcases get k q' hq' with ⟨e', rfl⟩ | ⟨e', hq1'⟩
      · exact absurd e'.symm hjk
      · rw [hb] at hn ⊢
        exact H.apart j k s q' hjk hi hq1' hn hn'
    · rcases get k q' hq' with ⟨e', rfl⟩ | ⟨e', hq1'⟩
      · subst e'
        rw [hb] at hn' ⊢
        exact H.apart j k q s hjk hq1 hi hn hn'
      · exact H.apart j k q q' hjk hq1 hq1' hn hn'
  · intro j q hq hn
    rcases get j q hq with ⟨e, rfl⟩ | ⟨e, hq⟩
    · rw [hb] at hn ⊢
      exact H.fresh i s hi hn
    · exact H.fresh j q hq hn
  · intro a ha
    have hlt : i < h.slots.length := by
      rcases Nat.lt_or_ge i h.slots.length with h' | h'
      · exact h'
      · rw [List.getElem?_eq_none h'] at hi; exact nomatch hi
    have hi' : (h.slots.set i s')[i]? = some s' := by
      rw [List.getElem?_set, if_pos rfl, if_pos hlt]
    show m' a = _
    rw [ho a (fun hn => by have := ha i s' hi' (by rw [hb]; exact hn); rwa [hb] at this)]
    apply H.rest a
    intro j q hq hn
    by_cases e : j = i
    · subst e
      rw [hi] at hq
      cases hq
      have := ha j s' hi' (by rw [hb]; exact hn)
      rwa [hb] at this
    · exact ha j q (by rw [List.getElem?_set, if_neg (Ne.symm e)]; exact hq) hn

theorem Spec.ShowsHeap.get {base : Mem Byte} {h : SlotHeap} {L : List Slot} (H : ShowsHeap base h L)
    {i : Nat} {s : RawSlot} (hi : h.slots[i]? = some s) :
    ∃ S, L[i]? = some S ∧ ShowsSlot h.mem s S := by
  cases hS : L[i]? with
  | some S => exact ⟨S, rfl, H.shows_ i s S hi hS⟩
  | none =>
    rw [List.getElem?_eq_none_iff, ← H.length, ← List.getElem?_eq_none_iff, hi] at hS
    exact nomatch hS

theorem Spec.ShowsHeap.get' {base : Mem Byte} {h : SlotHeap} {L : List Slot} (H : ShowsHeap base h L)
    {i : Nat} {S : Slot} (hi : L[i]? = some S) :
    ∃ s, h.slots[i]? = some s ∧ ShowsSlot h.mem s S := by
  cases hS : h.slots[i]? with
  | some s => exact ⟨s, rfl, H.shows_ i s S hS hi⟩
  | none =>
    rw [List.getElem?_eq_none_iff, H.length, ← List.getElem?_eq_none_iff, hi] at hS
    exact nomatch hS

theorem list_set_self {α : Type} {l : List α} {i : Nat} {x : α} (h : l[i]? = some x) : l.set i x = l := by
  apply List.ext_getElem?
  intro j
  rw [List.getElem?_set]
  split
  · rename_i e
    subst e
    rw [h]
    rcases Nat.lt_or_ge i l.length with h' | h'
    · rw [if_pos h']
    · rw [List.getElem?_eq_none h'] at h; exact nomatch h
  · rfl

/-- Copying into a slot. -/
theorem RawSlot.copy_shows {m : Mem Byte} {s : RawSlot} {S : Slot} (h : ShowsSlot m s S)
    {data : RawSlice} {d : List Byte} (hd : Holds m data d)
    (ha : Apart data.ptr data.len s.buf.ptr s.buf.len) :
    ∃ m', s.copyFromSlice data m = ((S.copyFromSlice d).1, { s with len := (S.copyFromSlice d).2.len }, m') ∧
      ShowsSlot m' { s with len := (S.copyFromSlice d).2.len } (S.copyFromSlice d).2 ∧
      OnlyIn s.buf.ptr s.buf.len m m' := by
  obtain ⟨h1, h2, h3⟩ := h
  unfold RawSlot.copyFromSlice Slot.copyFromSlice Slot.capacity
  simp only
  rw [← hd.1, ← h1.1]
  by_cases hl : data.len ≤ s.buf.len
  · rw [if_pos hl, if_pos hl]
    unfold copyNonoverlapping
    rw [hd.2]
    simp only
    have ha' : Apart data.ptr data.len s.buf.ptr data.len := by
      have := (ha.symm.sub 0 data.len (by omega)).symm
      exact this
    rw [if_pos ha']
    obtain ⟨m', e1, e2, e3⟩ := store_ok h1.holds.2 0 (d.map some)
      (by rw [List.length_map, ← hd.1]; omega)
    rw [show (⟨s.buf.ptr.alloc, s.buf.ptr.off + 0⟩ : Ptr) = s.buf.ptr from rfl] at e1 e3
    rw [e1]
    rw [List.length_map, ← hd.1] at e3
    refine ⟨m', rfl, ⟨?_, rfl, ?_⟩, ⟨e3.1, fun q k hq => e3.2 q k (hq.sub 0 data.len (by omega))⟩⟩
    · refine h1.step (e3.1 _) ⟨?_, ?_⟩
      · have := h1.1
        have := hd.1
        simp only [List.length_append, List.length_drop]
        omega
      · show m'.load s.buf.ptr s.buf.len = _
        rw [e2, List.take_zero, List.nil_append, Nat.zero_add, List.length_map, List.map_append,
          List.map_drop, hd.1]
    · have := h1.1
      have := hd.1
      simp only [List.length_append, List.length_drop]
      omega
  · rw [if_neg hl, if_neg hl]
    simp only
    rw [show S.len = s.len from h2.symm]
    exact ⟨m, rfl, ⟨h1, h2, h3⟩, OnlyIn.refl _ _ _⟩

theorem RawSlot.setLen_shows {m : Mem Byte} {s : RawSlot} {S : Slot} (h : ShowsSlot m s S) (n : Nat) :
    (s.setLen n).1 = (S.setLen n).1 ∧ (s.setLen n).2.buf = s.buf ∧
      ShowsSlot m (s.setLen n).2 (S.setLen n).2 := by
  obtain ⟨h1, h2, h3⟩ := h
  unfold RawSlot.setLen Slot.setLen Slot.capacity
  rw [← h1.1]
  by_cases hl : n ≤ s.buf.len
  · rw [if_pos hl, if_pos hl]
    exact ⟨rfl, rfl, h1, rfl, h1.1 ▸ hl⟩
  · rw [if_neg hl, if_neg hl]
    exact ⟨rfl, rfl, h1, h2, h3⟩

theorem RawSlot.setByte_shows {m : Mem Byte} {s : RawSlot} {S : Slot} (h : ShowsSlot m s S) (k : Nat)
    (b : Byte) : (s.setByte k b m).1 = (S.setByte k b).1 ∧
      ShowsSlot (s.setByte k b m).2 s (S.setByte k b).2 ∧
      OnlyIn s.buf.ptr s.buf.len m (s.setByte k b m).2 := by
  obtain ⟨h1, h2, h3⟩ := h
  unfold RawSlot.setByte Slot.setByte Slot.capacity
  rw [← h1.1]
  by_cases hl : k < s.buf.len
  · rw [if_pos hl, if_pos hl, add_ok h1.holds.2 k (by omega)]
    simp only
    obtain ⟨m', e1, e2, e3⟩ := store_ok h1.holds.2 k [some b] (by simp; omega)
    rw [e1]
    refine ⟨rfl, ⟨h1.step (e3.1 _) ⟨?_, ?_⟩, h2, ?_⟩,
      ⟨e3.1, fun q j hq => e3.2 q j (hq.sub k 1 (by omega))⟩⟩
    · rw [h1.1, List.length_set]
    · show m'.load s.buf.ptr s.buf.len = _
      rw [e2, List.map_set, List.set_eq_take_append_cons_drop, if_pos (by rw [List.length_map, ← h1.1]; exact hl)]
      simp
    · rw [List.length_set]; exact h3
  · rw [if_neg hl, if_neg hl]
    exact ⟨rfl, ⟨h1, h2, h3⟩, OnlyIn.refl _ _ _⟩

theorem RawSlot.asSlice_shows {m : Mem Byte} {s : RawSlot} {S : Slot} (h : ShowsSlot m s S) :
    s.asSlice m = S.asSlice ∧ S.asSlice = .ok (S.buf.take S.len) ∧
      Holds m ⟨s.buf.ptr, s.len⟩ (S.buf.take S.len) := by
  obtain ⟨h1, h2, h3⟩ := h
  have hh : Holds m ⟨s.buf.ptr, s.len⟩ (S.buf.take S.len) := by
    refine ⟨?_, ?_⟩
    · rw [List.length_take]; show s.len = _; omega
    · have := load_sub h1.holds.2 0 s.len (by rw [h1.1]; omega)
      rw [List.drop_zero, ← List.map_take, h2] at this
      show m.load s.buf.ptr s.len = _
      rw [h2]
      exact this
  have e : S.asSlice = .ok (S.buf.take S.len) := if_neg (by omega)
  refine ⟨?_, e, hh⟩
  unfold RawSlot.asSlice
  rw [e, values_of_load hh.2]

/-- A slot's buffer as a stream. -/
theorem Spec.ShowsSlot.output {m : Mem Byte} {s : RawSlot} {S : Slot} (h : ShowsSlot m s S) :
    ShowsOutput m ⟨s.buf, 0⟩ (Output.new S.buf) := ⟨h.1.holds, rfl, Nat.zero_le _⟩

theorem Spec.ShowsSlot.input {m : Mem Byte} {s : RawSlot} {S : Slot} (h : ShowsSlot m s S) :
    ShowsInput m ⟨s.buf, 0⟩ (Input.new S.buf) := ⟨h.1.holds, rfl, Nat.zero_le _⟩

theorem RawSlot.drop_shows {m : Mem Byte} {s : RawSlot} {S : Slot} (h : ShowsSlot m s S) :
    s.drop m = .ok (if s.buf.len = 0 then m else m.free s.buf.ptr.alloc) := by
  unfold RawSlot.drop
  by_cases hn : s.buf.len = 0
  · rw [if_pos hn, if_pos hn]
  · obtain ⟨h1, h2⟩ := h.1.2 hn
    rw [if_neg hn, if_neg hn, h2]
    simp only
    rw [if_pos ⟨h1, by rw [List.length_map, h.1.1]⟩]

/-- A new slot. -/
theorem Spec.ShowsHeap.push {base : Mem Byte} {h : SlotHeap} {L : List Slot} (H : ShowsHeap base h L)
    {a : Nat} (ha : h.mem a = none) (cap : Nat) :
    ShowsHeap base ⟨h.slots ++ [(RawSlot.withCapacity a cap h.mem).1], (RawSlot.withCapacity a cap h.mem).2⟩
      (L ++ [Slot.withCapacity cap]) := by
  have get : ∀ (j : Nat) (q : RawSlot), (h.slots ++ [(RawSlot.withCapacity a cap h.mem).1])[j]? = some q →
      h.slots[j]? = some q ∨ (j = h.slots.length ∧ q = ⟨⟨⟨a, 0⟩, cap⟩, 0⟩) := by
    intro j q hq
    rw [List.getElem?_append] at hq
    split at hq
    · exact .inl hq
    · rename_i hlt
      rw [List.getElem?_singleton] at hq
      split at hq
      · exact .inr ⟨by omega, (Option.some.inj hq).symm⟩
      · exact nomatch hq
  have live : ∀ (j : Nat) (q : RawSlot), h.slots[j]? = some q → q.buf.len ≠ 0 → q.buf.ptr.alloc ≠ a := by
    intro j q hq hn e
    obtain ⟨S, -, h1, -⟩ := H.get hq
    rw [← e, (h1.2 hn).2] at ha
    exact nomatch ha
  have hmem : ∀ b, b ≠ a → (RawSlot.withCapacity a cap h.mem).2 b = h.mem b := by
    intro b hb
    unfold RawSlot.withCapacity
    simp only
    split
    · rfl
    · exact if_neg hb
  refine ⟨?_, ?_, ?_, ?_, ?_⟩
  · simp only [List.length_append, List.length_singleton, H.length]
  · intro j q Q hq hQ
    rw [List.getElem?_append] at hQ
    rcases get j q hq with hq | ⟨rfl, rfl⟩
    · have hlt : j < L.length := by
        rw [← H.length]
        rcases Nat.lt_or_ge j h.slots.length with h' | h'
        · exact h'
        · rw [List.getElem?_eq_none h'] at hq; exact nomatch hq
      rw [if_pos hlt] at hQ
      obtain ⟨h1, h2⟩ := H.shows_ j q Q hq hQ
      exact ⟨h1.congr fun hn => hmem _ (live j q hq hn), h2⟩
    · rw [if_neg (by rw [H.length]; omega), H.length, Nat.sub_self, List.getElem?_cons_zero] at hQ
      cases hQ
      refine ⟨⟨by simp [Slot.withCapacity], fun hn => ⟨rfl, ?_⟩⟩, rfl, Nat.zero_le _⟩
      have hn' : cap ≠ 0 := hn
      show (if cap = 0 then h.mem else h.mem.alloc a (List.replicate cap (some 0))) a = _
      rw [if_neg hn']
      show (if a = a then some (List.replicate cap (some (0 : Byte))) else _) = _
      rw [if_pos rfl]
      simp [Slot.withCapacity]
  · intro j k q q' hjk hq hq' hn hn'
    rcases get j q hq with hq | ⟨rfl, rfl⟩ <;> rcases get k q' hq' with hq' | ⟨rfl, rfl⟩
    · exact H.apart j k q q' hjk hq hq' hn hn'
    · exact live j q hq hn
    · exact Ne.symm (live k q' hq' hn')
    · exact absurd rfl hjk
  · intro j q hq hn
    rcases get j q hq with hq | ⟨rfl, rfl⟩
    · exact H.fresh j q hq hn
    · rw [← H.rest a fun i s hs hn => live i s hs hn]
      exact ha
  · intro b hb
    by_cases e : b = a
    · subst e
      have hc : cap = 0 := by
        rcases Nat.eq_zero_or_pos cap with h' | h'
        · exact h'
        · refine absurd rfl (hb h.slots.length ⟨⟨⟨b, 0⟩, cap⟩, 0⟩ ?_ (show cap ≠ 0 by omega))
          rw [List.getElem?_append, if_neg (Nat.lt_irrefl _), Nat.sub_self]
          rfl
      show (if cap = 0 then h.mem else _) b = _
      rw [if_pos hc]
      exact H.rest b live
    · rw [show (SlotHeap.mk _ (RawSlot.withCapacity a cap h.mem).2).mem b = h.mem b from hmem b e]
      apply H.rest b
      intro j q hq hn
      apply hb j q _ hn
      show (h.slots ++ _)[j]? = _
      rw [List.getElem?_append_left]
      · exact hq
      · rcases Nat.lt_or_ge j h.slots.length with h' | h'
        · exact h'
        · rw [List.getElem?_eq_none h'] at hq; exact nomatch hq

/-- A slot is dropped. -/
theorem Spec.ShowsHeap.erase {base : Mem Byte} {h : SlotHeap} {L : List Slot} (H : ShowsHeap base h L)
    {i : Nat} {s : RawSlot} (hi : h.slots[i]? = some s) :
    ShowsHeap base ⟨h.slots.eraseIdx i, if s.buf.len = 0 then h.mem else h.mem.free s.buf.ptr.alloc⟩
      (L.eraseIdx i) := by
  have idx : ∀ j : Nat, ∃ k : Nat, k ≠ i ∧ (∀ (α : Type) (l : List α), (l.eraseIdx i)[j]? = l[k]?) ∧
      k = if j < i then j else j + 1 := by
    intro j
    refine ⟨if j < i then j else j + 1, by split <;> omega, ?_, rfl⟩
    intro α l
    rw [List.getElem?_eraseIdx]
    split <;> rfl
  have other : ∀ b, (s.buf.len ≠ 0 → s.buf.ptr.alloc ≠ b) →
      (if s.buf.len = 0 then h.mem else h.mem.free s.buf.ptr.alloc) b = h.mem b := by
    intro b hb
    split
    · rfl
    · exact if_neg (Ne.symm (hb ‹_›))
  refine ⟨?_, ?_, ?_, ?_, ?_⟩
  · simp only [List.length_eraseIdx, H.length]
  · intro j q Q hq hQ
    obtain ⟨k, hk, e, -⟩ := idx j
    simp only [e] at hq hQ
    obtain ⟨h1, h2⟩ := H.shows_ k q Q hq hQ
    exact ⟨h1.congr fun hn => other _ fun hn' => H.apart i k s q (Ne.symm hk) hi hq hn' hn, h2⟩
  · intro j j' q q' hjj hq hq' hn hn'
    obtain ⟨k, hk, e, ek⟩ := idx j
    obtain ⟨k', hk', e', ek'⟩ := idx j'
    simp only [e, e'] at hq hq'
    refine H.apart k k' q q' ?_ hq hq' hn hn'
    rw [ek, ek']
    split <;> split <;> omega
  · intro j q hq hn
    obtain ⟨k, hk, e, -⟩ := idx j
    simp only [e] at hq
    exact H.fresh k q hq hn
  · intro b hb
    by_cases e : s.buf.len ≠ 0 ∧ s.buf.ptr.alloc = b
    · obtain ⟨hn, rfl⟩ := e
      show (if s.buf.len = 0 then h.mem else h.mem.free s.buf.ptr.alloc) _ = _
      rw [if_neg hn, H.fresh i s hi hn]
      exact if_pos rfl
    · show (if s.buf.len = 0 then h.mem else h.mem.free s.buf.ptr.alloc) b = _
      rw [other b fun hn hb => e ⟨hn, hb⟩]
      apply H.rest b
      intro k q hq hn hb'
      by_cases ek : k = i
      · subst ek
        rw [hi] at hq
        cases hq
        exact e ⟨hn, hb'⟩
      · refine hb (if k < i then k else k - 1) q ?_ hn hb'
        simp only [List.getElem?_eraseIdx]
        by_cases hlt : k < i
        · rw [if_pos hlt, if_pos hlt]; exact hq
        · rw [if_neg hlt, if_neg (by omega), show k - 1 + 1 = k by omega]; exact hq

/-- Steps in memory are steps of the slots. -/
theorem HeapOp.Raw.shows {base : Mem Byte} {op : HeapOp} {h h' : SlotHeap} {x : HeapOut}
    (hr : HeapOp.Raw op h x h') {L : List Slot} (H : ShowsHeap base h L) :
    ∃ L', op.step L = some (x, L') ∧ ShowsHeap base h' L' := by
  cases hr with
  | new a ha => exact ⟨_, rfl, H.push ha _⟩
  | @copyData i d l m m' s s' r a hi ha hc =>
    obtain ⟨S, hS, hs⟩ := H.get hi
    have hs' : ShowsSlot (m.alloc a (d.map some)) s S := by
      refine ⟨hs.1.congr fun hn => ?_, hs.2⟩
      exact if_neg (alive_of_load hs.1.holds.2 hn ha)
    obtain ⟨m2, h1, h2, h3⟩ := RawSlot.copy_shows hs' (holds_alloc m a d) (apart_fresh hs.1.holds ha _).symm
    rw [h1] at hc
    have e := Prod.mk.inj hc
    have e' := Prod.mk.inj e.2
    rw [← e.1, ← e'.1, ← e'.2]
    refine ⟨L.set i (S.copyFromSlice d).2, ?_, H.set hi hS rfl ?_ ?_⟩
    · simp only [HeapOp.step, hS, Option.map_some]
    · refine ⟨h2.1.congr fun hn => ?_, h2.2⟩
      exact if_neg (alive_of_load hs.1.holds.2 hn ha)
    · intro b hb
      exact (h3.frame ha).other hb
  | @copyFrom i j l m m' s s' q r hij hi hj hc =>
    obtain ⟨S, hS, hs⟩ := H.get hi
    obtain ⟨Q, hQ, hq⟩ := H.get hj
    obtain ⟨-, e1, e2⟩ := RawSlot.asSlice_shows hq
    have hap : Apart q.buf.ptr q.len s.buf.ptr s.buf.len := by
      by_cases hn : s.buf.len = 0
      · exact .inr (.inl hn)
      · by_cases hn' : q.buf.len = 0
        · refine .inl ?_
          have := hq.1.1
          have := hq.2.1
          have := hq.2.2
          omega
        · exact .inr (.inr (.inl (H.apart j i q s (Ne.symm hij) hj hi hn' hn)))
    obtain ⟨m2, h1, h2, h3⟩ := RawSlot.copy_shows hs e2 hap
    rw [h1] at hc
    have e := Prod.mk.inj hc
    have e' := Prod.mk.inj e.2
    rw [← e.1, ← e'.1, ← e'.2]
    refine ⟨L.set i (S.copyFromSlice (Q.buf.take Q.len)).2, ?_, H.set hi hS rfl h2 fun b hb => h3.other hb⟩
    simp only [HeapOp.step, if_neg hij, hS, hQ, e1]
  | @setLen i n l m s hi =>
    obtain ⟨S, hS, hs⟩ := H.get hi
    obtain ⟨e1, e2, e3⟩ := RawSlot.setLen_shows hs n
    rw [e1]
    refine ⟨L.set i (S.setLen n).2, ?_, H.set hi hS e2 e3 fun _ _ => rfl⟩
    simp only [HeapOp.step, hS, Option.map_some]
  | @setByte i k b l m s hi =>
    obtain ⟨S, hS, hs⟩ := H.get hi
    obtain ⟨e1, e2, e3⟩ := RawSlot.setByte_shows hs k b
    rw [e1]
    refine ⟨L.set i (S.setByte k b).2, ?_, ?_⟩
    · simp only [HeapOp.step, hS, Option.map_some]
    · have := H.set hi hS rfl e2 fun b hb => e3.other hb
      rwa [list_set_self hi] at this
  | @write i t v l m m' s p o hi hp hr =>
    obtain ⟨S, hS, hs⟩ := H.get hi
    obtain ⟨h1, h2, h3, h4, h5⟩ := hr.shows hs.output
    rw [hp] at h1 h2
    have hw := Ty.encode_wf t v (o := Output.new S.buf) (Nat.zero_le _)
    cases hE : t.encode v (Output.new S.buf) with
    | mk r0 O =>
      rw [hE] at h1 h2 hw
      have h1' : r0 = .ok () := h1.symm
      subst h1'
      obtain ⟨b1, b2, b3⟩ := h2
      rw [h3] at b1
      have hcap : O.buf.length = S.buf.length := hw.1
      have hlo : o.pos ≤ s.buf.len := by rw [hs.1.1, b2, ← hcap]; exact b3
      have e : s.setLen o.pos = (.ok (), { s with len := o.pos }) := if_pos hlo
      rw [e]
      have e2 : S.write t v = (.ok (), ⟨O.buf, O.pos⟩) := by
        rw [Slot.write_eq, hE]
        rfl
      refine ⟨L.set i ⟨O.buf, O.pos⟩, ?_, H.set hi hS rfl ?_ fun b hb => ?_⟩
      · simp only [HeapOp.step, hS, Option.map_some, e2]
      · exact ⟨hs.1.step (h5.1 _) b1, b2, b3⟩
      · refine h5.other fun hn => hb ?_
        have h0 : o.pos - 0 ≠ 0 := hn
        omega
  | @writeFails i t v l m m' s p o r hi hp hr hne =>
    obtain ⟨S, hS, hs⟩ := H.get hi
    obtain ⟨h1, h2, h3, h4, h5⟩ := hr.shows hs.output
    rw [hp] at h1 h2
    have hw := Ty.encode_wf t v (o := Output.new S.buf) (Nat.zero_le _)
    cases hE : t.encode v (Output.new S.buf) with
    | mk r0 O =>
      rw [hE] at h1 h2 hw
      have h1' : r = r0 := h1
      subst h1'
      obtain ⟨b1, b2, b3⟩ := h2
      rw [h3] at b1
      have hcap : O.buf.length = S.buf.length := hw.1
      have hlo : o.pos ≤ s.buf.len := by rw [hs.1.1, b2, ← hcap]; exact b3
      have e2 : S.write t v = (r, ⟨O.buf, S.len⟩) := by
        rw [Slot.write_eq, hE]
        cases r with
        | ok x => exact absurd rfl hne
        | err e => rfl
        | panic x => rfl
        | ub u => rfl
      refine ⟨L.set i ⟨O.buf, S.len⟩, ?_, ?_⟩
      · simp only [HeapOp.step, hS, Option.map_some, e2]
      · have := H.set (s' := s) (S' := ⟨O.buf, S.len⟩) (m' := m') hi hS rfl
          ⟨hs.1.step (h5.1 _) b1, hs.2.1, by show S.len ≤ O.buf.length; rw [hcap]; exact hs.2.2⟩ fun b hb => by
            refine h5.other fun hn => hb ?_
            have h0 : o.pos - 0 ≠ 0 := hn
            omega
        rwa [list_set_self hi] at this
  | @read i t l m m' s p I r hi hp hr =>
    obtain ⟨S, hS, hs⟩ := H.get hi
    obtain ⟨h1, -, -, -, h5⟩ := hr.shows hs.input
    rw [hp] at h1
    refine ⟨L, ?_, by rw [h5]; exact H⟩
    simp only [HeapOp.step, hS, Option.map_some, h1]
    rfl
  | @asSlice i l m s hi =>
    obtain ⟨S, hS, hs⟩ := H.get hi
    refine ⟨L, ?_, H⟩
    rw [(RawSlot.asSlice_shows hs).1]
    simp only [HeapOp.step, hS, Option.map_some]
  | @drop i l m m' s hi hd =>
    obtain ⟨S, hS, hs⟩ := H.get hi
    rw [RawSlot.drop_shows hs] at hd
    have := Except.ok.inj hd
    rw [← this]
    refine ⟨L.eraseIdx i, ?_, H.erase hi⟩
    simp only [HeapOp.step, hS, Option.map_some]
  | @dropUb i l m s u hi hd =>
    obtain ⟨S, hS, hs⟩ := H.get hi
    rw [RawSlot.drop_shows hs] at hd
    exact nomatch hd

theorem HeapOp.RawRun.shows {base : Mem Byte} {ops : List HeapOp} {h h' : SlotHeap} {xs : List HeapOut}
    (hr : HeapOp.RawRun ops h xs h') : ∀ {L : List Slot}, ShowsHeap base h L →
    ∃ L', HeapOp.steps ops L = some (xs, L') ∧ ShowsHeap base h' L' := by
  induction hr with
  | nil h => exact fun H => ⟨_, rfl, H⟩
  | cons hop _ ih =>
    intro L H
    obtain ⟨L1, e1, H1⟩ := hop.shows H
    obtain ⟨L2, e2, H2⟩ := ih H1
    refine ⟨L2, ?_, H2⟩
    simp only [HeapOp.steps, e1, e2]

/-- There is always memory that is not in use, if there is enough of it at first. -/
theorem Spec.ShowsHeap.free {base : Mem Byte} {h : SlotHeap} {L : List Slot} (H : ShowsHeap base h L)
    (hf : ∀ n, ∃ a, n ≤ a ∧ base a = none) : ∃ a, h.mem a = none := by
  have hN : ∀ l : List RawSlot, ∃ N, ∀ (i : Nat) (s : RawSlot), l[i]? = some s → s.buf.ptr.alloc < N := by
    intro l
    induction l with
    | nil => exact ⟨0, fun i s hs => nomatch hs⟩
    | cons x l ih =>
      obtain ⟨N, hN⟩ := ih
      refine ⟨max N (x.buf.ptr.alloc + 1), fun i s hs => ?_⟩
      cases i with
      | zero =>
        have : x = s := Option.some.inj hs
        subst this
        omega
      | succ i =>
        have := hN i s hs
        omega
  obtain ⟨N, hN⟩ := hN h.slots
  obtain ⟨a, h1, h2⟩ := hf N
  refine ⟨a, ?_⟩
  rw [H.rest a fun i s hs _ => ?_]
  · exact h2
  · have := hN i s hs
    omega

theorem HeapOp.raw_total {base : Mem Byte} {op : HeapOp} {h : SlotHeap} {L : List Slot}
    (H : ShowsHeap base h L) (hf : ∃ a, h.mem a = none) (hs : op.step L ≠ none) :
    ∃ x h', HeapOp.Raw op h x h' := by
  obtain ⟨a, ha⟩ := hf
  cases op with
  | new cap => exact ⟨_, _, .new a ha⟩
  | copyData i d =>
    cases hi : L[i]? with
    | none => exact absurd (by simp only [HeapOp.step, hi, Option.map_none]) hs
    | some S =>
      obtain ⟨s, hi', -⟩ := H.get' hi
      exact ⟨_, _, .copyData (s' := (s.copyFromSlice ⟨⟨a, 0⟩, d.length⟩ (h.mem.alloc a (d.map some))).2.1)
        (m' := (s.copyFromSlice ⟨⟨a, 0⟩, d.length⟩ (h.mem.alloc a (d.map some))).2.2) a hi' ha rfl⟩
  | copyFrom i j =>
    by_cases hij : i = j
    · exact absurd (by simp only [HeapOp.step, if_pos hij]) hs
    · cases hi : L[i]? with
      | none => exact absurd (by simp only [HeapOp.step, if_neg hij, hi]) hs
      | some S =>
        cases hj : L[j]? with
        | none => exact absurd (by simp only [HeapOp.step, if_neg hij, hi, hj]) hs
        | some Q =>
          obtain ⟨s, hi', -⟩ := H.get' hi
          obtain ⟨q, hj', -⟩ := H.get' hj
          exact ⟨_, _, .copyFrom (s' := (s.copyFromSlice ⟨q.buf.ptr, q.len⟩ h.mem).2.1)
            (m' := (s.copyFromSlice ⟨q.buf.ptr, q.len⟩ h.mem).2.2) hij hi' hj' rfl⟩
  | setLen i n =>
    cases hi : L[i]? with
    | none => exact absurd (by simp only [HeapOp.step, hi, Option.map_none]) hs
    | some S =>
      obtain ⟨s, hi', -⟩ := H.get' hi
      exact ⟨_, _, .setLen hi'⟩
  | setByte i k b =>
    cases hi : L[i]? with
    | none => exact absurd (by simp only [HeapOp.step, hi, Option.map_none]) hs
    | some S =>
      obtain ⟨s, hi', -⟩ := H.get' hi
      exact ⟨_, _, .setByte hi'⟩
  | write i t v =>
    cases hi : L[i]? with
    | none => exact absurd (by simp only [HeapOp.step, hi, Option.map_none]) hs
    | some S =>
      obtain ⟨s, hi', hsh⟩ := H.get' hi
      obtain ⟨p, hp⟩ := t.encode_isProg v
      obtain ⟨r, o, m', hr⟩ := p.raw_total hsh.output ⟨a, ha⟩
      by_cases hok : r = .ok ()
      · subst hok
        exact ⟨_, _, .write hi' hp hr⟩
      · exact ⟨_, _, .writeFails hi' hp hr hok⟩
  | read i t =>
    cases hi : L[i]? with
    | none => exact absurd (by simp only [HeapOp.step, hi, Option.map_none]) hs
    | some S =>
      obtain ⟨s, hi', hsh⟩ := H.get' hi
      obtain ⟨p, hp⟩ := t.decode_isProg
      obtain ⟨r, I, m', hr⟩ := p.raw_total hsh.input ⟨a, ha⟩
      exact ⟨_, _, .read hi' hp hr⟩
  | asSlice i =>
    cases hi : L[i]? with
    | none => exact absurd (by simp only [HeapOp.step, hi, Option.map_none]) hs
    | some S =>
      obtain ⟨s, hi', hsh⟩ := H.get' hi
      exact ⟨_, _, .asSlice hi'⟩
  | drop i =>
    cases hi : L[i]? with
    | none => exact absurd (by simp only [HeapOp.step, hi, Option.map_none]) hs
    | some S =>
      obtain ⟨s, hi', hsh⟩ := H.get' hi
      exact ⟨_, _, .drop hi' (RawSlot.drop_shows hsh)⟩

theorem HeapOp.rawRun_total {base : Mem Byte} (hf : ∀ n, ∃ a, n ≤ a ∧ base a = none)
    (ops : List HeapOp) : ∀ {h : SlotHeap} {L L' : List Slot} {xs : List HeapOut},
    ShowsHeap base h L → HeapOp.steps ops L = some (xs, L') → ∃ h', HeapOp.RawRun ops h xs h' := by
  induction ops with
  | nil =>
    intro h L L' xs H hs
    have : [] = xs := (Prod.mk.inj (Option.some.inj hs)).1
    subst this
    exact ⟨h, .nil h⟩
  | cons op ops ih =>
    intro h L L' xs H hs
    simp only [HeapOp.steps] at hs
    cases h1 : op.step L with
    | none => rw [h1] at hs; exact nomatch hs
    | some x =>
      obtain ⟨x, L1⟩ := x
      rw [h1] at hs
      simp only at hs
      cases h2 : HeapOp.steps ops L1 with
      | none => rw [h2] at hs; exact nomatch hs
      | some y =>
        obtain ⟨ys, L2⟩ := y
        rw [h2] at hs
        have e := (Prod.mk.inj (Option.some.inj hs)).1
        subst e
        obtain ⟨x', hm, hr⟩ := HeapOp.raw_total H (H.free hf) (by rw [h1]; exact fun e => nomatch e)
        obtain ⟨L3, e3, H3⟩ := hr.shows H
        rw [h1] at e3
        have e4 := Prod.mk.inj (Option.some.inj e3)
        have e5 := e4.1
        have e6 := e4.2
        subst e5
        subst e6
        obtain ⟨hm', hr'⟩ := ih H3 h2
        exact ⟨hm', .cons hr hr'⟩

theorem showsHeap_nil (base : Mem Byte) : ShowsHeap base ⟨[], base⟩ [] :=
  ⟨rfl, fun _ _ _ h => (nomatch h), fun _ _ _ _ _ h => (nomatch h), fun _ _ h => (nomatch h),
    fun _ _ => rfl⟩

end Oct
