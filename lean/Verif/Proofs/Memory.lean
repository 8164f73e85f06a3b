import Verif.Spec.Memory
import Verif.Proofs.SizedSlice
/- Lemmas for C77-C79: memory, and the streams in it. -/
namespace Oct
open Spec
set_option linter.unusedVariables false

namespace Mem
variable {α : Type}

theorem load_zero (m : Mem α) (p : Ptr) : m.load p 0 = some [] := rfl

theorem load_some {m : Mem α} {p : Ptr} {n : Nat} (hn : n ≠ 0) {l : List (Option α)} :
    m.load p n = some l ↔ ∃ c, m p.alloc = some c ∧ p.off + n ≤ c.length ∧ l = (c.drop p.off).take n := by
  unfold load
  rw [if_neg hn]
  cases h : m p.alloc with
  | none => simp
  | some c =>
    simp only
    constructor
    · intro h'
      split at h'
      · exact ⟨c, rfl, by assumption, (Option.some.inj h').symm⟩
      · exact nomatch h'
    · rintro ⟨c', h1, h2, h3⟩
      cases h1
      rw [if_pos h2, h3]

theorem load_length {m : Mem α} {p : Ptr} {n : Nat} {l : List (Option α)} (h : m.load p n = some l) :
    l.length = n := by
  by_cases hn : n = 0
  · subst hn
    have : l = [] := (Option.some.inj (show some [] = some l from h)).symm
    rw [this]; rfl
  · obtain ⟨c, -, h2, rfl⟩ := (load_some hn).mp h
    rw [List.length_take, List.length_drop]
    omega

theorem load_congr {m m' : Mem α} {p : Ptr} (n : Nat) (h : m p.alloc = m' p.alloc) :
    m.load p n = m'.load p n := by
  unfold load
  rw [h]

theorem load_sub {m : Mem α} {p : Ptr} {n : Nat} {l : List (Option α)} (h : m.load p n = some l)
    (k j : Nat) (hk : k + j ≤ n) : m.load ⟨p.alloc, p.off + k⟩ j = some ((l.drop k).take j) := by
  by_cases hj : j = 0
  · subst hj; rw [load_zero, List.take_zero]
  · obtain ⟨c, h1, h2, rfl⟩ := (load_some (show n ≠ 0 by omega)).mp h
    refine (load_some hj).mpr ⟨c, h1, (by show p.off + k + j ≤ c.length; omega), ?_⟩
    rw [List.drop_take, List.drop_drop, List.take_take]
    congr 1
    omega

theorem values_of_load {m : Mem α} {p : Ptr} {n : Nat} {d : List α}
    (h : m.load p n = some (d.map some)) : m.values p n = .ok d := by
  unfold values
  rw [h]
  simp only
  rw [initAll_map_some]

theorem add_ok {m : Mem α} {p : Ptr} {n : Nat} {l : List (Option α)} (h : m.load p n = some l)
    (k : Nat) (hk : k ≤ n) : m.add p k = .ok ⟨p.alloc, p.off + k⟩ := by
  unfold add
  by_cases h0 : k = 0
  · subst h0; rw [if_pos rfl]; rfl
  · obtain ⟨c, h1, h2, -⟩ := (load_some (show n ≠ 0 by omega)).mp h
    rw [if_neg h0, h1]
    simp only
    rw [if_pos (by omega)]

/-- Storing within a region that can be read. -/
theorem store_ok {m : Mem α} {p : Ptr} {n : Nat} {l0 : List (Option α)} (h : m.load p n = some l0)
    (k : Nat) (l : List (Option α)) (hk : k + l.length ≤ n) :
    ∃ m', m.store ⟨p.alloc, p.off + k⟩ l = some m' ∧
      m'.load p n = some (l0.take k ++ l ++ l0.drop (k + l.length)) ∧
      OnlyIn ⟨p.alloc, p.off + k⟩ l.length m m' := by
  unfold store
  by_cases h0 : l = []
  · subst h0
    refine ⟨m, if_pos rfl, ?_, fun _ => rfl, fun _ _ _ => rfl⟩
    rw [h, List.append_nil, List.length_nil, Nat.add_zero, List.take_append_drop]
  · have hl : l.length ≠ 0 := fun e => h0 (List.eq_nil_of_length_eq_zero e)
    obtain ⟨c, h1, h2, rfl⟩ := (load_some (show n ≠ 0 by omega)).mp h
    rw [if_neg h0]
    simp only [h1]
    rw [if_pos (by omega)]
    refine ⟨_, rfl, ?_, ?_, ?_⟩
    · refine (load_some (show n ≠ 0 by omega)).mpr ⟨_, if_pos rfl, ?_, ?_⟩
      · simp only [List.length_append, List.length_take, List.length_drop]
        omega
      · apply List.ext_getElem?
        intro i
        simp only [List.getElem?_append, List.getElem?_take, List.getElem?_drop, List.length_append,
          List.length_take, List.length_drop]
        have e1 : min (p.off + k) c.length = p.off + k := by omega
        have e2 : min k (min n (c.length - p.off)) = k := by omega
        rw [e1, e2]
        by_cases hi : i < n
        · by_cases hik : i < k
          · rw [if_pos (show i < k + l.length by omega), if_pos hik, if_pos hik, if_pos hi, if_pos hi,
              if_pos (show p.off + i < p.off + k + l.length by omega),
              if_pos (show p.off + i < p.off + k by omega)]
            rw [if_pos (show p.off + i < p.off + k by omega)]
          · by_cases hil : i < k + l.length
            · rw [if_pos hil, if_neg hik, if_pos hi,
                if_pos (show p.off + i < p.off + k + l.length by omega),
                if_neg (show ¬ p.off + i < p.off + k by omega)]
              congr 1
              omega
            · rw [if_neg hil, if_pos (show k + l.length + (i - (k + l.length)) < n by omega), if_pos hi,
                if_neg (show ¬ p.off + i < p.off + k + l.length by omega)]
              congr 1
              omega
        · rw [if_neg hi, if_neg (show ¬ i < k + l.length by omega),
            if_neg (show ¬ k + l.length + (i - (k + l.length)) < n by omega)]
          rw [if_neg hi]
    · intro a
      by_cases ha : a = p.alloc
      · subst ha
        simp only [if_true, h1, Option.map_some]
        congr 1
        simp only [List.length_append, List.length_take, List.length_drop]
        omega
      · simp only [if_neg ha]
    · intro q j hq
      by_cases hj : j = 0
      · subst hj; rfl
      · by_cases ha : q.alloc = p.alloc
        · unfold load
          rw [if_neg hj, if_neg hj]
          simp only [ha, if_true, h1]
          have hlen : (c.take (p.off + k) ++ l ++ c.drop (p.off + k + l.length)).length = c.length := by
            simp only [List.length_append, List.length_take, List.length_drop]
            omega
          rw [hlen]
          split
          · congr 1
            apply List.ext_getElem?
            intro i
            simp only [List.getElem?_append, List.getElem?_take, List.getElem?_drop,
              List.length_append, List.length_take]
            rcases hq with hq | hq | hq | hq | hq
            · exact absurd hq hl
            · exact absurd hq hj
            · exact absurd ha.symm hq
            · simp only at hq
              by_cases hi : i < j
              · rw [if_pos hi, if_pos hi, if_neg (by omega)]
                congr 1
                omega
              · rw [if_neg hi, if_neg hi]
            · simp only at hq
              by_cases hi : i < j
              · rw [if_pos hi, if_pos hi, if_pos (by omega), if_pos (by omega), if_pos (by omega)]
              · rw [if_neg hi, if_neg hi]
          · rfl
        · exact load_congr j (if_neg ha)

theorem load_alloc_same (m : Mem α) (a : Nat) (l : List (Option α)) :
    (m.alloc a l).load ⟨a, 0⟩ l.length = some l := by
  by_cases h0 : l.length = 0
  · rw [h0, List.eq_nil_of_length_eq_zero h0]; rfl
  · refine (load_some h0).mpr ⟨l, if_pos rfl, by simp, ?_⟩
    simp

theorem load_alloc_ne {m : Mem α} {a : Nat} (l : List (Option α)) {q : Ptr} (j : Nat)
    (h : q.alloc ≠ a) : (m.alloc a l).load q j = m.load q j :=
  load_congr j (if_neg h)

theorem load_free_ne {m : Mem α} {a : Nat} {q : Ptr} (j : Nat) (h : q.alloc ≠ a) :
    (m.free a).load q j = m.load q j :=
  load_congr j (if_neg h)

theorem load_dead {m : Mem α} {q : Ptr} (j : Nat) (h : m q.alloc = none) :
    m.load q j = if j = 0 then some [] else none := by
  unfold load
  rw [h]

theorem load_free_same {m : Mem α} {q : Ptr} (j : Nat) :
    (m.free q.alloc).load q j = if j = 0 then some [] else none :=
  load_dead j (if_pos rfl)

/-- A region that can be read and is not empty is in an allocation that is alive. -/
theorem alive_of_load {m : Mem α} {p : Ptr} {n : Nat} {l : List (Option α)} (h : m.load p n = some l)
    (hn : n ≠ 0) {a : Nat} (ha : m a = none) : p.alloc ≠ a := by
  intro e
  subst e
  rw [load_dead n ha, if_neg hn] at h
  exact nomatch h

theorem Apart.symm {p q : Ptr} {n k : Nat} (h : Apart p n q k) : Apart q k p n := by
  rcases h with h | h | h | h | h
  · exact .inr (.inl h)
  · exact .inl h
  · exact .inr (.inr (.inl (Ne.symm h)))
  · exact .inr (.inr (.inr (.inr h)))
  · exact .inr (.inr (.inr (.inl h)))

/-- Parts of regions that are apart are apart. -/
theorem Apart.sub {p q : Ptr} {n k : Nat} (h : Apart p n q k) (i j : Nat) (hi : i + j ≤ n) :
    Apart ⟨p.alloc, p.off + i⟩ j q k := by
  unfold Apart at h ⊢
  simp only
  omega

end Mem

open Mem

theorem Spec.OnlyIn.refl {α : Type} (p : Ptr) (n : Nat) (m : Mem α) : OnlyIn p n m m :=
  ⟨fun _ => rfl, fun _ _ _ => rfl⟩

theorem Spec.OnlyIn.trans {α : Type} {p : Ptr} {n k : Nat} {m m1 m2 : Mem α} (h1 : OnlyIn p n m m1)
    (h2 : OnlyIn ⟨p.alloc, p.off + n⟩ k m1 m2) : OnlyIn p (n + k) m m2 := by
  refine ⟨fun a => (h2.1 a).trans (h1.1 a), ?_⟩
  intro q j hq
  rw [h2.2 q j (by unfold Apart at hq ⊢; simp only; omega), h1.2 q j (by unfold Apart at hq ⊢; omega)]

theorem Spec.OnlyIn.mono {α : Type} {p : Ptr} {n : Nat} {m m' : Mem α} (k j : Nat)
    (h : OnlyIn ⟨p.alloc, p.off + k⟩ j m m') (hk : k + j ≤ n) : OnlyIn p n m m' :=
  ⟨h.1, fun q i hq => h.2 q i (hq.sub k j hk)⟩

/-- Two allocations with the same size and contents are the same. -/
theorem Mem.ext_alloc {α : Type} {m m' : Mem α} {a : Nat}
    (h1 : (m' a).map List.length = (m a).map List.length)
    (h2 : ∀ q k, q.alloc = a → m'.load q k = m.load q k) : m' a = m a := by
  cases h : m a with
  | none =>
    rw [h] at h1
    cases h' : m' a with
    | none => rfl
    | some c => rw [h'] at h1; exact nomatch h1
  | some c =>
    rw [h] at h1
    cases h' : m' a with
    | none => rw [h'] at h1; exact nomatch h1
    | some c' =>
      rw [h'] at h1
      have hl : c'.length = c.length := Option.some.inj h1
      by_cases h0 : c.length = 0
      · rw [List.eq_nil_of_length_eq_zero h0, List.eq_nil_of_length_eq_zero (hl.trans h0)]
      · have := h2 ⟨a, 0⟩ c.length rfl
        rw [(load_some (m := m) h0).mpr ⟨c, h, by simp, rfl⟩,
          (load_some (m := m') h0).mpr ⟨c', h', by simp [hl], rfl⟩] at this
        have := Option.some.inj this
        rw [List.drop_zero, List.drop_zero, List.take_of_length_le (by omega), List.take_length] at this
        rw [this]

/-- Other allocations are as they were. -/
theorem Spec.OnlyIn.other {α : Type} {p : Ptr} {n : Nat} {m m' : Mem α} (h : OnlyIn p n m m') {a : Nat}
    (ha : n ≠ 0 → p.alloc ≠ a) : m' a = m a := by
  refine ext_alloc (h.1 a) fun q k hq => h.2 q k ?_
  by_cases hn : n = 0
  · exact .inl hn
  · exact .inr (.inr (.inl (hq ▸ ha hn)))

/-- One write. -/
theorem RawOutput.write_shows {m : Mem Byte} {o : RawOutput} {O : Output} (h : ShowsOutput m o O)
    {data : RawSlice} {d : List Byte} (hd : Holds m data d)
    (ha : Apart o.buf.ptr o.buf.len data.ptr data.len) :
    (∀ e O1, O.write d = (.error e, O1) → O1 = O ∧ o.write data m = (.err e, o, m)) ∧
    ∀ O1, O.write d = (.ok (), O1) → ∃ m', o.write data m = (.ok (), ⟨o.buf, o.pos + data.len⟩, m') ∧
      ShowsOutput m' ⟨o.buf, o.pos + data.len⟩ O1 ∧
      OnlyIn ⟨o.buf.ptr.alloc, o.buf.ptr.off + o.pos⟩ data.len m m' := by
  obtain ⟨⟨hl, hb⟩, hp, hw⟩ := h
  obtain ⟨hdl, hdd⟩ := hd
  have hnp : ¬ o.buf.len < o.pos := by omega
  unfold Output.write RawOutput.write
  simp only [hnp, if_false]
  rw [← hp, ← hl, ← hdl]
  by_cases hr : o.buf.len - o.pos < data.len
  · rw [if_pos hr, if_pos hr]
    constructor
    · intro e O1 he
      have := Prod.mk.inj he
      exact ⟨this.2.symm, by rw [Except.error.inj this.1]⟩
    · intro O1 he
      exact nomatch (Prod.mk.inj he).1
  · rw [if_neg hr, if_neg hr]
    constructor
    · intro e O1 he
      exact nomatch (Prod.mk.inj he).1
    · intro O1 he
      have hO : O1 = O.put d := (Prod.mk.inj he).2.symm
      subst hO
      rw [add_ok hb o.pos (by omega)]
      simp only
      unfold copyNonoverlapping
      rw [hdd]
      simp only
      rw [if_pos ((ha.sub o.pos data.len (by omega)).symm)]
      obtain ⟨m', h1, h2, h3⟩ := store_ok hb o.pos (d.map some) (by rw [List.length_map]; omega)
      rw [h1]
      simp only
      rw [List.length_map] at h3
      refine ⟨m', rfl, ⟨⟨?_, ?_⟩, ?_, ?_⟩, hdl ▸ h3⟩
      · simp only [Output.put, List.length_append, List.length_take, List.length_drop]
        omega
      · rw [show (⟨o.buf, o.pos + data.len⟩ : RawOutput).buf = o.buf from rfl, h2]
        simp only [Output.put, List.map_append, List.map_take, List.map_drop, List.length_map, hp]
      · simp only [Output.put, hp, hdl]
      · simp only [Output.put, List.length_append, List.length_take, List.length_drop]
        omega

/-- `read`. -/
theorem RawInput.read_shows {m : Mem Byte} {i : RawInput} {I : Input} (h : ShowsInput m i I) (n : Nat) :
    (∀ e I1, I.read n = (.error e, I1) → I1 = I ∧ i.read n m = (.err e, i)) ∧
    ∀ d I1, I.read n = (.ok d, I1) → ∃ s, i.read n m = (.ok s, ⟨i.buf, i.pos + n⟩) ∧
      Holds m s d ∧ s.ptr.alloc = i.buf.ptr.alloc ∧ s.ptr.off = i.buf.ptr.off + i.pos ∧
      ShowsInput m ⟨i.buf, i.pos + n⟩ I1 := by
  obtain ⟨⟨hl, hb⟩, hp, hw⟩ := h
  have hnp : ¬ i.buf.len < i.pos := by omega
  unfold Input.read RawInput.read
  simp only [hnp, if_false]
  rw [← hp, ← hl]
  by_cases hr : i.buf.len - i.pos < n
  · rw [if_pos hr, if_pos hr]
    constructor
    · intro e O1 he
      have := Prod.mk.inj he
      exact ⟨this.2.symm, by rw [Except.error.inj this.1]⟩
    · intro d O1 he
      exact nomatch (Prod.mk.inj he).1
  · rw [if_neg hr, if_neg hr]
    constructor
    · intro e O1 he
      exact nomatch (Prod.mk.inj he).1
    · intro d O1 he
      have hd := Except.ok.inj (Prod.mk.inj he).1
      have hO := (Prod.mk.inj he).2
      subst hO
      rw [add_ok hb i.pos (by omega)]
      simp only
      have hs := load_sub hb i.pos n (by omega)
      rw [← List.map_drop, ← List.map_take, hd] at hs
      rw [values_of_load hs]
      refine ⟨⟨⟨i.buf.ptr.alloc, i.buf.ptr.off + i.pos⟩, n⟩, rfl, ⟨?_, hs⟩, rfl, rfl, ⟨hl, hb⟩, rfl, ?_⟩
      · have := load_length hs
        rw [List.length_map] at this
        exact this.symm
      · show i.pos + n ≤ I.buf.length
        omega

/-- `read_into`. -/
theorem RawInput.readInto_shows {m : Mem Byte} {i : RawInput} {I : Input} (h : ShowsInput m i I)
    {dst : RawSlice} {x : List Byte} (hx : Holds m dst x)
    (ha : Apart i.buf.ptr i.buf.len dst.ptr dst.len) :
    (∀ e y I1, I.readInto x = (.error e, y, I1) → I1 = I ∧ y = x ∧ i.readInto dst m = (.err e, i, m)) ∧
    ∀ d I1, I.readInto x = (.ok (), d, I1) → ∃ m', i.readInto dst m = (.ok (), ⟨i.buf, i.pos + dst.len⟩, m') ∧
      Holds m' dst d ∧ OnlyIn dst.ptr dst.len m m' ∧ ShowsInput m' ⟨i.buf, i.pos + dst.len⟩ I1 := by
  obtain ⟨⟨hl, hb⟩, hp, hw⟩ := h
  obtain ⟨hxl, hxx⟩ := hx
  have hnp : ¬ i.buf.len < i.pos := by omega
  unfold Input.readInto RawInput.readInto RawInput.remaining Input.remaining Input.capacity
    Input.position
  simp only [hnp, if_false]
  rw [← hp, ← hl, ← hxl]
  by_cases hr : i.buf.len - i.pos < dst.len
  · rw [if_pos hr, if_pos hr]
    constructor
    · intro e y O1 he
      have := Prod.mk.inj he
      have h2 := Prod.mk.inj this.2
      exact ⟨h2.2.symm, h2.1.symm, by rw [Except.error.inj this.1]⟩
    · intro d O1 he
      exact nomatch (Prod.mk.inj he).1
  · rw [if_neg hr, if_neg hr]
    constructor
    · intro e y O1 he
      exact nomatch (Prod.mk.inj he).1
    · intro d O1 he
      have h2 := Prod.mk.inj (Prod.mk.inj he).2
      have hd := h2.1
      have hO := h2.2
      subst hO
      rw [add_ok hb i.pos (by omega)]
      simp only
      unfold copyNonoverlapping
      have hs := load_sub hb i.pos dst.len (by omega)
      rw [← List.map_drop, ← List.map_take, hd] at hs
      have hdl : d.length = dst.len := by
        have := load_length hs
        rwa [List.length_map] at this
      rw [hs]
      simp only
      rw [if_pos (ha.sub i.pos dst.len (by omega))]
      obtain ⟨m', h1, h2, h3⟩ := store_ok hxx 0 (d.map some) (by rw [List.length_map]; omega)
      rw [Nat.add_zero] at h1 h3
      rw [List.length_map, hdl] at h3
      rw [show (⟨dst.ptr.alloc, dst.ptr.off⟩ : Ptr) = dst.ptr from rfl] at h1 h3
      rw [h1]
      refine ⟨m', rfl, ⟨hdl.symm, ?_⟩, h3, ⟨⟨hl, ?_⟩, rfl, ?_⟩⟩
      · rw [h2, List.take_zero, List.nil_append, Nat.zero_add, List.length_map,
          List.drop_of_length_le (by rw [List.length_map]; omega), List.append_nil]
      · show m'.load i.buf.ptr i.buf.len = _
        rw [h3.2 _ _ ha.symm]
        exact hb
      · show i.pos + dst.len ≤ I.buf.length
        omega

/-- After a new allocation, what could be read can be read as before. -/
theorem Spec.Holds.alloc {m : Mem Byte} {s : RawSlice} {d : List Byte} (h : Holds m s d) {a : Nat}
    (ha : m a = none) (l : List (Option Byte)) : Holds (m.alloc a l) s d := by
  refine ⟨h.1, ?_⟩
  by_cases hn : s.len = 0
  · have := h.2; rw [hn] at this ⊢; exact this
  · rw [load_alloc_ne l s.len (alive_of_load h.2 hn ha)]
    exact h.2

theorem apart_fresh {m : Mem Byte} {s : RawSlice} {d : List Byte} (h : Holds m s d) {a : Nat}
    (ha : m a = none) (n : Nat) : Apart s.ptr s.len ⟨a, 0⟩ n := by
  by_cases hn : s.len = 0
  · exact .inl hn
  · exact .inr (.inr (.inl (alive_of_load h.2 hn ha)))

/-- When a new allocation is gone again. -/
theorem Spec.OnlyIn.frame {p : Ptr} {n : Nat} {m m1 : Mem Byte} {a : Nat} (ha : m a = none)
    {l : List (Option Byte)} (h : OnlyIn p n (m.alloc a l) m1) : OnlyIn p n m (m1.free a) := by
  constructor
  · intro b
    by_cases e : b = a
    · subst e
      rw [ha, show (m1.free b) b = none from if_pos rfl]
    · rw [show (m1.free a) b = m1 b from if_neg e, h.1 b,
        show (m.alloc a l) b = m b from if_neg e]
  · intro q j hq
    by_cases e : q.alloc = a
    · subst e
      rw [load_free_same, load_dead j ha]
    · rw [load_free_ne j e, h.2 q j hq, load_alloc_ne l j e]

/-- When all that has changed was in the new allocation. -/
theorem Spec.OnlyIn.frame_own {n : Nat} {m m1 : Mem Byte} {a : Nat} (ha : m a = none)
    {l : List (Option Byte)} (h : OnlyIn ⟨a, 0⟩ n (m.alloc a l) m1) : m1.free a = m := by
  funext b
  by_cases e : b = a
  · subst e
    rw [ha]
    exact if_pos rfl
  · rw [show (m1.free a) b = m1 b from if_neg e, h.other fun _ => Ne.symm e]
    exact if_neg e

theorem Spec.Holds.free {m : Mem Byte} {s : RawSlice} {d : List Byte} (h : Holds m s d) {a : Nat}
    (ha : s.len ≠ 0 → s.ptr.alloc ≠ a) : Holds (m.free a) s d := by
  refine ⟨h.1, ?_⟩
  by_cases hn : s.len = 0
  · have := h.2; rw [hn] at this ⊢; exact this
  · rw [load_free_ne s.len (ha hn)]
    exact h.2

theorem holds_alloc (m : Mem Byte) (a : Nat) (d : List Byte) :
    Holds (m.alloc a (d.map some)) ⟨⟨a, 0⟩, d.length⟩ d := by
  refine ⟨rfl, ?_⟩
  have := load_alloc_same m a (d.map some)
  rwa [List.length_map] at this

theorem holds_zeroes (m : Mem Byte) (a n : Nat) :
    Holds (m.alloc a (List.replicate n (some 0))) ⟨⟨a, 0⟩, n⟩ (List.replicate n 0) := by
  have := holds_alloc m a (List.replicate n 0)
  rwa [List.map_replicate, List.length_replicate] at this

/-- A program of writes in memory does what it does with lists, and changes nothing else. -/
theorem EncProg.Raw.shows {p : EncProg} {o o' : RawOutput} {m m' : Mem Byte} {r : Res EncErr Unit}
    (hr : EncProg.Raw p o m r o' m') : ∀ {O : Output}, ShowsOutput m o O →
    r = (p.run O).1 ∧ ShowsOutput m' o' (p.run O).2 ∧ o'.buf = o.buf ∧ o.pos ≤ o'.pos ∧
      OnlyIn ⟨o.buf.ptr.alloc, o.buf.ptr.off + o.pos⟩ (o'.pos - o.pos) m m' := by
  induction hr with
  | stop r o m => exact fun h => ⟨rfl, h, rfl, Nat.le_refl _, OnlyIn.refl _ _ _⟩
  | @write d p o o1 o2 m m1 m2 r a ha hw _ ih =>
    intro O h
    have hs := RawOutput.write_shows (m := m.alloc a (d.map some)) (o := o) (O := O)
      ⟨h.1.alloc ha _, h.2⟩ (holds_alloc m a d) (apart_fresh h.1 ha _)
    cases hO : O.write d with
    | mk x O1 =>
      cases x with
      | error e => rw [(hs.1 e O1 hO).2] at hw; exact nomatch (Prod.mk.inj hw).1
      | ok x =>
        obtain ⟨m3, h1, h2, h3⟩ := hs.2 O1 hO
        rw [h1] at hw
        have hw' := Prod.mk.inj (Prod.mk.inj hw).2
        have e1 := hw'.1
        have e2 := hw'.2
        subst e1
        subst e2
        have hsh : ShowsOutput (m3.free a) ⟨o.buf, o.pos + d.length⟩ O1 := by
          refine ⟨h2.1.free ?_, h2.2⟩
          intro hn
          exact alive_of_load h.1.2 hn ha
        have := ih hsh
        have hrun : (EncProg.write d p).run O = p.run O1 := by
          show (match O.write d with | (.ok (), o') => p.run o' | (.error _, o') => _) = _
          rw [hO]
        rw [hrun]
        have hle : o.pos + d.length ≤ o2.pos := this.2.2.2.1
        refine ⟨this.1, this.2.1, this.2.2.1, by omega, ?_⟩
        have h4 := OnlyIn.trans (h3.frame ha) (by
          have := this.2.2.2.2
          rw [show o.buf.ptr.off + (⟨o.buf, o.pos + d.length⟩ : RawOutput).pos
            = o.buf.ptr.off + o.pos + d.length from (Nat.add_assoc _ _ _).symm] at this
          exact this)
        have e : d.length + (o2.pos - (⟨o.buf, o.pos + d.length⟩ : RawOutput).pos) = o2.pos - o.pos := by
          show d.length + (o2.pos - (o.pos + d.length)) = _
          omega
        rw [e] at h4
        exact h4
  | @short d p o o1 m m1 e a ha hw =>
    intro O h
    have hs := RawOutput.write_shows (m := m.alloc a (d.map some)) (o := o) (O := O)
      ⟨h.1.alloc ha _, h.2⟩ (holds_alloc m a d) (apart_fresh h.1 ha _)
    cases hO : O.write d with
    | mk x O1 =>
      cases x with
      | ok x =>
        obtain ⟨m3, h1, -⟩ := hs.2 O1 hO
        rw [h1] at hw; exact nomatch (Prod.mk.inj hw).1
      | error e' =>
        obtain ⟨rfl, h1⟩ := hs.1 e' O1 hO
        rw [h1] at hw
        have hw' := Prod.mk.inj (Prod.mk.inj hw).2
        have e1 := hw'.1
        have e2 := hw'.2
        subst e1
        subst e2
        have hrun : (EncProg.write d p).run O1 = (.panic .shortOutput, O1) := by
          show (match O1.write d with | (.ok (), o') => p.run o' | (.error _, o') => _) = _
          rw [hO]
        rw [hrun]
        refine ⟨rfl, ⟨(h.1.alloc ha _).free ?_, h.2⟩, rfl, Nat.le_refl _, (OnlyIn.refl _ _ _).frame ha⟩
        intro hn
        exact alive_of_load h.1.2 hn ha
  | @panic d p o o1 m m1 x a ha hw =>
    intro O h
    have hs := RawOutput.write_shows (m := m.alloc a (d.map some)) (o := o) (O := O)
      ⟨h.1.alloc ha _, h.2⟩ (holds_alloc m a d) (apart_fresh h.1 ha _)
    cases hO : O.write d with
    | mk x O1 =>
      cases x with
      | ok x =>
        obtain ⟨m3, h1, -⟩ := hs.2 O1 hO
        rw [h1] at hw; exact nomatch (Prod.mk.inj hw).1
      | error e' => rw [(hs.1 e' O1 hO).2] at hw; exact nomatch (Prod.mk.inj hw).1
  | @ub d p o o1 m m1 x a ha hw =>
    intro O h
    have hs := RawOutput.write_shows (m := m.alloc a (d.map some)) (o := o) (O := O)
      ⟨h.1.alloc ha _, h.2⟩ (holds_alloc m a d) (apart_fresh h.1 ha _)
    cases hO : O.write d with
    | mk x O1 =>
      cases x with
      | ok x =>
        obtain ⟨m3, h1, -⟩ := hs.2 O1 hO
        rw [h1] at hw; exact nomatch (Prod.mk.inj hw).1
      | error e' => rw [(hs.1 e' O1 hO).2] at hw; exact nomatch (Prod.mk.inj hw).1

/-- A program of reads in memory does what it does with lists, and changes nothing. -/
theorem DecProg.Raw.shows {α : Type} {p : DecProg α} {i i' : RawInput} {m m' : Mem Byte}
    {r : Res DecErr α} (hr : DecProg.Raw p i m r i' m') : ∀ {I : Input}, ShowsInput m i I →
    r = (p.run I).1 ∧ ShowsInput m' i' (p.run I).2 ∧ i'.buf = i.buf ∧ i.pos ≤ i'.pos ∧ m' = m := by
  induction hr with
  | stop r i m => exact fun h => ⟨rfl, h, rfl, Nat.le_refl _, rfl⟩
  | @read n p i i1 i2 m m2 s d r hw hv _ ih =>
    intro I h
    have hs := RawInput.read_shows h n
    cases hO : I.read n with
    | mk x I1 =>
      cases x with
      | error e => rw [(hs.1 e I1 hO).2] at hw; exact nomatch (Prod.mk.inj hw).1
      | ok x =>
        obtain ⟨s', h1, h2, -, -, h3⟩ := hs.2 x I1 hO
        rw [h1] at hw
        have e1 := Res.ok.inj (Prod.mk.inj hw).1
        have e2 := (Prod.mk.inj hw).2
        subst e1
        subst e2
        have e3 : x = d := Except.ok.inj ((values_of_load h2.2).symm.trans hv)
        subst e3
        have := ih h3
        have hrun : (DecProg.read n p).run I = (p x).run I1 := by
          simp only [DecProg.run, hO]
        rw [hrun]
        have hle : i.pos + n ≤ i2.pos := this.2.2.2.1
        exact ⟨this.1, this.2.1, this.2.2.1, by omega, this.2.2.2.2⟩
  | @readShort n p i i1 m e hw =>
    intro I h
    have hs := RawInput.read_shows h n
    cases hO : I.read n with
    | mk x I1 =>
      cases x with
      | ok x =>
        obtain ⟨s', h1, -⟩ := hs.2 x I1 hO
        rw [h1] at hw; exact nomatch (Prod.mk.inj hw).1
      | error e' =>
        obtain ⟨rfl, h1⟩ := hs.1 e' I1 hO
        rw [h1] at hw
        have e2 := (Prod.mk.inj hw).2
        subst e2
        have hrun : (DecProg.read n p).run I1 = (.panic .shortInput, I1) := by
          simp only [DecProg.run, hO]
        rw [hrun]
        exact ⟨rfl, h, rfl, Nat.le_refl _, rfl⟩
  | @readPanic n p i i1 m x hw =>
    intro I h
    have hs := RawInput.read_shows h n
    cases hO : I.read n with
    | mk x I1 =>
      cases x with
      | ok x =>
        obtain ⟨s', h1, -⟩ := hs.2 x I1 hO
        rw [h1] at hw; exact nomatch (Prod.mk.inj hw).1
      | error e' => rw [(hs.1 e' I1 hO).2] at hw; exact nomatch (Prod.mk.inj hw).1
  | @readUb n p i i1 m x hw =>
    intro I h
    have hs := RawInput.read_shows h n
    cases hO : I.read n with
    | mk x I1 =>
      cases x with
      | ok x =>
        obtain ⟨s', h1, -⟩ := hs.2 x I1 hO
        rw [h1] at hw; exact nomatch (Prod.mk.inj hw).1
      | error e' => rw [(hs.1 e' I1 hO).2] at hw; exact nomatch (Prod.mk.inj hw).1
  | @readLost n p i i1 m s u hw hv =>
    intro I h
    have hs := RawInput.read_shows h n
    cases hO : I.read n with
    | mk x I1 =>
      cases x with
      | error e => rw [(hs.1 e I1 hO).2] at hw; exact nomatch (Prod.mk.inj hw).1
      | ok x =>
        obtain ⟨s', h1, h2, -⟩ := hs.2 x I1 hO
        rw [h1] at hw
        have e1 := Res.ok.inj (Prod.mk.inj hw).1
        subst e1
        exact nomatch (values_of_load h2.2).symm.trans hv
  | @readInto n p i i1 i2 m m1 m2 d r a ha hw hv _ ih =>
    intro I h
    have hs := RawInput.readInto_shows (m := m.alloc a (List.replicate n (some 0))) (i := i) (I := I)
      (dst := ⟨⟨a, 0⟩, n⟩) (x := List.replicate n 0) ⟨h.1.alloc ha _, h.2⟩ (holds_zeroes m a n)
      (apart_fresh h.1 ha _)
    cases hO : I.readInto (List.replicate n 0) with
    | mk x y =>
      cases y with
      | mk y I1 =>
        cases x with
        | error e => rw [(hs.1 e y I1 hO).2.2] at hw; exact nomatch (Prod.mk.inj hw).1
        | ok x =>
          obtain ⟨m3, h1, h2, h3, h4⟩ := hs.2 y I1 hO
          rw [h1] at hw
          have hw' := Prod.mk.inj (Prod.mk.inj hw).2
          have e1 := hw'.1
          have e2 := hw'.2
          subst e1
          subst e2
          have e3 : y = d := Except.ok.inj ((values_of_load h2.2).symm.trans hv)
          subst e3
          rw [h3.frame_own ha] at ih
          have hb := h4.1.free (a := a) fun hn => alive_of_load h.1.2 hn ha
          rw [h3.frame_own ha] at hb
          have := ih ⟨hb, h4.2⟩
          have hrun : (DecProg.readInto n p).run I = (p y).run I1 := by
            simp only [DecProg.run, hO]
          rw [hrun]
          have hle : i.pos + n ≤ i2.pos := this.2.2.2.1
          exact ⟨this.1, this.2.1, this.2.2.1, by omega, this.2.2.2.2⟩
  | @intoShort n p i i1 m m1 e a ha hw =>
    intro I h
    have hs := RawInput.readInto_shows (m := m.alloc a (List.replicate n (some 0))) (i := i) (I := I)
      (dst := ⟨⟨a, 0⟩, n⟩) (x := List.replicate n 0) ⟨h.1.alloc ha _, h.2⟩ (holds_zeroes m a n)
      (apart_fresh h.1 ha _)
    cases hO : I.readInto (List.replicate n 0) with
    | mk x y =>
      cases y with
      | mk y I1 =>
        cases x with
        | ok x =>
          obtain ⟨m3, h1, -⟩ := hs.2 y I1 hO
          rw [h1] at hw; exact nomatch (Prod.mk.inj hw).1
        | error e' =>
          obtain ⟨rfl, -, h1⟩ := hs.1 e' y I1 hO
          rw [h1] at hw
          have hw' := Prod.mk.inj (Prod.mk.inj hw).2
          have e1 := hw'.1
          have e2 := hw'.2
          subst e1
          subst e2
          have hrun : (DecProg.readInto n p).run I1 = (.panic .shortInput, I1) := by
            simp only [DecProg.run, hO]
          rw [hrun, (OnlyIn.refl ⟨a, 0⟩ 0 _).frame_own ha]
          exact ⟨rfl, h, rfl, Nat.le_refl _, rfl⟩
  | @intoPanic n p i i1 m m1 x a ha hw =>
    intro I h
    have hs := RawInput.readInto_shows (m := m.alloc a (List.replicate n (some 0))) (i := i) (I := I)
      (dst := ⟨⟨a, 0⟩, n⟩) (x := List.replicate n 0) ⟨h.1.alloc ha _, h.2⟩ (holds_zeroes m a n)
      (apart_fresh h.1 ha _)
    cases hO : I.readInto (List.replicate n 0) with
    | mk x y =>
      cases y with
      | mk y I1 =>
        cases x with
        | ok x =>
          obtain ⟨m3, h1, -⟩ := hs.2 y I1 hO
          rw [h1] at hw; exact nomatch (Prod.mk.inj hw).1
        | error e' => rw [(hs.1 e' y I1 hO).2.2] at hw; exact nomatch (Prod.mk.inj hw).1
  | @intoUb n p i i1 m m1 x a ha hw =>
    intro I h
    have hs := RawInput.readInto_shows (m := m.alloc a (List.replicate n (some 0))) (i := i) (I := I)
      (dst := ⟨⟨a, 0⟩, n⟩) (x := List.replicate n 0) ⟨h.1.alloc ha _, h.2⟩ (holds_zeroes m a n)
      (apart_fresh h.1 ha _)
    cases hO : I.readInto (List.replicate n 0) with
    | mk x y =>
      cases y with
      | mk y I1 =>
        cases x with
        | ok x =>
          obtain ⟨m3, h1, -⟩ := hs.2 y I1 hO
          rw [h1] at hw; exact nomatch (Prod.mk.inj hw).1
        | error e' => rw [(hs.1 e' y I1 hO).2.2] at hw; exact nomatch (Prod.mk.inj hw).1
  | @intoLost n p i i1 m m1 u a ha hw hv =>
    intro I h
    have hs := RawInput.readInto_shows (m := m.alloc a (List.replicate n (some 0))) (i := i) (I := I)
      (dst := ⟨⟨a, 0⟩, n⟩) (x := List.replicate n 0) ⟨h.1.alloc ha _, h.2⟩ (holds_zeroes m a n)
      (apart_fresh h.1 ha _)
    cases hO : I.readInto (List.replicate n 0) with
    | mk x y =>
      cases y with
      | mk y I1 =>
        cases x with
        | error e => rw [(hs.1 e y I1 hO).2.2] at hw; exact nomatch (Prod.mk.inj hw).1
        | ok x =>
          obtain ⟨m3, h1, h2, -⟩ := hs.2 y I1 hO
          rw [h1] at hw
          have hw' := Prod.mk.inj (Prod.mk.inj hw).2
          have e2 := hw'.2
          subst e2
          exact nomatch (values_of_load h2.2).symm.trans hv

/-- There is a run from every stream, if there is room for a local array at all. -/
theorem EncProg.raw_total (p : EncProg) : ∀ {o : RawOutput} {m : Mem Byte} {O : Output},
    ShowsOutput m o O → (∃ a, m a = none) → ∃ r o' m', EncProg.Raw p o m r o' m' := by
  induction p with
  | stop r => exact fun _ _ => ⟨_, _, _, .stop _ _ _⟩
  | write d p ih =>
    rintro o m O h ⟨a, ha⟩
    have hs := RawOutput.write_shows (m := m.alloc a (d.map some)) (o := o) (O := O)
      ⟨h.1.alloc ha _, h.2⟩ (holds_alloc m a d) (apart_fresh h.1 ha _)
    cases hO : O.write d with
    | mk x O1 =>
      cases x with
      | error e => exact ⟨_, _, _, .short a ha (hs.1 e O1 hO).2⟩
      | ok x =>
        obtain ⟨m3, h1, h2, h3⟩ := hs.2 O1 hO
        obtain ⟨r, o', m', hr⟩ := ih (m := m3.free a) (o := ⟨o.buf, o.pos + d.length⟩) (O := O1)
          ⟨h2.1.free (fun hn => alive_of_load h.1.2 hn ha), h2.2⟩ ⟨a, if_pos rfl⟩
        exact ⟨r, o', m', .write a ha h1 hr⟩

theorem DecProg.raw_total {α : Type} (p : DecProg α) : ∀ {i : RawInput} {m : Mem Byte} {I : Input},
    ShowsInput m i I → (∃ a, m a = none) → ∃ r i' m', DecProg.Raw p i m r i' m' := by
  induction p with
  | stop r => exact fun _ _ => ⟨_, _, _, .stop _ _ _⟩
  | read n p ih =>
    rintro i m I h ha
    have hs := RawInput.read_shows h n
    cases hO : I.read n with
    | mk x I1 =>
      cases x with
      | error e => exact ⟨_, _, _, .readShort (hs.1 e I1 hO).2⟩
      | ok d =>
        obtain ⟨s, h1, h2, -, -, h3⟩ := hs.2 d I1 hO
        obtain ⟨r, i', m', hr⟩ := ih d h3 ha
        exact ⟨r, i', m', .read h1 (values_of_load h2.2) hr⟩
  | readInto n p ih =>
    rintro i m I h ⟨a, ha⟩
    have hs := RawInput.readInto_shows (m := m.alloc a (List.replicate n (some 0))) (i := i) (I := I)
      (dst := ⟨⟨a, 0⟩, n⟩) (x := List.replicate n 0) ⟨h.1.alloc ha _, h.2⟩ (holds_zeroes m a n)
      (apart_fresh h.1 ha _)
    cases hO : I.readInto (List.replicate n 0) with
    | mk x y =>
      cases y with
      | mk y I1 =>
        cases x with
        | error e => exact ⟨_, _, _, .intoShort a ha (hs.1 e y I1 hO).2.2⟩
        | ok x =>
          obtain ⟨m3, h1, h2, h3, h4⟩ := hs.2 y I1 hO
          obtain ⟨r, i', m', hr⟩ := ih y (m := m3.free a) (i := ⟨i.buf, i.pos + n⟩) (I := I1)
            ⟨h4.1.free fun hn => alive_of_load h.1.2 hn ha, h4.2⟩ ⟨a, if_pos rfl⟩
          exact ⟨r, i', m', .readInto a ha h1 (values_of_load h2.2) hr⟩

end Oct
