import Verif.Spec.Contracts
import Verif.Proofs.SizedStr
import Verif.Proofs.SlotMemory
/- Sized slices after unsafe calls. -/
namespace Oct
open Spec
variable {α : Type}

theorem exists_map_some : ∀ {c : List (MaybeUninit α)} {n : Nat}, n ≤ c.length →
    (∀ i, i < n → ∃ a, c[i]? = some (some a)) → ∃ l : List α, c.take n = l.map some
  | _, 0, _, _ => ⟨[], rfl⟩
  | [], _ + 1, h, _ => absurd h (Nat.not_succ_le_zero _)
  | x :: c, n + 1, h, hi => by
    obtain ⟨a, ha⟩ := hi 0 (Nat.succ_pos n)
    have ha : x = some a := Option.some.inj ha
    obtain ⟨l, hl⟩ := exists_map_some (c := c) (n := n) (Nat.le_of_succ_le_succ h)
      fun i h' => hi (i + 1) (Nat.succ_lt_succ h')
    exact ⟨a :: l, by rw [List.take_succ_cons, hl, ha]; rfl⟩

theorem SizedSlice.asSlice_iff {s : SizedSlice α} :
    (∃ l, (s.asSlice : Res Empty _) = .ok l) ↔
      s.len ≤ s.buf.length ∧ ∀ i, i < s.len → ∃ a, s.buf[i]? = some (some a) := by
  constructor
  · rintro ⟨l, h⟩
    have hl := asSlice_len h
    obtain ⟨h1, h2⟩ := asSlice_ok.mp h
    refine ⟨h1, fun i hi => ⟨l[i]'(hl ▸ hi), ?_⟩⟩
    have := congrArg (fun m => m[i]?) h2
    simp only [List.getElem?_take, List.getElem?_map, if_pos hi] at this
    rw [this, List.getElem?_eq_getElem (hl ▸ hi)]
    rfl
  · rintro ⟨h1, h2⟩
    obtain ⟨l, hl⟩ := exists_map_some h1 h2
    exact ⟨l, asSlice_ok.mpr ⟨h1, hl⟩⟩

theorem SizedSlice.settle_get (blank : Option α) (s : SizedSlice α) (i : Nat) :
    (s.settle blank).buf[i]? = s.buf[i]?.map fun c => c.or blank := List.getElem?_map ..

theorem SizedSlice.settle_length (blank : Option α) (s : SizedSlice α) :
    (s.settle blank).buf.length = s.buf.length := List.length_map ..

/-- As items, the cells up to the length can be looked at. -/
def SizedSlice.Settled (blank : Option α) (s : SizedSlice α) : Prop :=
  s.len ≤ s.buf.length ∧ ∀ i, i < s.len → ∃ a, (s.settle blank).buf[i]? = some (some a)

theorem SizedSlice.settled_iff {blank : Option α} {s : SizedSlice α} :
    s.Settled blank ↔ ∃ l, ((s.settle blank).asSlice : Res Empty _) = .ok l := by
  rw [asSlice_iff, settle_length]
  rfl

theorem SizedSlice.settled_of_init {blank : Option α} {s : SizedSlice α} (h : s.len ≤ s.buf.length)
    (hi : ∀ i, i < s.len → ∃ a, s.buf[i]? = some (some a)) : s.Settled blank := by
  refine ⟨h, fun i hl => ?_⟩
  obtain ⟨a, ha⟩ := hi i hl
  exact ⟨a, by rw [settle_get, ha]; rfl⟩

theorem SizedSlice.settled_asSlice {blank : Option α} {s : SizedSlice α} {l : List α}
    (h : (s.asSlice : Res Empty _) = .ok l) : s.Settled blank :=
  have h := asSlice_iff.mp ⟨l, h⟩
  settled_of_init h.1 h.2

/-- One operation keeps it, and is neither undefined nor stopped by a debug assertion. -/
theorem UnsafeOp.step_settled {debug : Bool} {blank : Option α} {s : SizedSlice α} {op : UnsafeOp α}
    {ops : List (UnsafeOp α)} (h : s.Settled blank) (hd : Documented debug blank s (op :: ops))
    (hc : CopiesFit debug blank s (op :: ops)) :
    (op.step debug blank s).2.Settled blank ∧ (op.step debug blank s).2.buf.length = s.buf.length ∧
    ((∃ l, (op.step debug blank s).1 = .ok l) ∨
      (op.step debug blank s).1 = .panic .indexOutOfBounds ∧
        ∃ i a, op = .set i a ∧ s.len ≤ i) := by
  obtain ⟨l, hl⟩ := SizedSlice.settled_iff.mp h
  have hlen : (s.settle blank).len = l.length := SizedSlice.asSlice_len hl
  have hlen : s.len = l.length := hlen
  have hd := hd.1
  have hc := hc.1
  cases op with
  | fromRawParts buf len =>
    obtain ⟨hb, hd⟩ : buf.length = s.buf.length ∧ PartsContract buf len := hd
    have e : SizedSlice.fromRawParts debug buf len = .ok ⟨buf, len⟩ :=
      if_neg fun h => absurd hd.1 (Nat.not_le.mpr h.2)
    simp only [step, e, replace]
    exact ⟨SizedSlice.settled_of_init hd.1 hd.2, hb, .inl ⟨_, rfl⟩⟩
  | setLen len =>
    have hd : LenContract blank s len := hd
    have e : (s.setLen debug len : Res Empty _) = .ok { s with len := len } :=
      if_neg fun h => absurd hd.1 (Nat.not_le.mpr h.2)
    simp only [step, e, replace]
    refine ⟨⟨hd.1, fun i hi => ?_⟩, trivial, .inl ⟨_, rfl⟩⟩
    have hi : i < len := hi
    by_cases h' : i < s.len
    · exact h.2 i h'
    · obtain ⟨b, rfl⟩ := hd.2 (by omega)
      have hlt : i < s.buf.length := Nat.lt_of_lt_of_le hi hd.1
      show ∃ a, (s.settle (some b)).buf[i]? = _
      rw [SizedSlice.settle_get, List.getElem?_eq_getElem hlt]
      cases s.buf[i] with
      | none => exact ⟨b, rfl⟩
      | some a => exact ⟨a, rfl⟩
  | writePtr i a =>
    have hd : i < s.buf.length := hd
    simp only [step, if_pos hd]
    refine ⟨⟨by simpa using h.1, fun j hj => ?_⟩, by simp, .inl ⟨_, rfl⟩⟩
    obtain ⟨b, hb⟩ := h.2 j hj
    rw [SizedSlice.settle_get] at hb ⊢
    by_cases e : i = j
    · subst e
      exact ⟨a, by simp [List.getElem?_set_self hd]⟩
    · exact ⟨b, by simpa [List.getElem?_set_ne e] using hb⟩
  | asSlice => exact ⟨h, rfl, .inl ⟨l, hl⟩⟩
  | set i a =>
    by_cases hi : i < l.length
    · have e : ((s.settle blank).setIndex i a : Res Empty _)
          = .ok { s.settle blank with buf := (s.settle blank).buf.set i (some a) } := by
        unfold SizedSlice.setIndex
        rw [hl]
        exact if_pos hi
      simp only [step, e, replace]
      refine ⟨SizedSlice.settled_of_init ?_ fun j hj => ?_, ?_, .inl ⟨_, rfl⟩⟩
      · simpa [SizedSlice.settle] using h.1
      · obtain ⟨b, hb⟩ := h.2 j hj
        by_cases e : i = j
        · subst e
          refine ⟨a, List.getElem?_set_self ?_⟩
          rw [SizedSlice.settle_length]
          have := h.1
          omega
        · exact ⟨b, by rw [List.getElem?_set_ne e]; exact hb⟩
      · simp [SizedSlice.settle]
    · have e : ((s.settle blank).setIndex i a : Res Empty _) = .panic .indexOutOfBounds := by
        unfold SizedSlice.setIndex
        rw [hl]
        exact if_neg hi
      simp only [step, e, replace]
      exact ⟨h, trivial, .inr ⟨trivial, i, a, rfl, by omega⟩⟩
  | copyFrom data =>
    have hc : data.length ≤ s.buf.length := hc
    have e : (s.copyFromSlice data : Res Empty _)
        = .ok { buf := data.map some ++ s.buf.drop data.length, len := data.length } :=
      if_neg (Nat.not_lt.mpr hc)
    simp only [step, e, replace]
    refine ⟨SizedSlice.settled_asSlice (l := data) (SizedSlice.asSlice_ok.mpr ⟨?_, ?_⟩), ?_,
      .inl ⟨_, rfl⟩⟩
    · simp
    · exact List.take_left' (by simp)
    · simp only [List.length_append, List.length_map, List.length_drop]
      omega
  | clone =>
    obtain ⟨h1, h2⟩ := SizedSlice.asSlice_ok.mp hl
    obtain ⟨c, e1, e2, e3⟩ := SizedSlice.copyCells_spec _ _ l h1 h2
    have e : ((s.settle blank).clone : Res Empty _) = .ok ⟨c, s.len⟩ := by
      unfold SizedSlice.clone
      rw [e1]
      rfl
    simp only [step, e, replace]
    refine ⟨SizedSlice.settled_asSlice (l := l) (SizedSlice.asSlice_ok.mpr ⟨?_, e3⟩), ?_, .inl ⟨_, rfl⟩⟩
    · show s.len ≤ c.length
      rw [e2]
      exact h1
    · rw [SizedSlice.settle_length] at e2
      show c.length = _
      omega
  | iter =>
    have e : SizedIter.new debug (s.settle blank).buf s.len = .ok ⟨(s.settle blank).buf, 0, s.len⟩ :=
      if_neg fun h' => absurd h.1 (by rw [SizedSlice.settle_length] at h'; omega)
    simp only [step, e]
    exact ⟨h, trivial, .inl ⟨l, hl⟩⟩

end Oct
