import Verif.Proofs.Ends
import Verif.Proofs.Utf8
/- Taking successful decodings apart. -/
namespace Oct
variable {α β : Type}

theorem Dec.bind_ok {m : Dec α} {f : α → Dec β} {i i' : Input} {b : β}
    (h : (m >>= f) i = (.ok b, i')) : ∃ a i1, m i = (.ok a, i1) ∧ f a i1 = (.ok b, i') := by
  have h' : Dec.bind m f i = (.ok b, i') := h
  unfold Dec.bind at h'
  generalize hm : m i = r at h'
  obtain ⟨r, i1⟩ := r
  cases r with
  | ok a => exact ⟨a, i1, rfl, h'⟩
  | err e => cases h'
  | panic p => cases h'
  | ub u => cases h'

theorem Dec.pure_ok {i i' : Input} {a b : α} (h : (Pure.pure a : Dec α) i = (.ok b, i')) :
    a = b ∧ i = i' := by
  have h' : ((.ok a, i) : Res DecErr α × Input) = (.ok b, i') := h
  cases h'
  exact ⟨rfl, rfl⟩

theorem Dec.read_ok {k : Nat} {i i' : Input} {d : List Byte} (h : Dec.read k i = (.ok d, i')) :
    d = (i.buf.drop i.pos).take k ∧ i' = { i with pos := i.pos + k } ∧ d.length = k := by
  unfold Dec.read Input.read at h
  by_cases hc : i.buf.length - i.pos < k
  · simp only [hc, if_true] at h; cases h
  · simp only [hc, if_false] at h
    cases h
    refine ⟨rfl, rfl, ?_⟩
    rw [List.length_take, List.length_drop]
    omega

theorem decNum_ok {k x : Nat} {i i' : Input} (h : decNum k i = (.ok x, i')) :
    ∃ d, d = (i.buf.drop i.pos).take k ∧ d.length = k ∧ x = fromLe d ∧
      i' = { i with pos := i.pos + k } := by
  obtain ⟨d, i1, h1, h2⟩ := Dec.bind_ok h
  rw [readInto_eq_read] at h1
  obtain ⟨hd, hi, hl⟩ := Dec.read_ok h1
  obtain ⟨hx, hi'⟩ := Dec.pure_ok h2
  exact ⟨d, hd, hl, hx.symm, hi'.symm.trans hi⟩

/-- A successfully decoded length is that of the next two octets. -/
theorem decUsize_ok {x : Nat} {i i' : Input} (h : decUsize i = (.ok x, i')) :
    ∃ b0 b1 rest, i.buf.drop i.pos = b0 :: b1 :: rest ∧ x = b0.toNat + 256 * b1.toNat ∧
      i' = { i with pos := i.pos + 2 } := by
  obtain ⟨d, hd, hl, hx, hi⟩ := decNum_ok h
  generalize hb : i.buf.drop i.pos = b at hd
  match b, hd with
  | [], hd => subst hd; simp at hl
  | [_], hd => subst hd; simp at hl
  | b0 :: b1 :: rest, hd =>
    refine ⟨b0, b1, rest, rfl, ?_, hi⟩
    subst hd
    rw [hx]
    simp [fromLe]

/-- The end of `String::decode`, on the octets read. -/
def strOf (data : List Byte) : Dec {bs : List Byte // Utf8.valid bs = true} :=
  match h : Utf8.check data with
  | none => pure ⟨data, by simp [Utf8.valid, h]⟩
  | some i =>
    match data[i]? with
    | some c => Dec.fail (.badItem (.utf8 c i))
    | none => Dec.panic .indexOutOfBounds

theorem decString_eq : decString = (decUsize >>= fun len => Dec.read len >>= strOf) := rfl

theorem strOf_valid (d : List Byte) (h : Utf8.valid d = true) : strOf d = pure ⟨d, h⟩ := by
  unfold Utf8.valid at h
  unfold strOf
  split
  · rfl
  · rename_i j hj; rw [hj] at h; cases h

theorem strOf_invalid (d : List Byte) (j : Nat) (h : Utf8.check d = some j) :
    ∃ c, d[j]? = some c ∧ strOf d = Dec.fail (.badItem (.utf8 c j)) := by
  have hlt := Utf8.check_lt d j h
  refine ⟨d[j], List.getElem?_eq_getElem hlt, ?_⟩
  unfold strOf
  split
  · rename_i h'; rw [h] at h'; cases h'
  · rename_i j' h'
    rw [h] at h'
    cases h'
    rw [List.getElem?_eq_getElem hlt]

theorem strOf_ok {d : List Byte} {i i' : Input} {v : {bs : List Byte // Utf8.valid bs = true}}
    (h : strOf d i = (.ok v, i')) : v.val = d ∧ i = i' := by
  cases hc : Utf8.check d with
  | none =>
    rw [strOf_valid d (by simp [Utf8.valid, hc])] at h
    obtain ⟨hv, hi⟩ := Dec.pure_ok h
    exact ⟨hv ▸ rfl, hi⟩
  | some j =>
    obtain ⟨c, _, hf⟩ := strOf_invalid d j hc
    rw [hf] at h
    cases h

end Oct
