import Verif.Proofs.Exact
import Verif.Props.Language
import Verif.Props.Longest
/-
C18, C54, C55 and C116, exactly: of which types they are true.
-/
namespace Oct.Props
open Oct Spec

/-- C54, exactly. Whatever is decoded is the encoding of the value just for these types: `bool`, `Duration`,
maps and sets are none, an `Option` or the error of a `Result` only if they have no values, and a sized slice
only if it has no room or its items no octets. -/
theorem C54_exactly (t : Ty) (ht : t.WF) :
    Exact true t ↔ ∀ (i i' : Input) (v : t.Val), t.decode i = (.ok v, i') →
      ∃ rest, i.buf.drop i.pos = wire t v ++ rest ∧ i' = ⟨i.buf, i.pos + (wire t v).length⟩ := by
  rw [exact_iff true t ht]
  constructor
  · intro h i i' v hd
    obtain ⟨bs, rest, hr, hA, hi⟩ := (C52_accepted t ht i i' v).mp hd
    have e : bs = wire t v := h bs v hA
    subst e
    exact ⟨rest, hr, hi⟩
  · intro h bs v hA
    obtain ⟨rest, h1, h2⟩ := h (Input.new bs) _ v
      ((C52_accepted t ht (Input.new bs) ⟨bs, bs.length⟩ v).mpr ⟨bs, [], by simp [Input.new], hA, by simp [Input.new]⟩)
    have h3 : bs = wire t v ++ rest := by simpa [Input.new] using h1
    have h4 : bs.length = (wire t v).length := by
      have := congrArg Input.pos h2
      simpa [Input.new] using this
    have h5 : rest = [] := by
      rw [h3, List.length_append] at h4
      exact List.length_eq_zero_iff.mp (by omega)
    show bs = wire t v
    rw [h3, h5, List.append_nil]

example : Exact true (.tuple (.cons .usize (.cons (.seq .vec .char) .nil))) ∧
    ¬ Exact true (.option .usize) ∧ Exact true (.option .infallible) ∧
    Exact true (.sizedSlice (.unit .unit) 4) :=
  ⟨fun _ => ⟨trivial, fun _ => ⟨trivial, trivial⟩⟩, fun h => h.2 rfl trivial, ⟨trivial, fun _ h => h⟩,
    .inr trivial⟩

/-- C55, exactly, by types: decoding takes what encoding writes for all values just for these types. -/
theorem C55_exactly (t : Ty) (ht : t.WF) :
    Exact false t ↔ ∀ (i i' : Input) (v : t.Val), t.decode i = (.ok v, i') →
      i' = ⟨i.buf, i.pos + (wire t v).length⟩ := by
  rw [exact_iff false t ht]
  constructor
  · intro h i i' v hd
    obtain ⟨bs, rest, hr, hA, hi⟩ := (C52_accepted t ht i i' v).mp hd
    have e : bs.length = (wire t v).length := h bs v hA
    rw [← e]
    exact hi
  · intro h bs v hA
    have h2 := h (Input.new bs) _ v
      ((C52_accepted t ht (Input.new bs) ⟨bs, bs.length⟩ v).mpr ⟨bs, [], by simp [Input.new], hA, by simp [Input.new]⟩)
    have := congrArg Input.pos h2
    show bs.length = _
    simpa [Input.new] using this

example : Exact false (.option .bool) ∧ ¬ Exact false (.sizedSlice .bool 3) ∧
    ¬ Exact false (.hashSet .bool) := ⟨⟨rfl, fun h => nomatch h⟩, (fun h => nomatch h), fun h => h⟩

/-- C18, exactly. `MAX_ENCODED_SIZE` bounds every encoding just if the longest encoding, which is computed
from the format (C116), is no longer. -/
theorem C18_exactly (sizeOf : Ty → Nat) (t : Ty) (ht : t.HasSized) :
    (∀ n, longest t = some n → n ≤ t.maxSize sizeOf) ↔
      ∀ (v : t.Val) (o o' : Output), o.position ≤ o.capacity → t.encode v o = (.ok (), o') →
        o'.position ≤ o.position + t.maxSize sizeOf := by
  have h := C116_longest_partial t ht
  cases hl : longest t with
  | none =>
    rw [hl] at h
    exact ⟨fun _ v o o' ho he => absurd he (h v o o' ho), fun _ n e => nomatch e⟩
  | some n =>
    rw [hl] at h
    obtain ⟨⟨v, o', h1, h2⟩, h3⟩ := h
    constructor
    · intro hm v o o' ho he
      have := h3 v o o' ho he
      have := hm n rfl
      omega
    · intro hb m e
      cases e
      have := hb v _ o' (Nat.zero_le _) h1
      have h0 : (Output.new (List.replicate n 0)).position = 0 := rfl
      omega

example (sizeOf : Ty → Nat) : (Ty.sizedSlice .bool 3).HasSized ∧
    longest (.sizedSlice .bool 3) = some 5 ∧ (Ty.sizedSlice .bool 3).maxSize sizeOf = 3 :=
  ⟨trivial, rfl, rfl⟩

/-- C116, exactly. There is a value that takes all of `MAX_ENCODED_SIZE`, and none that takes more, just if
the longest encoding has this length. -/
theorem C116_exactly (sizeOf : Ty → Nat) (t : Ty) (ht : t.HasSized) :
    longest t = some (t.maxSize sizeOf) ↔
      (∃ v o', t.encode v (Output.new (List.replicate (t.maxSize sizeOf) 0)) = (.ok (), o') ∧
        o'.position = t.maxSize sizeOf) ∧
      ∀ (v : t.Val) (o o' : Output), o.position ≤ o.capacity → t.encode v o = (.ok (), o') →
        o'.position ≤ o.position + t.maxSize sizeOf := by
  have h := C116_longest_partial t ht
  cases hl : longest t with
  | none =>
    rw [hl] at h
    refine ⟨(fun e => nomatch e), fun ⟨⟨v, o', h1, _⟩, _⟩ => absurd h1 (h v _ o' (Nat.zero_le _))⟩
  | some n =>
    rw [hl] at h
    obtain ⟨⟨v, o', h1, h2⟩, h3⟩ := h
    constructor
    · intro e
      cases e
      exact ⟨⟨v, o', h1, h2⟩, h3⟩
    · rintro ⟨⟨u, p, h4, h5⟩, h6⟩
      have := h6 v _ o' (Nat.zero_le _) h1
      have h0 : (Output.new (List.replicate n 0)).position = 0 := rfl
      have h0' : (Output.new (List.replicate (t.maxSize sizeOf) 0)).position = 0 := rfl
      have := h3 u _ p (Nat.zero_le _) h4
      have : n = t.maxSize sizeOf := by omega
      rw [this]

example (sizeOf : Ty → Nat) : (Ty.option .usize).HasSized ∧
    longest (.option .usize) = some ((Ty.option .usize).maxSize sizeOf) := ⟨trivial, rfl⟩

end Oct.Props
