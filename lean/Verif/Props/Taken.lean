import Verif.Proofs.Furthest
import Verif.Props.Language
import Verif.Props.Stops
/-
C19, exactly: how many octets decoding takes at most, and of which types `MAX_ENCODED_SIZE` bounds it.
-/
namespace Oct.Props
open Oct Spec

/-- C19. How many octets are taken for a value: no more than `mostTaken` says, and as many for some. -/
theorem C19_most_taken (t : Ty) (ht : t.WF) (hs : t.HasSized) :
    (∀ (i i' : Input) (v : t.Val), t.decode i = (.ok v, i') →
      ∃ l, mostTaken t = some l ∧ i'.position ≤ i.position + l) ∧
    ∀ l, mostTaken t = some l → ∃ bs v, t.decode (Input.new bs) = (.ok v, ⟨bs, l⟩) := by
  have h := taken_spec t hs
  constructor
  · intro i i' v hd
    obtain ⟨bs, rest, _, hA, rfl⟩ := (C52_accepted t ht i i' v).mp hd
    obtain ⟨l, e, hl⟩ := h.le hA
    exact ⟨l, e, Nat.add_le_add_left hl _⟩
  · intro l e
    rw [e] at h
    obtain ⟨⟨⟨bs, v⟩, hA, hl⟩, _⟩ := h
    refine ⟨bs, v, (C52_accepted t ht (Input.new bs) ⟨bs, l⟩ v).mpr ⟨bs, [], by simp [Input.new], hA, ?_⟩⟩
    simp only at hl
    simp [Input.new, hl]

example : (Ty.sizedSlice (.num (.int .u8)) 3).WF ∧ (Ty.sizedSlice (.num (.int .u8)) 3).HasSized ∧
    mostTaken (.sizedSlice (.num (.int .u8)) 3) = some 5 := ⟨trivial, trivial, rfl⟩

/-- C19. How many octets are taken whatever the outcome: no more than `furthest` says, and as many for
some octets. -/
theorem C19_furthest (t : Ty) (ht : t.WF) (hs : t.HasSized) :
    (∀ i : Input, (t.decode i).2.position ≤ i.position + furthest t) ∧
    ∃ bs, (t.decode (Input.new bs)).2 = ⟨bs, furthest t⟩ := by
  refine ⟨fun i => Ty.decode_furthest t ht hs i (.inl rfl), ?_⟩
  obtain ⟨bs, h, hl⟩ := furthest_attained t ht hs
  refine ⟨bs, ?_⟩
  have e : (⟨bs, furthest t⟩ : Input) = ⟨(Input.new bs).buf, (Input.new bs).pos + bs.length⟩ := by
    simp [Input.new, hl]
  have hb : (Input.new bs).buf.drop (Input.new bs).pos = bs ++ [] := by simp [Input.new]
  rcases h with ⟨v, h⟩ | ⟨x, h⟩ | ⟨s, h⟩
  · rw [(C52_accepted t ht (Input.new bs) _ v).mpr ⟨bs, [], hb, h, e⟩]
  · rw [(C53_rejected t ht (Input.new bs) _ x).mpr ⟨bs, [], hb, h, e⟩]
  · rw [(C128_stops t ht (Input.new bs) _ s).mpr ⟨bs, [], hb, h, e⟩]

example : furthest (.sizedStr 4) = 65537 ∧ furthest (.enum (.int .u8) .nil) = 1 ∧
    furthest (.array (.tuple (.cons .usize (.cons .infallible .nil))) 4) = 2 := ⟨rfl, rfl, rfl⟩

/-- C19, exactly, for successful decodings: `MAX_ENCODED_SIZE` bounds them just if it is no less than what is
computed from the format. -/
theorem C19_ok_exactly (sizeOf : Ty → Nat) (t : Ty) (ht : t.WF) (hs : t.HasSized) :
    (∀ l, mostTaken t = some l → l ≤ t.maxSize sizeOf) ↔
      ∀ (i i' : Input) (v : t.Val), t.decode i = (.ok v, i') →
        i'.position ≤ i.position + t.maxSize sizeOf := by
  obtain ⟨h1, h2⟩ := C19_most_taken t ht hs
  constructor
  · intro h i i' v hd
    obtain ⟨l, e, hl⟩ := h1 i i' v hd
    exact Nat.le_trans hl (Nat.add_le_add_left (h l e) _)
  · intro h l e
    obtain ⟨bs, v, hd⟩ := h2 l e
    have := h _ _ v hd
    have h0 : (Input.new bs).position = 0 := rfl
    rw [h0, Nat.zero_add] at this
    exact this

/-- C19, exactly, for all outcomes. -/
theorem C19_exactly (sizeOf : Ty → Nat) (t : Ty) (ht : t.WF) (hs : t.HasSized) :
    furthest t ≤ t.maxSize sizeOf ↔
      ∀ i : Input, (t.decode i).2.position ≤ i.position + t.maxSize sizeOf := by
  obtain ⟨h1, bs, h2⟩ := C19_furthest t ht hs
  constructor
  · intro h i
    exact Nat.le_trans (h1 i) (Nat.add_le_add_left h _)
  · intro h
    have := h (Input.new bs)
    have h0 : (Input.new bs).position = 0 := rfl
    rw [h2, h0, Nat.zero_add] at this
    exact this

example (sizeOf : Ty → Nat) : furthest (.option .usize) ≤ (Ty.option .usize).maxSize sizeOf ∧
    ¬ furthest (.sizedStr 4) ≤ (Ty.sizedStr 4).maxSize sizeOf :=
  ⟨Nat.le_refl _, show ¬ 65537 ≤ 6 by decide⟩

end Oct.Props
