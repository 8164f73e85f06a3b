import Verif.Proofs.Taken
/- Decoding does get as far as it can. -/
namespace Oct
open Spec
set_option linter.unusedVariables false

/-- Some octets of this length after which decoding ends: with a value, with an error, or else. -/
def EndsAt {α : Type} (A : List Byte → α → Prop) (R : List Byte → DecErr → Prop) (S : List Byte → Stop → Prop)
    (n : Nat) : Prop :=
  ∃ bs, ((∃ a, A bs a) ∨ (∃ e, R bs e) ∨ ∃ s, S bs s) ∧ bs.length = n

namespace EndsAt
variable {α β : Type} {A : List Byte → α → Prop} {R : List Byte → DecErr → Prop} {S : List Byte → Stop → Prop}
  {B : List Byte → β → Prop} {R' : List Byte → DecErr → Prop} {S' : List Byte → Stop → Prop}
  {L : Option Nat} {F F' n : Nat}

theorem value (h : MostTaken A (some n)) : EndsAt A R S n := by
  obtain ⟨⟨⟨bs, a⟩, hA, hl⟩, _⟩ := h
  exact ⟨bs, .inl ⟨a, hA⟩, hl⟩

/-- The same for something else, with octets in front. -/
theorem image (h : EndsAt A R S n) (p : List Byte) (hA : ∀ bs a, A bs a → ∃ b, B (p ++ bs) b)
    (hR : ∀ bs e, R bs e → ∃ e', R' (p ++ bs) e') (hS : ∀ bs s, S bs s → ∃ s', S' (p ++ bs) s') :
    EndsAt B R' S' (p.length + n) := by
  obtain ⟨bs, h, rfl⟩ := h
  refine ⟨p ++ bs, ?_, List.length_append⟩
  rcases h with ⟨a, h⟩ | ⟨e, h⟩ | ⟨s, h⟩
  · exact .inl (hA bs a h)
  · exact .inr (.inl (hR bs e h))
  · exact .inr (.inr (hS bs s h))

theorem same (h : EndsAt A R S n) (hA : ∀ bs a, A bs a → ∃ b, B bs b)
    (hR : ∀ bs e, R bs e → ∃ e', R' bs e') (hS : ∀ bs s, S bs s → ∃ s', S' bs s') : EndsAt B R' S' n := by
  have := h.image (B := B) (R' := R') (S' := S') [] hA hR hS
  simpa using this

/-- One part after another. -/
theorem two (hm : MostTaken A L) (h : EndsAt A R S F) (h' : EndsAt B R' S' F') :
    EndsAt (fun bs (p : α × β) => Both A B bs p.1 p.2) (PartRejected A R R') (PartStops A S S') (far F L F') := by
  obtain ⟨bs, h, hl⟩ := h
  obtain ⟨cs, h', hl'⟩ := h'
  have first : L = none ∨ (∃ l, L = some l ∧ l < bs.length) →
      EndsAt (fun bs (p : α × β) => Both A B bs p.1 p.2) (PartRejected A R R') (PartStops A S S') F := by
    intro hL
    refine ⟨bs, ?_, hl⟩
    rcases h with ⟨a, h⟩ | ⟨e, h⟩ | ⟨s, h⟩
    · obtain ⟨l, e, hle⟩ := hm.le h
      rcases hL with hL | ⟨l', hL, hlt⟩
      · rw [hL] at e; cases e
      · rw [hL] at e; cases e; omega
    · exact .inr (.inl ⟨e, .inl h⟩)
    · exact .inr (.inr ⟨s, .inl h⟩)
  cases L with
  | none => exact first (.inl rfl)
  | some l =>
    show EndsAt _ _ _ (max F (l + F'))
    by_cases hlt : l + F' < F
    · rw [Nat.max_eq_left (by omega)]
      exact first (.inr ⟨l, rfl, by omega⟩)
    · rw [Nat.max_eq_right (by omega)]
      obtain ⟨⟨⟨ds, a⟩, hA, hd⟩, _⟩ := hm
      refine ⟨ds ++ cs, ?_, by rw [List.length_append, hl', show ds.length = l from hd]⟩
      rcases h' with ⟨b, h⟩ | ⟨e, h⟩ | ⟨s, h⟩
      · exact .inl ⟨(a, b), ds, cs, rfl, hA, h⟩
      · exact .inr (.inl ⟨e, .inr ⟨a, ds, cs, rfl, hA, h⟩⟩)
      · exact .inr (.inr ⟨s, .inr ⟨a, ds, cs, rfl, hA, h⟩⟩)

/-- A number of elements. -/
theorem items (hm : MostTaken A L) (h : EndsAt A R S F) (k : Nat) :
    EndsAt (fun bs (l : Items α k) => Each A bs l.val) (ItemRejected A R k) (ItemStops A S k)
      (farItems F L k) := by
  unfold farItems
  by_cases hk : k = 0
  · subst hk
    exact ⟨[], .inl ⟨⟨[], rfl⟩, .nil⟩, rfl⟩
  rw [if_neg hk]
  obtain ⟨bs, h, hl⟩ := h
  cases L with
  | none =>
    refine ⟨bs, ?_, by simpa using hl⟩
    rcases h with ⟨a, h⟩ | ⟨e, h⟩ | ⟨s, h⟩
    · exact (hm (bs, a) h).elim
    · exact .inr (.inl ⟨_, [], [], bs, e, Nat.pos_of_ne_zero hk, rfl, .nil, h, rfl⟩)
    · exact .inr (.inr ⟨s, [], [], bs, Nat.pos_of_ne_zero hk, rfl, .nil, h⟩)
  | some l =>
    obtain ⟨⟨⟨ds, a⟩, hA, hd⟩, _⟩ := hm
    obtain ⟨cs, hc, hcl⟩ := MostTaken.each_replicate (show A ds a from hA) (k - 1)
    have hlen : (List.replicate (k - 1) a).length < k := by rw [List.length_replicate]; omega
    refine ⟨cs ++ bs, ?_, by
      rw [List.length_append, hcl, hl, show ds.length = l from hd]; rfl⟩
    rcases h with ⟨b, h⟩ | ⟨e, h⟩ | ⟨s, h⟩
    · refine .inl ⟨⟨List.replicate (k - 1) a ++ [b], by
        rw [List.length_append, List.length_replicate]; simp; omega⟩, ?_⟩
      have : ∀ {us l}, Each A us l → Each A (us ++ bs) (l ++ [b]) := by
        intro us l hE
        induction hE with
        | nil =>
          have := Each.cons h Each.nil
          simpa using this
        | cons hA _ ih =>
          rw [List.append_assoc]
          exact .cons hA ih
      exact this hc
    · exact .inr (.inl ⟨_, _, cs, bs, e, hlen, rfl, hc, h, rfl⟩)
    · exact .inr (.inr ⟨s, _, cs, bs, hlen, rfl, hc, h⟩)

end EndsAt

theorem reprEncodable_zero (r : Repr) : ReprEncodable r 0 ∧ r.InRange 0 := by
  cases r with
  | int k => cases k <;> decide
  | usize => decide
  | isize => decide

mutual

theorem furthest_attained : (t : Ty) → t.WF → t.HasSized →
    EndsAt (Accepts t) (Rejects t) (Stops t) (furthest t)
  | .num k, _, h => .value (taken_spec (.num k) h)
  | .bool, _, h => .value (taken_spec .bool h)
  | .char, _, h => .value (taken_spec .char h)
  | .usize, _, h => .value (taken_spec .usize h)
  | .isize, _, h => .value (taken_spec .isize h)
  | .nonZero r, _, h => .value (taken_spec (.nonZero r) h)
  | .unit k, _, h => .value (taken_spec (.unit k) h)
  | .infallible, _, _ => ⟨[], .inr (.inr ⟨.infallible, rfl, rfl⟩), rfl⟩
  | .wrap _ t, hw, h => furthest_attained t hw h
  | .array t n, hw, h => (furthest_attained t hw h).items (taken_spec t h) n
  | .seq _ _, _, h => nomatch h
  | .hashMap _ _, _, h => nomatch h
  | .hashSet _, _, h => nomatch h
  | .option t, hw, h => (furthest_attained t hw h).image [1] (fun bs v hv => ⟨some v, 1, bs, by decide, rfl, hv⟩)
      (fun bs e he => ⟨e, 1, bs, by decide, rfl, he⟩) (fun bs s hs => ⟨s, 1, bs, by decide, rfl, hs⟩)
  | .result t e, hw, h => by
    show EndsAt _ _ _ (1 + max (furthest t) (furthest e))
    by_cases hm : furthest e ≤ furthest t
    · rw [Nat.max_eq_left hm]
      exact (furthest_attained t hw.1 h.1).image [0] (fun bs v hv => ⟨.ok v, bs, rfl, hv⟩)
        (fun bs e he => ⟨_, 0, bs, e, rfl, rfl, .inl ⟨rfl, he⟩⟩) (fun bs s hs => ⟨s, 0, bs, rfl, .inl ⟨rfl, hs⟩⟩)
    · rw [Nat.max_eq_right (by omega)]
      exact (furthest_attained e hw.2 h.2).image [1] (fun bs v hv => ⟨.err v, 1, bs, by decide, rfl, hv⟩)
        (fun bs e he => ⟨_, 1, bs, e, rfl, rfl, .inr ⟨by decide, he⟩⟩)
        (fun bs s hs => ⟨s, 1, bs, rfl, .inr ⟨by decide, hs⟩⟩)
  | .bound t, hw, h => (furthest_attained t hw h).image [0] (fun bs v hv => ⟨.included v, bs, rfl, hv⟩)
      (fun bs e he => ⟨_, .inl ⟨0, bs, e, .inl rfl, rfl, rfl, he⟩⟩) (fun bs s hs => ⟨s, 0, bs, .inl rfl, rfl, hs⟩)
  | .range t, hw, h => (EndsAt.two (taken_spec t h) (furthest_attained t hw h) (furthest_attained t hw h)).same
      (fun bs p hp => ⟨⟨p.1, p.2⟩, hp⟩) (fun bs e he => ⟨e, he⟩) (fun bs s hs => ⟨s, hs⟩)
  | .rangeInclusive t, hw, h =>
      (EndsAt.two (taken_spec t h) (furthest_attained t hw h) (furthest_attained t hw h)).same
      (fun bs p hp => ⟨⟨p.1, p.2, false⟩, rfl, hp⟩) (fun bs e he => ⟨e, he⟩) (fun bs s hs => ⟨s, hs⟩)
  | .lock _ t, hw, h => (furthest_attained t hw h).same (fun bs v hv => ⟨⟨false, v⟩, rfl, hv⟩)
      (fun bs e he => ⟨e, he⟩) (fun bs s hs => ⟨s, hs⟩)
  | .refCell t, hw, h => (furthest_attained t hw h).same (fun bs v hv => ⟨⟨false, v⟩, rfl, hv⟩)
      (fun bs e he => ⟨e, he⟩) (fun bs s hs => ⟨s, hs⟩)
  | .duration, _, h => .value (taken_spec .duration h)
  | .systemTime p, _, h => .value (taken_spec (.systemTime p) h)
  | .ipv4, _, h => .value (taken_spec .ipv4 h)
  | .ipv6, _, h => .value (taken_spec .ipv6 h)
  | .ipAddr, _, h => .value (taken_spec .ipAddr h)
  | .socketAddrV4, _, h => .value (taken_spec .socketAddrV4 h)
  | .socketAddrV6, _, h => .value (taken_spec .socketAddrV6 h)
  | .socketAddr, _, h => .value (taken_spec .socketAddr h)
  | .str _, _, h => nomatch h
  | .cStr _, _, h => nomatch h
  | .sizedStr n, _, _ => by
    have hl : (List.replicate 65535 (97 : Byte)).length = 65535 := List.length_replicate
    refine ⟨leBytes 2 65535 ++ List.replicate 65535 97, ?_, by rw [List.length_append, leBytes_length, hl]; rfl⟩
    by_cases hn : 65535 ≤ n
    · refine .inl ⟨⟨List.replicate 65535 97, valid_replicate _, by rw [hl]; exact hn⟩, ?_, ?_⟩
      · exact Nat.le_of_eq hl
      · show _ = leBytes 2 (List.replicate 65535 (97 : Byte)).length ++ List.replicate 65535 97
        rw [hl]
    · refine .inr (.inl ⟨_, List.replicate 65535 97, Nat.le_of_eq hl, by rw [hl], .inl ⟨?_, rfl⟩⟩)
      rw [hl]; omega
  | .sizedSlice t n, hw, h => ((furthest_attained t hw h).items (taken_spec t h) n).image (leBytes 2 0)
      (fun bs l hl => ⟨⟨[], Nat.zero_le _⟩, l.val, bs, l.property, Nat.zero_le _, rfl, hl, List.nil_prefix⟩)
      (fun bs e he => ⟨e, 0, bs, Nat.zero_le _, rfl, .inr ⟨Nat.zero_le _, he⟩⟩)
      (fun bs s hs => ⟨s, 0, bs, Nat.zero_le _, Nat.zero_le _, rfl, hs⟩)
  | .tuple fs, hw, h => furthestFields_attained fs hw h
  | .struct fs, hw, h => (furthestFields_attained fs hw h).same (fun bs v hv => ⟨v, hv⟩)
      (fun bs e he => ⟨_, e, he, rfl⟩) (fun bs s hs => ⟨s, hs⟩)
  | .enum r vs, hw, h => by
    rcases furthestVariants_attained vs hw.2.2 h r (explicitDiscs vs) 0 (by simp) with ⟨h0, hno⟩ | ⟨k, bs, hk, hr, hl, he⟩
    · have hz := reprEncodable_zero r
      show EndsAt _ _ _ (r.bytes + furthestVariants r (explicitDiscs vs) vs 0)
      rw [h0]
      refine ⟨reprWire r 0, .inr (.inl ⟨_, .inr ⟨0, hz.1, hz.2, rfl, rfl, fun j hj e => ?_⟩⟩), reprWire_length _ _⟩
      apply hno j hj
      rw [Nat.zero_add, ← e]
      exact hz.1
    · have hin : r.InRange (discOf (explicitDiscs vs) k) := by
        rw [explicitDiscs_length] at hk
        exact (hw.2.1 _ (by
          rw [discs_eq_discOf vs]; exact List.mem_map.mpr ⟨k, List.mem_range.mpr hk, rfl⟩)).1
      refine ⟨reprWire r (discOf (explicitDiscs vs) k) ++ bs, ?_, by
        rw [List.length_append, reprWire_length, hl]; rfl⟩
      rcases he with he | ⟨e, he⟩ | ⟨s, he⟩
      · exact .inl he
      · exact .inr (.inl ⟨_, .inl ⟨_, bs, e, hr, hin, rfl, he, rfl⟩⟩)
      · exact .inr (.inr ⟨s, _, bs, hr, hin, rfl, he⟩)

theorem furthestFields_attained : (fs : Fields) → fs.WF → fs.HasSized →
    EndsAt (AcceptsFields fs) (RejectsFields fs) (StopsFields fs) (furthestFields fs)
  | .nil, _, h => .value (takenFields_spec .nil h)
  | .cons t fs, hw, h => EndsAt.two (taken_spec t h.1) (furthest_attained t hw.1 h.1)
      (furthestFields_attained fs hw.2 h.2)

theorem furthestVariants_attained : (vs : Variants) → vs.WF → vs.HasSized → (r : Repr) →
    (ex : List (Option Nat)) → (j : Nat) → ex.length = j + (explicitDiscs vs).length →
    (furthestVariants r ex vs j = 0 ∧ ∀ k < (explicitDiscs vs).length, ¬ ReprEncodable r (discOf ex (j + k))) ∨
    ∃ k bs, k < ex.length ∧ ReprEncodable r (discOf ex k) ∧ bs.length = furthestVariants r ex vs j ∧
      ((∃ v, AcceptsVariants r ex vs j (reprWire r (discOf ex k) ++ bs) v) ∨
        (∃ e, RejectsVariants ex vs j (discOf ex k) bs e) ∨ ∃ s, StopsVariants ex vs j (discOf ex k) bs s)
  | .nil, _, _, _, _, _, _ => .inl ⟨rfl, fun k hk => nomatch hk⟩
  | .cons d fs vs, hw, h, r, ex, j, hj => by
    have hj' : ex.length = j + 1 + (explicitDiscs vs).length := by
      rw [hj, explicitDiscs, List.length_cons]; omega
    have up : ∀ {k bs}, ((∃ v, AcceptsVariants r ex vs (j + 1) (reprWire r (discOf ex k) ++ bs) v) ∨
        (∃ e, RejectsVariants ex vs (j + 1) (discOf ex k) bs e) ∨
        ∃ s, StopsVariants ex vs (j + 1) (discOf ex k) bs s) →
        ((∃ v, AcceptsVariants r ex (.cons d fs vs) j (reprWire r (discOf ex k) ++ bs) v) ∨
        (∃ e, RejectsVariants ex (.cons d fs vs) j (discOf ex k) bs e) ∨
        ∃ s, StopsVariants ex (.cons d fs vs) j (discOf ex k) bs s) := by
      rintro k bs (⟨v, h⟩ | ⟨e, h⟩ | ⟨s, h⟩)
      · exact .inl ⟨.inr v, h⟩
      · exact .inr (.inl ⟨e, .inr h⟩)
      · exact .inr (.inr ⟨s, .inr h⟩)
    have ih := furthestVariants_attained vs hw.2 h.2 r ex (j + 1) hj'
    unfold furthestVariants
    by_cases hr : ReprEncodable r (discOf ex j)
    · rw [if_pos hr]
      right
      by_cases hm : furthestVariants r ex vs (j + 1) ≤ furthestFields fs
      · rw [Nat.max_eq_left hm]
        obtain ⟨bs, hb, hl⟩ := furthestFields_attained fs hw.1 h.1
        refine ⟨j, bs, by omega, hr, hl, ?_⟩
        rcases hb with ⟨v, h⟩ | ⟨e, h⟩ | ⟨s, h⟩
        · exact .inl ⟨.inl v, hr, bs, rfl, h⟩
        · exact .inr (.inl ⟨e, .inl ⟨rfl, h⟩⟩)
        · exact .inr (.inr ⟨s, .inl ⟨rfl, h⟩⟩)
      · rw [Nat.max_eq_right (by omega)]
        rcases ih with ⟨h0, _⟩ | ⟨k, bs, hk, hr', hl, he⟩
        · omega
        · exact ⟨k, bs, hk, hr', hl, up he⟩
    · rw [if_neg hr, Nat.max_eq_right (Nat.zero_le _)]
      rcases ih with ⟨h0, hno⟩ | ⟨k, bs, hk, hr', hl, he⟩
      · left
        refine ⟨h0, fun k hk => ?_⟩
        cases k with
        | zero => exact hr
        | succ k =>
          have := hno k (by rw [explicitDiscs, List.length_cons] at hk; omega)
          rwa [show j + (k + 1) = j + 1 + k by omega]
      · exact .inr ⟨k, bs, hk, hr', hl, up he⟩

end

end Oct
