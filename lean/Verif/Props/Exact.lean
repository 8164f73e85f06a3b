import Verif.Proofs.Balanced
import Verif.Proofs.Graph
import Verif.Props.Decoding
import Verif.Props.Language
import Verif.Props.Sharing
/-
C09, C10, C15, C45, C46 and C55, exactly: which values survive the round trip, and when decoding takes what
encoding writes.
-/
namespace Oct.Props
open Oct Spec
set_option linter.unusedVariables false

/-- C55, exactly. Decoding a value never takes fewer octets than encoding it writes, and it takes as
many exactly when the value has no map or set in it, and no sized slice that is neither full nor of items
without octets. -/
theorem C55_balanced_exactly (t : Ty) (ht : t.WF) (i i' : Input) (v : t.Val)
    (hd : t.decode i = (.ok v, i')) :
    i.pos + (wire t v).length ≤ i'.pos ∧
    (i'.pos = i.pos + (wire t v).length ↔ Supported t v) := by
  obtain ⟨bs, rest, hr, hA, rfl⟩ := (C52_accepted t ht i i' v).mp hd
  obtain ⟨h1, h2⟩ := accepts_weighs t bs v hA
  refine ⟨Nat.add_le_add_left h1 _, ?_⟩
  rw [← h2]
  show i.pos + bs.length = _ ↔ _
  omega

/-- A sized slice with room left, of `u8` and of `()`. -/
example :
    (Ty.sizedSlice (.num (.int .u8)) 2).decode (Input.new [1, 0, 7, 9])
      = (.ok ⟨[7#8], by decide⟩, ⟨[1, 0, 7, 9], 4⟩) ∧
    ¬ Supported (.sizedSlice (.num (.int .u8)) 2) ⟨[7#8], by decide⟩ ∧
    (Ty.sizedSlice (.unit .unit) 2).decode (Input.new [1, 0, 7, 9])
      = (.ok ⟨[()], by decide⟩, ⟨[1, 0, 7, 9], 2⟩) ∧
    Supported (.sizedSlice (.unit .unit) 2) ⟨[()], by decide⟩ :=
  ⟨rfl, fun h => h.1.elim (fun h => nomatch h) fun h => h trivial, rfl, .inr id, fun _ _ => trivial⟩

/-- C09, exactly. Whatever follows it in the stream, what encoding has appended decodes to the value (up
to what the format does not carry), taking exactly the encoding, if and only if the value has no map or
set in it, and no sized slice that is neither full nor of items without octets. -/
theorem C09_exactly (t : Ty) (ht : t.WF) (v : t.Val) (o o' : Output)
    (ho : o.position ≤ o.capacity) (h : t.encode v o = (.ok (), o')) (rest : List Byte) :
    t.decode ⟨o'.asSlice ++ rest, o.position⟩
      = (.ok (carried t v), ⟨o'.asSlice ++ rest, o'.position⟩) ↔ Supported t v := by
  constructor
  · intro hd
    obtain ⟨hv, hl, rfl⟩ := Ty.encode_ok t v ho h
    have hp := (C55_balanced_exactly t ht _ _ _ hd).2
    rw [wire_carried, supported_carried] at hp
    exact hp.mp (Output.put_obs ho hl).1
  · exact fun hs => C09_round_trip_partial t ht v hs o o' ho h rest

/-- C09: nor does a value with a map or set in it come back in another order, or in any other way that
has as many octets: whatever a whole encoding is decoded as, it has fewer octets than the original
unless it is free of those parts. -/
theorem C09_whatever (t : Ty) (ht : t.WF) (v v' : t.Val) (o o' : Output)
    (ho : o.position ≤ o.capacity) (h : t.encode v o = (.ok (), o')) (rest : List Byte)
    (hd : t.decode ⟨o'.asSlice ++ rest, o.position⟩ = (.ok v', ⟨o'.asSlice ++ rest, o'.position⟩)) :
    (wire t v').length ≤ (wire t v).length ∧
    ((wire t v').length = (wire t v).length ↔ Supported t v') := by
  obtain ⟨hv, hl, rfl⟩ := Ty.encode_ok t v ho h
  have hp := C55_balanced_exactly t ht _ _ _ hd
  have he : (o.put (wire t v)).position = o.pos + (wire t v).length := (Output.put_obs ho hl).1
  rw [← hp.2]
  have h1 := hp.1
  show _ ∧ (_ ↔ (o.put (wire t v)).position = o.pos + (wire t v').length)
  have h1' : o.pos + (wire t v').length ≤ (o.put (wire t v)).position := h1
  omega

example : ∃ (v v' : (Ty.hashSet (.num (.int .u16))).Val) (o' : Output),
    (Ty.hashSet (.num (.int .u16))).encode v (Output.new [0, 0, 0, 0]) = (.ok (), o') ∧
    (Ty.hashSet (.num (.int .u16))).decode ⟨o'.asSlice ++ [], 0⟩
      = (.ok v', ⟨o'.asSlice ++ [], o'.position⟩) :=
  ⟨⟨[1#16, 7#16], by decide⟩, ⟨[7#16], by decide⟩, _, rfl, rfl⟩

/-- C15, second half, exactly: re-encoding a decoded value gives octets that decode to the same value
again if and only if the value is of that kind. -/
theorem C15_reencode_exactly (t : Ty) (ht : t.WF) (i i' : Input) (v : t.Val)
    (h : t.decode i = (.ok v, i')) (hm : AllParts NotMinTime t v)
    (o : Output) (ho : o.position ≤ o.capacity) (hroom : (wire t v).length ≤ o.remaining)
    (rest : List Byte) :
    (∃ o', t.encode v o = (.ok (), o') ∧
      t.decode ⟨o'.asSlice ++ rest, o.position⟩ = (.ok v, ⟨o'.asSlice ++ rest, o'.position⟩)) ↔
    Supported t v := by
  constructor
  · rintro ⟨o', he, hd⟩
    refine (C09_exactly t ht v o o' ho he rest).mp ?_
    rw [(C15_decoded_encodable_partial t i i' v h hm).2]
    exact hd
  · exact fun hs => C15_reencode_partial t ht i i' v h hm hs o ho hroom rest

example : AllParts NotMinTime (.option .bool) (some true) ∧ (Ty.option .bool).WF := ⟨⟨trivial, trivial⟩, trivial⟩

/-- All values of a stream, taken together, have at most the octets that are taken for them, and as many
exactly when each of them does. -/
theorem decodeAll_weighs : (ts : List Ty) → (∀ t ∈ ts, t.WF) → (xs : List (Sigma Ty.Val)) →
    (i i' : Input) → decodeAll ts i = (.ok xs, i') →
    i.pos + (xs.flatMap fun x => wire x.1 x.2).length ≤ i'.pos ∧
    (i'.pos = i.pos + (xs.flatMap fun x => wire x.1 x.2).length ↔ ∀ x ∈ xs, Supported x.1 x.2)
  | [], _, xs, i, i', h => by
    obtain ⟨rfl, rfl⟩ := Dec.pure_ok h
    exact ⟨Nat.le_refl _, (fun _ _ h => by cases h), fun _ => rfl⟩
  | t :: ts, ht, xs, i, i', h => by
    obtain ⟨v, i1, h1, h2⟩ := Dec.bind_ok h
    obtain ⟨vs, i2, h3, h4⟩ := Dec.bind_ok h2
    obtain ⟨rfl, rfl⟩ := Dec.pure_ok h4
    have a := C55_balanced_exactly t (ht t (by simp)) i i1 v h1
    have b := decodeAll_weighs ts (fun t h => ht t (by simp [h])) vs i1 i2 h3
    rw [List.flatMap_cons, List.length_append, List.forall_mem_cons]
    refine ⟨by have := a.1; have := b.1; show i.pos + ((wire t v).length + _) ≤ _; omega, ?_⟩
    rw [← a.2, ← b.2]
    have := a.1
    have := b.1
    show i2.pos = i.pos + ((wire t v).length + _) ↔ _
    omega

theorem encodeAll_ok : (l : List (Sigma Ty.Val)) → (o o' : Output) → o.position ≤ o.capacity →
    encodeAll l o = (.ok (), o') →
    o'.position = o.position + (l.flatMap fun x => wire x.1 x.2).length ∧ o'.position ≤ o'.capacity
  | [], o, o', ho, h => by
    cases h
    exact ⟨rfl, ho⟩
  | ⟨t, v⟩ :: l, o, o', ho, h => by
    obtain ⟨o1, h1, h2⟩ := Enc.bind_ok_inv h
    obtain ⟨hv, hl, rfl⟩ := Ty.encode_ok t v ho h1
    have hobs := Output.put_obs ho hl
    have hle : (o.put (wire t v)).position ≤ (o.put (wire t v)).capacity := by
      rw [hobs.1, hobs.2.1]
      have hr : (wire t v).length ≤ o.capacity - o.position := hl
      omega
    have := encodeAll_ok l _ o' hle h2
    refine ⟨?_, this.2⟩
    rw [List.flatMap_cons, List.length_append, this.1, hobs.1]
    exact Nat.add_assoc _ _ _

/-- C10, exactly. A sequence of values of any types, encoded into one stream, decodes as that sequence,
ending at the end of the encoded data, if and only if all of them are of that kind. -/
theorem C10_exactly (l : List (Sigma Ty.Val)) (hl : ∀ x ∈ l, x.1.WF) (o o' : Output)
    (ho : o.position ≤ o.capacity) (h : encodeAll l o = (.ok (), o')) (rest : List Byte) :
    decodeAll (l.map Sigma.fst) ⟨o'.asSlice ++ rest, o.position⟩
      = (.ok (l.map fun x => ⟨x.1, carried x.1 x.2⟩), ⟨o'.asSlice ++ rest, o'.position⟩) ↔
    ∀ x ∈ l, Supported x.1 x.2 := by
  constructor
  · intro hd
    have a := (decodeAll_weighs _ (by
      intro t ht
      obtain ⟨x, hx, rfl⟩ := List.mem_map.mp ht
      exact hl x hx) _ _ _ hd).2
    have b := (encodeAll_ok l o o' ho h).1
    rw [List.flatMap_map, List.forall_mem_map] at a
    simp only [wire_carried, supported_carried] at a
    exact a.mp b
  · exact fun hs => C10_streaming_partial l (fun x hx => ⟨hl x hx, hs x hx⟩) o o' ho h rest

example : ∃ o', encodeAll [⟨.bool, true⟩, ⟨.sizedSlice (.num (.int .u8)) 2, ⟨[7#8], by decide⟩⟩]
    (Output.new [0, 0, 0, 0]) = (.ok (), o') ∧
    ¬ Supported (.sizedSlice (.num (.int .u8)) 2) ⟨[7#8], by decide⟩ :=
  ⟨_, rfl, fun h => h.1.elim (fun h => nomatch h) fun h => h trivial⟩

/-- What is decoded from exactly the octets `w` is what they stand for. -/
theorem accepts_of_yields {t : Ty} (ht : t.WF) {w : List Byte} {v : t.Val}
    (h : Yields t.decode w (.ok v)) : Accepts t w v := by
  have h0 := h [] []
  obtain ⟨bs, rest, hr, hA, hi⟩ := (C52_accepted t ht _ _ v).mp h0
  have h1 : w = bs ++ rest := by simpa using hr
  have h2 : w.length = bs.length := by simpa using congrArg Input.pos hi
  have h3 : rest = [] := by
    have := congrArg List.length h1
    rw [List.length_append] at this
    exact List.eq_nil_of_length_eq_zero (by omega)
  rw [h3, List.append_nil] at h1
  rw [h1]
  exact hA

/-- C45 for sized slices, exactly: the encoding of a slice of at most `N` items decodes as a sized slice of
these items if and only if there are exactly `N` of them or they have no octets, and the items survive
the round trip themselves. -/
theorem C45_sized_slice_exactly (k : SeqKind) (t : Ty) (ht : t.WF) (n : Nat) (b : List t.Val)
    (hb : b.length ≤ n) (w : List Byte) (hw : EncodesTo (.seq k t) b w) :
    (∃ v : (Ty.sizedSlice t n).Val, Yields (Ty.sizedSlice t n).decode w (.ok v) ∧
      v.val = b.map (carried t)) ↔
    (b.length = n ∨ ¬ Eats t) ∧ ∀ x ∈ b, Supported t x := by
  constructor
  · rintro ⟨v, hv, he⟩
    obtain ⟨u, hu⟩ : ∃ u : (Ty.sizedSlice t n).Val, u.val = b := ⟨⟨b, hb⟩, rfl⟩
    subst hu
    have hc : v = carried (.sizedSlice t n) u := Subtype.ext he
    have hA := (accepts_weighs (.sizedSlice t n) w v (accepts_of_yields (t := .sizedSlice t n) ht hv)).2
    rw [hc, wire_carried, supported_carried] at hA
    refine hA.mp ?_
    exact congrArg List.length (encodesTo_iff.mp hw).2.symm
  · exact fun h => (C45_sized_slice_partial k t ht n b w hw).1 h.2 hb h.1

/-- C46 for sized slices, exactly: likewise for the encoding of a sized slice of another capacity. -/
theorem C46_sized_slice_exactly (t : Ty) (ht : t.WF) (m n : Nat) (v : (Ty.sizedSlice t n).Val)
    (hm : v.val.length ≤ m) (w : List Byte) (hw : EncodesTo (.sizedSlice t n) v w) :
    (∃ v' : (Ty.sizedSlice t m).Val, Yields (Ty.sizedSlice t m).decode w (.ok v') ∧
      v'.val = v.val.map (carried t)) ↔
    (v.val.length = m ∨ ¬ Eats t) ∧ ∀ x ∈ v.val, Supported t x :=
  C45_sized_slice_exactly .slice t ht m v.val hm w
    (((C39_sequences t v.val .slice .slice n v.property).2.encodesTo_iff w).mpr hw)

example : ∃ w, EncodesTo (.seq .vec (.unit .unit)) [()] w ∧ ¬ Eats (.unit .unit) :=
  ⟨_, encodesTo (t := .seq .vec (.unit .unit)) (v := [()]) ⟨by decide, fun _ _ => trivial⟩, id⟩

end Oct.Props
