import Verif.Proofs.Reach
import Verif.Proofs.Values
import Verif.Props.Samples
/-
C52 to C58: the language of the decoder.
-/
namespace Oct.Props
open Oct Spec
set_option linter.unusedVariables false

/-- C52. Decoding gives a value exactly when the octets ahead begin with a string that the format
describes as that value, and the position moves past that string. -/
theorem C52_accepted (t : Ty) (ht : t.WF) (i i' : Input) (v : t.Val) :
    t.decode i = (.ok v, i') ↔
    ∃ bs rest, i.buf.drop i.pos = bs ++ rest ∧ Accepts t bs v ∧ i' = ⟨i.buf, i.pos + bs.length⟩ := by
  rw [(Ty.decode_parses t ht i i').1 v]
  constructor
  · rintro ⟨bs, ⟨⟨rest, hr⟩, hi⟩, hA⟩
    exact ⟨bs, rest, hr, hA, hi⟩
  · rintro ⟨bs, rest, hr, hA, hi⟩
    exact ⟨bs, ⟨⟨rest, hr⟩, hi⟩, hA⟩

/-- The octets `2A 05 00` ahead: an `Option` of `u16`, with an unusual discriminant. -/
example : (Ty.option (.num (.int .u16))).decode ⟨[9, 0x2A, 5, 0, 9], 1⟩
    = (.ok (some (5#16 : BitVec 16)), ⟨[9, 0x2A, 5, 0, 9], 4⟩) :=
  (C52_accepted (.option (.num (.int .u16))) trivial _ _ _).mpr
    ⟨[0x2A, 5, 0], [9], rfl, ⟨0x2A, [5, 0], by decide, rfl, rfl⟩, rfl⟩

/-- C53. Decoding gives an error exactly when the octets ahead begin with a string that the format
describes as wrong in that way, and the position moves past that string. -/
theorem C53_rejected (t : Ty) (ht : t.WF) (i i' : Input) (e : DecErr) :
    t.decode i = (.err e, i') ↔
    ∃ bs rest, i.buf.drop i.pos = bs ++ rest ∧ Rejects t bs e ∧ i' = ⟨i.buf, i.pos + bs.length⟩ := by
  rw [(Ty.decode_parses t ht i i').2 e]
  constructor
  · rintro ⟨bs, ⟨⟨rest, hr⟩, hi⟩, hA⟩
    exact ⟨bs, rest, hr, hA, hi⟩
  · rintro ⟨bs, rest, hr, hA, hi⟩
    exact ⟨bs, ⟨⟨rest, hr⟩, hi⟩, hA⟩

/-- C53. Decoding gives neither a value nor an error, that is, it panics or has undefined behaviour,
exactly when nothing at the beginning of the octets ahead is accepted or rejected. -/
theorem C53_neither (t : Ty) (ht : t.WF) (i : Input) :
    ((∃ p, (t.decode i).1 = .panic p) ∨ ∃ u, (t.decode i).1 = .ub u) ↔
    ∀ bs rest, i.buf.drop i.pos = bs ++ rest →
      (∀ v, ¬ Accepts t bs v) ∧ ∀ e, ¬ Rejects t bs e := by
  constructor
  · intro h bs rest hr
    constructor
    · intro v hA
      have := (C52_accepted t ht i _ v).mpr ⟨bs, rest, hr, hA, rfl⟩
      rw [this] at h
      rcases h with ⟨_, h⟩ | ⟨_, h⟩ <;> exact absurd h (by simp)
    · intro e hA
      have := (C53_rejected t ht i _ e).mpr ⟨bs, rest, hr, hA, rfl⟩
      rw [this] at h
      rcases h with ⟨_, h⟩ | ⟨_, h⟩ <;> exact absurd h (by simp)
  · intro h
    cases hq : t.decode i with
    | mk q i' =>
      cases q with
      | ok v =>
        obtain ⟨bs, rest, hr, hA, _⟩ := (C52_accepted t ht i i' v).mp hq
        exact absurd hA ((h bs rest hr).1 v)
      | err e =>
        obtain ⟨bs, rest, hr, hA, _⟩ := (C53_rejected t ht i i' e).mp hq
        exact absurd hA ((h bs rest hr).2 e)
      | panic p => exact .inl ⟨p, rfl⟩
      | ub u => exact .inr ⟨u, rfl⟩

/-- The third element of `[NonZero<u8>; 3]` is rejected. -/
example : (Ty.array (.nonZero (.int .u8)) 3).decode ⟨[1, 2, 0, 7], 0⟩
    = (.err (.badItem (.item 2 .nonZero)), ⟨[1, 2, 0, 7], 3⟩) :=
  (C53_rejected (.array (.nonZero (.int .u8)) 3) trivial _ _ _).mpr
    ⟨[1, 2, 0], [7], rfl, ⟨[⟨1, by decide⟩, ⟨2, by decide⟩], [1, 2], [0], .nonZero, by decide, rfl,
      .cons (b := [1]) (bs := [2]) ⟨by decide, rfl⟩ (.cons (b := [2]) (bs := []) ⟨by decide, rfl⟩ .nil),
      ⟨rfl, rfl⟩, rfl⟩, rfl⟩

/-- C54, as far as it holds. For a type made without `bool`, `Option`, `Result` and `Duration`, and
without maps, sets and sized slices, all that decoding consumes for a value is the encoding of that
value: different octets never mean the same value. Missing: those types, see `C54_false_loose` and
`C54_false_unbalanced`. -/
theorem C54_canonical_partial (t : Ty) (ht : t.WF)
    (h : Everywhere (fun t => ¬ Loose t ∧ ¬ Unbalanced t) t) (i i' : Input) (v : t.Val)
    (hd : t.decode i = (.ok v, i')) :
    ∃ rest, i.buf.drop i.pos = wire t v ++ rest ∧ i' = ⟨i.buf, i.pos + (wire t v).length⟩ := by
  obtain ⟨bs, rest, hr, hA, hi⟩ := (C52_accepted t ht i i' v).mp hd
  have := accepts_like likeness_eq (fun t h hl => absurd hl h.1) (fun t h => h.2) t h bs v hA
  subst this
  exact ⟨rest, hr, hi⟩

/-- C54, as a statement about two inputs: if they decode to the same value, the octets consumed are
the same. -/
theorem C54_injective_partial (t : Ty) (ht : t.WF)
    (h : Everywhere (fun t => ¬ Loose t ∧ ¬ Unbalanced t) t) (a b : List Byte) (v : t.Val)
    (ha : t.decode (Input.new a) = (.ok v, ⟨a, a.length⟩))
    (hb : t.decode (Input.new b) = (.ok v, ⟨b, b.length⟩)) : a = b := by
  have key : ∀ c : List Byte, t.decode (Input.new c) = (.ok v, ⟨c, c.length⟩) → c = wire t v := by
    intro c hc
    obtain ⟨rest, hr, hi⟩ := C54_canonical_partial t ht h _ _ v hc
    have h1 : c = wire t v ++ rest := by simpa [Input.new] using hr
    have h2 : c.length = (wire t v).length := by
      have := congrArg Input.pos hi
      simpa [Input.new] using this
    have h3 : rest = [] := by
      have := congrArg List.length h1
      rw [List.length_append] at this
      exact List.eq_nil_of_length_eq_zero (by omega)
    rw [h3, List.append_nil] at h1
    exact h1
  rw [key a ha, key b hb]

/-- C54 is false of every loose type: some value of `bool`, `Duration` and every `Option` and `Result`
with an encodable content has two encodings. -/
theorem C54_false_loose :
    (Ty.bool.decode (Input.new [1]) = (.ok true, ⟨[1], 1⟩) ∧
      Ty.bool.decode (Input.new [2]) = (.ok true, ⟨[2], 1⟩)) ∧
    (Ty.duration.decode (Input.new [1, 0, 0, 0, 0, 0, 0, 0, 0, 0, 0, 0])
        = (.ok ⟨1#64, 0, by decide⟩, ⟨[1, 0, 0, 0, 0, 0, 0, 0, 0, 0, 0, 0], 12⟩) ∧
      Ty.duration.decode (Input.new [0, 0, 0, 0, 0, 0, 0, 0, 0, 0xCA, 0x9A, 0x3B])
        = (.ok ⟨1#64, 0, by decide⟩, ⟨[0, 0, 0, 0, 0, 0, 0, 0, 0, 0xCA, 0x9A, 0x3B], 12⟩)) ∧
    (∀ (t : Ty) (v : t.Val) (a : List Byte), t.WF →
      t.decode (Input.new a) = (.ok v, ⟨a, a.length⟩) → ∀ b : Byte, b ≠ 0 →
      (Ty.option t).decode (Input.new (b :: a)) = (.ok (some v), ⟨b :: a, a.length + 1⟩)) ∧
    (∀ (t e : Ty) (v : e.Val) (a : List Byte), t.WF → e.WF →
      e.decode (Input.new a) = (.ok v, ⟨a, a.length⟩) → ∀ b : Byte, b ≠ 0 →
      (Ty.result t e).decode (Input.new (b :: a)) = (.ok (.err v), ⟨b :: a, a.length + 1⟩)) := by
  have key : ∀ (t : Ty) (v : t.Val) (a : List Byte), t.WF →
      t.decode (Input.new a) = (.ok v, ⟨a, a.length⟩) → Accepts t a v := by
    intro t v a ht h
    obtain ⟨bs, rest, hr, hA, hi⟩ := (C52_accepted t ht _ _ v).mp h
    have h1 : a = bs ++ rest := by simpa [Input.new] using hr
    have h2 : a.length = bs.length := by
      have := congrArg Input.pos hi
      simpa [Input.new] using this
    have h3 : rest = [] := by
      have := congrArg List.length h1
      rw [List.length_append] at this
      exact List.eq_nil_of_length_eq_zero (by omega)
    rw [h3, List.append_nil] at h1
    rw [h1]; exact hA
  refine ⟨⟨rfl, rfl⟩, ⟨by decide +kernel, by decide +kernel⟩, ?_, ?_⟩
  · intro t v a ht h b hb
    refine (C52_accepted (.option t) ht _ _ _).mpr ⟨b :: a, [], by simp [Input.new],
      ⟨b, a, hb, rfl, key t v a ht h⟩, by simp [Input.new]⟩
  · intro t e v a ht he h b hb
    refine (C52_accepted (.result t e) ⟨ht, he⟩ _ _ _).mpr ⟨b :: a, [], by simp [Input.new],
      ⟨b, a, hb, rfl, key e v a he h⟩, by simp [Input.new]⟩

/-- C54 is false of maps, sets and sized slices: duplicate entries and the octets after the last
element are ignored. -/
theorem C54_false_unbalanced :
    ((Ty.hashMap (.num (.int .u8)) .bool).decode (Input.new [1, 0, 5, 1])
        = (.ok ⟨[(5#8, true)], by decide⟩, ⟨[1, 0, 5, 1], 4⟩) ∧
      (Ty.hashMap (.num (.int .u8)) .bool).decode (Input.new [2, 0, 5, 0, 5, 1])
        = (.ok ⟨[(5#8, true)], by decide⟩, ⟨[2, 0, 5, 0, 5, 1], 6⟩)) ∧
    ((Ty.hashSet (.num (.int .u8))).decode (Input.new [1, 0, 5])
        = (.ok ⟨[5#8], by decide⟩, ⟨[1, 0, 5], 3⟩) ∧
      (Ty.hashSet (.num (.int .u8))).decode (Input.new [2, 0, 5, 5])
        = (.ok ⟨[5#8], by decide⟩, ⟨[2, 0, 5, 5], 4⟩)) ∧
    ((Ty.sizedSlice (.num (.int .u8)) 1).decode (Input.new [0, 0, 5])
        = (.ok ⟨[], by decide⟩, ⟨[0, 0, 5], 3⟩) ∧
      (Ty.sizedSlice (.num (.int .u8)) 1).decode (Input.new [0, 0, 6])
        = (.ok ⟨[], by decide⟩, ⟨[0, 0, 6], 3⟩)) :=
  ⟨⟨rfl, rfl⟩, ⟨rfl, rfl⟩, ⟨rfl, rfl⟩⟩

/-- A type with everything canonical. -/
example : Everywhere (fun t => ¬ Loose t ∧ ¬ Unbalanced t) shapeTy :=
  ⟨⟨id, id⟩, trivial, ⟨⟨id, id⟩, trivial⟩, ⟨⟨id, id⟩, trivial⟩, trivial⟩

/-- C55, as far as it holds. For a type made without maps, sets and sized slices, decoding a value
consumes as many octets as encoding it writes. Missing: those types, see `C55_false`. -/
theorem C55_balanced_partial (t : Ty) (ht : t.WF) (h : Everywhere (fun t => ¬ Unbalanced t) t)
    (i i' : Input) (v : t.Val) (hd : t.decode i = (.ok v, i')) :
    i' = ⟨i.buf, i.pos + (wire t v).length⟩ := by
  obtain ⟨bs, rest, hr, hA, hi⟩ := (C52_accepted t ht i i' v).mp hd
  rw [← accepts_like likeness_length (fun t h hl a b e => e) (fun t h => h) t h bs v hA]
  exact hi

/-- C55 is false of maps, sets and sized slices. -/
theorem C55_false :
    ((Ty.hashMap (.num (.int .u8)) .bool).decode (Input.new [1, 0, 5, 1])
        = (.ok ⟨[(5#8, true)], by decide⟩, ⟨[1, 0, 5, 1], 4⟩) ∧
      EncodesTo (.hashMap (.num (.int .u8)) .bool) ⟨[(5#8, true)], by decide⟩ [5, 1]) ∧
    ((Ty.hashSet (.num (.int .u8))).decode (Input.new [1, 0, 5])
        = (.ok ⟨[5#8], by decide⟩, ⟨[1, 0, 5], 3⟩) ∧
      EncodesTo (.hashSet (.num (.int .u8))) ⟨[5#8], by decide⟩ [5]) ∧
    ((Ty.sizedSlice (.num (.int .u8)) 1).decode (Input.new [0, 0, 5])
        = (.ok ⟨[], by decide⟩, ⟨[0, 0, 5], 3⟩) ∧
      EncodesTo (.sizedSlice (.num (.int .u8)) 1) ⟨[], by decide⟩ [0, 0]) :=
  ⟨⟨rfl, encodesTo' (t := .hashMap (.num (.int .u8)) .bool) (v := ⟨[(5#8, true)], by decide⟩)
      (fun _ _ => ⟨trivial, trivial⟩) rfl⟩,
    ⟨rfl, encodesTo' (t := .hashSet (.num (.int .u8))) (v := ⟨[5#8], by decide⟩)
      (fun _ _ => trivial) rfl⟩,
    ⟨rfl, encodesTo' (t := .sizedSlice (.num (.int .u8)) 1) (v := ⟨[], by decide⟩)
      ⟨by decide, fun _ h => nomatch h⟩ rfl⟩⟩

/-- C56. Whatever the octets and whatever the outcome, decoding consumes at most the number of octets
that the type alone determines. -/
theorem C56_reach (t : Ty) (i : Input) : (t.decode i).2.pos ≤ i.pos + reach t :=
  Ty.decode_reach t i (.inl rfl)

/-- C56: vectors of `u32`, for instance, at most 262142 octets. -/
example (i : Input) :
    ((Ty.seq .vec (.num (.int .u32))).decode i).2.pos ≤ i.pos + 262142 :=
  C56_reach (.seq .vec (.num (.int .u32))) i

/-- C57. The number of elements in all collections and texts of a decoded value, at any depth, is at
most 32768 for each octet consumed. -/
theorem C57_elements (t : Ty) (ht : t.WF) (i i' : Input) (v : t.Val)
    (h : t.decode i = (.ok v, i')) : elements t v ≤ 32768 * (i'.pos - i.pos) := by
  obtain ⟨bs, rest, hr, hA, rfl⟩ := (C52_accepted t ht i i' v).mp h
  have := accepts_elements t bs v hA
  have e : i.pos + bs.length - i.pos = bs.length := by omega
  show _ ≤ 32768 * (i.pos + bs.length - i.pos)
  rw [e]; exact this

/-- C57: no smaller number would do: two octets are enough for a vector of 65535 elements that take
no space. -/
theorem C57_tight : ∃ v i', (Ty.seq .vec (.unit .unit)).decode (Input.new [0xFF, 0xFF]) = (.ok v, i') ∧
    i'.pos = 2 ∧ 32767 * 2 < elements (.seq .vec (.unit .unit)) v := by
  have hE : ∀ n, ∃ l : List (Ty.unit .unit).Val, l.length = n ∧
      Each (Accepts (.unit .unit)) [] l := by
    intro n
    induction n with
    | zero => exact ⟨[], rfl, .nil⟩
    | succ n ih =>
      obtain ⟨l, hl, h⟩ := ih
      exact ⟨() :: l, congrArg (· + 1) hl, .cons (b := []) (bs := []) rfl h⟩
  obtain ⟨l, hl, h⟩ := hE 65535
  refine ⟨l, ⟨[0xFF, 0xFF], 2⟩, ?_, rfl, ?_⟩
  · refine (C52_accepted (.seq .vec (.unit .unit)) trivial _ _ _).mpr ⟨[0xFF, 0xFF], [], rfl,
      ⟨[], Nat.le_of_eq hl, ?_, h⟩, rfl⟩
    rw [hl]; rfl
  · show _ < l.length + _
    rw [hl]; omega

/-- C58. The format is unambiguous and self-delimiting: of the beginnings of any octets, at most one
is accepted, as one value only. -/
theorem C58_unambiguous (t : Ty) (ht : t.WF) (a b x y : List Byte) (v w : t.Val)
    (hv : Accepts t a v) (hw : Accepts t b w) (h : a ++ x = b ++ y) : a = b ∧ v = w := by
  have h1 := (C52_accepted t ht (Input.new (a ++ x)) _ v).mpr ⟨a, x, rfl, hv, rfl⟩
  have h2 := (C52_accepted t ht (Input.new (a ++ x)) _ w).mpr ⟨b, y, h, hw, rfl⟩
  rw [h1] at h2
  have h3 := congrArg (fun q => q.2.pos) h2
  have h4 : Res.ok v = Res.ok w := congrArg Prod.fst h2
  refine ⟨?_, Res.ok.inj h4⟩
  have h5 : a.length = b.length := by simpa [Input.new] using h3
  exact (List.append_inj h h5).1

/-- C58: and what is accepted is never rejected, in whole or in part. -/
theorem C58_exclusive (t : Ty) (ht : t.WF) (a b x y : List Byte) (v : t.Val) (e : DecErr)
    (hv : Accepts t a v) (hw : Rejects t b e) : a ++ x ≠ b ++ y := by
  intro h
  have h1 := (C52_accepted t ht (Input.new (a ++ x)) _ v).mpr ⟨a, x, rfl, hv, rfl⟩
  have h2 := (C53_rejected t ht (Input.new (a ++ x)) _ e).mpr ⟨b, y, h, hw, rfl⟩
  rw [h1] at h2
  exact absurd (congrArg Prod.fst h2) (by simp)

/-- C58: encodings in particular: no encoding is the beginning of another one of the same type, unless
they are the same. -/
theorem C58_encodings (t : Ty) (ht : t.WF) (v w : t.Val) (a b y : List Byte)
    (hv : Yields t.decode a (.ok v)) (hw : Yields t.decode b (.ok w)) (h : a = b ++ y) :
    y = [] ∧ v = w := by
  have h1 := hv [] y
  have h2 := hw [] (y ++ y)
  simp only [List.nil_append, List.length_nil, Nat.zero_add] at h1 h2
  rw [h, List.append_assoc] at h1
  rw [h1] at h2
  have h3 := congrArg (fun q => q.2.pos) h2
  have h4 : Res.ok v = Res.ok w := congrArg Prod.fst h2
  refine ⟨?_, Res.ok.inj h4⟩
  simp only [List.length_append] at h3
  exact List.eq_nil_of_length_eq_zero (by omega)

example : Accepts sampleTy [1, 0x34, 0x12, 2, 0, 7, 8] sampleVal := by
  refine ⟨[1, 0x34, 0x12], [2, 0, 7, 8], rfl, ⟨1, [0x34, 0x12], by decide, rfl, rfl⟩,
    [2, 0, 7, 8], [], rfl, ⟨[7, 8], by decide, rfl, ?_⟩, rfl⟩
  exact .cons (b := [7]) (bs := [8]) rfl (.cons (b := [8]) (bs := []) rfl .nil)

/-! C40, in addition to `Props/Maps.lean`. -/

theorem flatMap_length_le {α : Type} {f : α → List Byte} (l : List α) :
    (l.flatMap f).length = (l.map fun a => (f a).length).sum := by
  rw [List.length_flatMap]

theorem each_length {α : Type} {A : List Byte → α → Prop} {f : α → Nat}
    (h : ∀ b a, A b a → b.length = f a) {bs : List Byte} {l : List α} (hE : Each A bs l) :
    bs.length = (l.map f).sum := by
  induction hE with
  | nil => rfl
  | cons hA _ ih =>
    rw [List.length_append, List.map_cons, List.sum_cons, ih, h _ _ hA]

/-- C40 is false always: no map of any type, whose keys and values contain no maps, sets or sized
slices, is ever decoded from its encoding: wherever it is decoded, at least two octets more than its
encoding are consumed. -/
theorem C40_false_always (k v : Ty) (hk : k.WF) (hv : v.WF)
    (ek : Everywhere (fun t => ¬ Unbalanced t) k) (ev : Everywhere (fun t => ¬ Unbalanced t) v)
    (m : (Ty.hashMap k v).Val) (i i' : Input) (w : List Byte)
    (he : EncodesTo (.hashMap k v) m w) (hd : (Ty.hashMap k v).decode i = (.ok m, i')) :
    i.pos + w.length + 2 ≤ i'.pos := by
  obtain ⟨bs, rest, hr, hA, rfl⟩ := (C52_accepted (.hashMap k v) ⟨hk, hv⟩ i i' m).mp hd
  obtain ⟨l, r, hl, rfl, hE, hM⟩ := hA
  have hw := (encodesTo_iff.mp he).2
  have h1 : r.length = (l.map fun p : k.Val × v.Val =>
      (wire k p.1 ++ wire v p.2).length).sum := by
    apply each_length ?_ hE
    rintro b p ⟨b1, b2, rfl, h1, h2⟩
    rw [List.length_append, List.length_append,
      accepts_like likeness_length (fun t h hl a b e => e) (fun t h => h) k ek b1 p.1 h1,
      accepts_like likeness_length (fun t h hl a b e => e) (fun t h => h) v ev b2 p.2 h2]
  have h2 := @sum_le_of_subset _ (fun p : k.Val × v.Val => (wire k p.1 ++ wire v p.2).length) m.val l
    (@mapOf_nodup _ _ k.decEq _ _ hM) (@mapOf_subset _ _ k.decEq _ _ hM)
  have h3 : w.length = (m.val.map fun p : k.Val × v.Val =>
      (wire k p.1 ++ wire v p.2).length).sum := by
    rw [← hw]; exact List.length_flatMap
  show _ ≤ i.pos + (leBytes 2 l.length ++ r).length
  rw [List.length_append, leBytes_length]
  omega

/-- As `C40_false_always`, for sets. -/
theorem C40_false_always_set (k : Ty) (hk : k.WF) (ek : Everywhere (fun t => ¬ Unbalanced t) k)
    (s : (Ty.hashSet k).Val) (i i' : Input) (w : List Byte)
    (he : EncodesTo (.hashSet k) s w) (hd : (Ty.hashSet k).decode i = (.ok s, i')) :
    i.pos + w.length + 2 ≤ i'.pos := by
  obtain ⟨bs, rest, hr, hA, rfl⟩ := (C52_accepted (.hashSet k) hk i i' s).mp hd
  obtain ⟨l, r, hl, rfl, hE, hs⟩ := hA
  have hw := (encodesTo_iff.mp he).2
  have h1 : r.length = (l.map fun p => (wire k p).length).sum := by
    apply each_length ?_ hE
    intro b p h1
    exact accepts_like likeness_length (fun t h hl a b e => e) (fun t h => h) k ek b p h1
  have hsub : s.val ⊆ l := by
    rw [hs]; intro x hx; exact (@mem_firsts _ k.decEq l x).mp hx
  have h2 := sum_le_of_subset (f := fun p => (wire k p).length) s.val l s.property hsub
  have h3 : w.length = (s.val.map fun p => (wire k p).length).sum := by
    rw [← hw]; exact List.length_flatMap
  show _ ≤ i.pos + (leBytes 2 l.length ++ r).length
  rw [List.length_append, leBytes_length]
  omega

end Oct.Props
