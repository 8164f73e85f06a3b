import Verif.Proofs.Stops
import Verif.Props.Language
import Verif.Props.Decoding
/-
C128: where decoding stops without a result, and which types this can happen to.
-/
namespace Oct.Props
open Oct Spec
set_option linter.unusedVariables false

/-- C128. Decoding stops, with undefined behaviour or a panic that is not for lack of input, exactly when
the octets ahead begin with a string that the format describes so, and then the position has moved past
that string. -/
theorem C128_stops (t : Ty) (ht : t.WF) (i i' : Input) (s : Stop) :
    t.decode i = (s.res, i') ↔
    ∃ bs rest, i.buf.drop i.pos = bs ++ rest ∧ Stops t bs s ∧ i' = ⟨i.buf, i.pos + bs.length⟩ := by
  rw [Ty.decode_halts t ht i i' s]
  constructor
  · rintro ⟨bs, ⟨⟨rest, hr⟩, hi⟩, hS⟩
    exact ⟨bs, rest, hr, hS, hi⟩
  · rintro ⟨bs, rest, hr, hS, hi⟩
    exact ⟨bs, ⟨⟨rest, hr⟩, hi⟩, hS⟩

/-- The second of three characters is a surrogate: decoding is undefined after six octets of the array. -/
example : (Ty.array (.option .char) 3).decode ⟨[9, 0, 7, 0x12, 0xDF, 0, 0, 0], 1⟩
    = (.ub .invalidChar, ⟨[9, 0, 7, 0x12, 0xDF, 0, 0, 0], 7⟩) :=
  (C128_stops (.array (.option .char) 3) trivial _ _ .invalidChar).mpr
    ⟨[0, 7, 0x12, 0xDF, 0, 0], [0], rfl,
      ⟨[none], [0], [7, 0x12, 0xDF, 0, 0], by decide, rfl, .cons (b := [0]) (bs := []) rfl .nil,
        7, [0x12, 0xDF, 0, 0], by decide, rfl, 0xDF12, by decide, rfl, rfl⟩, rfl⟩

/-- C128. For whatever is left, octets are lacking: decoding panics for lack of input exactly when nothing
at the beginning of the octets ahead is a value, an error or a stop. -/
theorem C128_short (t : Ty) (ht : t.WF) (i : Input) :
    (t.decode i).1 = .panic .shortInput ↔
    ∀ bs rest, i.buf.drop i.pos = bs ++ rest →
      (∀ v, ¬ Accepts t bs v) ∧ (∀ e, ¬ Rejects t bs e) ∧ ∀ s, ¬ Stops t bs s := by
  constructor
  · intro h bs rest hr
    have hn := (C53_neither t ht i).mp (.inl ⟨_, h⟩) bs rest hr
    refine ⟨hn.1, hn.2, fun s hS => ?_⟩
    rw [(C128_stops t ht i _ s).mpr ⟨bs, rest, hr, hS, rfl⟩] at h
    cases s <;> cases h
  · intro h
    have stop : ∀ s : Stop, (t.decode i).1 ≠ s.res := by
      intro s hs
      obtain ⟨bs, rest, hr, hS, _⟩ := (C128_stops t ht i (t.decode i).2 s).mp (Prod.ext hs rfl)
      exact (h bs rest hr).2.2 s hS
    rcases (C53_neither t ht i).mpr (fun bs rest hr => ⟨(h bs rest hr).1, (h bs rest hr).2.1⟩) with
      ⟨p, hp⟩ | ⟨u, hu⟩
    · rcases C16_all_panics_partial t i p hp with rfl | rfl | rfl
      · exact hp
      · exact absurd hp (stop .durationOverflow)
      · exact absurd hp (stop .infallible)
    · rw [C17_only_invalid_char_partial t i u hu] at hu
      exact absurd hu (stop .invalidChar)

/-- Three octets of a character are too few, whatever they are. -/
example (a b c : Byte) : (Ty.decode .char (Input.new [a, b, c])).1 = .panic .shortInput := by
  refine (C128_short .char trivial _).mpr fun bs rest h => ?_
  have hl : bs.length ≤ 3 := by
    have := congrArg List.length h
    simp [Input.new] at this
    omega
  refine ⟨?_, ?_, ?_⟩
  · intro v h; rw [show bs = _ from h, leBytes_length] at hl; omega
  · rintro e ⟨_, _, _, h, _⟩; rw [h, leBytes_length] at hl; omega
  · rintro s ⟨_, _, h, _⟩; rw [h, leBytes_length] at hl; omega

/-- C128. The four cases are all there are, and they exclude each other: exactly one of a value, an error,
a stop and a lack of octets describes what is ahead, and it does so in one way only. -/
theorem C128_one_of_four (t : Ty) (ht : t.WF) (ahead : List Byte) :
    let Value := fun bs => ∃ v, Accepts t bs v
    let Error := fun bs => ∃ e, Rejects t bs e
    let Stop := fun bs => ∃ s, Stops t bs s
    (∃ bs, bs <+: ahead ∧ (Value bs ∨ Error bs ∨ Stop bs)) →
    ∃ bs, bs <+: ahead ∧
      (∀ b, b <+: ahead → (Value b ∨ Error b ∨ Stop b) → b = bs) ∧
      ((Value bs ∧ ¬ Error bs ∧ ¬ Stop bs) ∨ (¬ Value bs ∧ Error bs ∧ ¬ Stop bs) ∨
        (¬ Value bs ∧ ¬ Error bs ∧ Stop bs)) ∧
      (∀ v w, Accepts t bs v → Accepts t bs w → v = w) ∧
      (∀ e f, Rejects t bs e → Rejects t bs f → e = f) ∧
      (∀ r s, Stops t bs r → Stops t bs s → r = s) := by
  intro Value Error St h
  have acc : ∀ b, b <+: ahead → ∀ v, Accepts t b v →
      t.decode (Input.new ahead) = (.ok v, ⟨ahead, b.length⟩) := by
    rintro b ⟨r, hr⟩ v hv
    exact (C52_accepted t ht _ _ v).mpr ⟨b, r, by simp [Input.new, ← hr], hv, by simp [Input.new]⟩
  have rej : ∀ b, b <+: ahead → ∀ e, Rejects t b e →
      t.decode (Input.new ahead) = (.err e, ⟨ahead, b.length⟩) := by
    rintro b ⟨r, hr⟩ e hv
    exact (C53_rejected t ht _ _ e).mpr ⟨b, r, by simp [Input.new, ← hr], hv, by simp [Input.new]⟩
  have stp : ∀ b, b <+: ahead → ∀ s, Stops t b s →
      t.decode (Input.new ahead) = (s.res, ⟨ahead, b.length⟩) := by
    rintro b ⟨r, hr⟩ s hv
    exact (C128_stops t ht _ _ s).mpr ⟨b, r, by simp [Input.new, ← hr], hv, by simp [Input.new]⟩
  have any : ∀ b, b <+: ahead → (Value b ∨ Error b ∨ St b) →
      (t.decode (Input.new ahead)).2.pos = b.length := by
    rintro b hb (⟨v, hv⟩ | ⟨e, he⟩ | ⟨s, hs⟩)
    · rw [acc b hb v hv]
    · rw [rej b hb e he]
    · rw [stp b hb s hs]
  obtain ⟨bs, hb, h⟩ := h
  refine ⟨bs, hb, ?_, ?_, ?_, ?_, ?_⟩
  · intro b hb' h'
    have hl : b.length = bs.length := (any b hb' h').symm.trans (any bs hb h)
    obtain ⟨r, hr⟩ := hb
    obtain ⟨r', hr'⟩ := hb'
    exact (List.append_inj (hr'.trans hr.symm) hl).1
  · rcases h with ⟨v, hv⟩ | ⟨e, he⟩ | ⟨s, hs⟩
    · refine .inl ⟨⟨v, hv⟩, ?_, ?_⟩
      · rintro ⟨e, he⟩
        have := (acc bs hb v hv).symm.trans (rej bs hb e he)
        cases this
      · rintro ⟨s, hs⟩
        have := (acc bs hb v hv).symm.trans (stp bs hb s hs)
        cases s <;> cases this
    · refine .inr (.inl ⟨?_, ⟨e, he⟩, ?_⟩)
      · rintro ⟨v, hv⟩
        have := (acc bs hb v hv).symm.trans (rej bs hb e he)
        cases this
      · rintro ⟨s, hs⟩
        have := (rej bs hb e he).symm.trans (stp bs hb s hs)
        cases s <;> cases this
    · refine .inr (.inr ⟨?_, ?_, ⟨s, hs⟩⟩)
      · rintro ⟨v, hv⟩
        have := (acc bs hb v hv).symm.trans (stp bs hb s hs)
        cases s <;> cases this
      · rintro ⟨e, he⟩
        have := (rej bs hb e he).symm.trans (stp bs hb s hs)
        cases s <;> cases this
  · intro v w hv hw
    have := (acc bs hb v hv).symm.trans (acc bs hb w hw)
    cases this; rfl
  · intro e f he hf
    have := (rej bs hb e he).symm.trans (rej bs hb f hf)
    cases this; rfl
  · intro r s hr hs
    have := congrArg Prod.fst ((stp bs hb r hr).symm.trans (stp bs hb s hs))
    cases r <;> cases s <;> first | rfl | cases this

example : ∃ bs, bs <+: [0xFF, 3] ∧ ((∃ v, Accepts .bool bs v) ∨ (∃ e, Rejects .bool bs e) ∨
    ∃ s, Stops .bool bs s) :=
  ⟨[0xFF], ⟨[3], rfl⟩, .inl ⟨true, 0xFF, rfl, by decide⟩⟩

/-- C128, the exact extent of C16 and C17. Some input makes decoding of a type stop exactly when decoding
can get to a `char`, a `Duration` or an `Infallible` in it. -/
theorem C128_reachable (t : Ty) (ht : t.WF) (s : Stop) :
    (∃ i, (t.decode i).1 = s.res) ↔ Reaches s t := by
  rw [reaches_iff s t ht]
  constructor
  · rintro ⟨i, h⟩
    obtain ⟨bs, _, _, hS, _⟩ := (C128_stops t ht i (t.decode i).2 s).mp (Prod.ext h rfl)
    exact ⟨bs, hS⟩
  · rintro ⟨bs, hS⟩
    refine ⟨Input.new bs, ?_⟩
    rw [(C128_stops t ht _ _ s).mpr ⟨bs, [], by simp [Input.new], hS, rfl⟩]

/-- C17, exactly: decoding a type can be undefined just if it can get to a `char`. -/
theorem C17_exactly (t : Ty) (ht : t.WF) :
    (∃ i u, (t.decode i).1 = .ub u) ↔ Reaches .invalidChar t := by
  rw [← C128_reachable t ht]
  constructor
  · rintro ⟨i, u, h⟩
    exact ⟨i, by rw [h, C17_only_invalid_char_partial t i u h]; rfl⟩
  · rintro ⟨i, h⟩
    exact ⟨i, _, h⟩

/-- C16, exactly: decoding a type can panic other than for lack of input just if it can get to a `Duration`
or an `Infallible`. -/
theorem C16_exactly (t : Ty) (ht : t.WF) :
    (∃ i p, (t.decode i).1 = .panic p ∧ p ≠ .shortInput) ↔
      Reaches .durationOverflow t ∨ Reaches .infallible t := by
  rw [← C128_reachable t ht, ← C128_reachable t ht]
  constructor
  · rintro ⟨i, p, h, hp⟩
    rcases C16_all_panics_partial t i p h with rfl | rfl | rfl
    · exact absurd rfl hp
    · exact .inl ⟨i, h⟩
    · exact .inr ⟨i, h⟩
  · rintro (⟨i, h⟩ | ⟨i, h⟩)
    · exact ⟨i, _, h, by decide⟩
    · exact ⟨i, _, h, by decide⟩

/-- C128. A type has a value that decoding gives just if it is not made of `Infallible` where there is no
choice. -/
theorem C128_decodable (t : Ty) (ht : t.WF) :
    (∃ i v i', t.decode i = (.ok v, i')) ↔ Decodable t := by
  rw [decodable_iff t ht]
  constructor
  · rintro ⟨i, v, i', h⟩
    obtain ⟨bs, _, _, hA, _⟩ := (C52_accepted t ht i i' v).mp h
    exact ⟨bs, v, hA⟩
  · rintro ⟨bs, v, hA⟩
    exact ⟨Input.new bs, v, _, (C52_accepted t ht _ _ v).mpr ⟨bs, [], by simp [Input.new], hA, rfl⟩⟩

/-- A `char` behind a field that cannot be decoded, or in an array of no elements, is never got to. -/
example : ¬ Reaches .invalidChar (.struct (.cons .infallible (.cons .char .nil))) ∧
    ¬ Reaches .invalidChar (.array .char 0) ∧
    Reaches .invalidChar (.struct (.cons (.result .infallible .bool) (.cons .char .nil))) := by
  refine ⟨?_, ?_, ?_⟩
  · rintro (h | ⟨h, _⟩)
    · cases h
    · exact h
  · rintro ⟨h, _⟩
    exact h rfl
  · exact .inr ⟨.inr trivial, .inl rfl⟩

example : (Ty.struct (.cons (.result .infallible .bool) (.cons .char .nil))).WF :=
  ⟨⟨trivial, trivial⟩, trivial, trivial⟩

end Oct.Props
