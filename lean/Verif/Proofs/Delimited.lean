import Verif.Proofs.RoundTrip
/-
Encodings of values without hash maps and sets are prefix-free, whether decoding reads them back or
not.
-/
namespace Oct
open Spec
set_option linter.unusedVariables false

theorem Decodes.delim {α : Type} {m : Dec α} {a b : List Byte} {x y : α} (h1 : Decodes m a x)
    (h2 : Decodes m b y) {r s : List Byte} (h : a ++ r = b ++ s) : x = y ∧ r = s := by
  have d1 := h1 [] r
  have d2 := h2 [] s
  rw [h, d2] at d1
  obtain ⟨hr, hi⟩ := Prod.mk.inj d1
  have hlen : b.length = a.length := by simpa using congrArg Input.pos hi
  exact ⟨(Res.ok.inj hr).symm, (List.append_inj h hlen.symm).2⟩

theorem items_delim {α β : Type} {wr : α → List Byte} {c : α → β} : ∀ (l l' : List α),
    (∀ x ∈ l, ∀ y ∈ l', ∀ r s, wr x ++ r = wr y ++ s → c x = c y ∧ r = s) → l.length = l'.length →
    ∀ r s, l.flatMap wr ++ r = l'.flatMap wr ++ s → l.map c = l'.map c ∧ r = s
  | [], [], _, _, r, s, h => ⟨rfl, h⟩
  | x :: l, y :: l', hd, hl, r, s, h => by
    rw [List.flatMap_cons, List.flatMap_cons, List.append_assoc, List.append_assoc] at h
    obtain ⟨h1, h2⟩ := hd x List.mem_cons_self y List.mem_cons_self _ _ h
    obtain ⟨h3, h4⟩ := items_delim l l'
      (fun x hx y hy => hd x (List.mem_cons_of_mem _ hx) y (List.mem_cons_of_mem _ hy))
      (by simpa using hl) r s h2
    exact ⟨by rw [List.map_cons, List.map_cons, h1, h3], h4⟩
  | [], _ :: _, _, hl, _, _, _ => by cases hl
  | _ :: _, [], _, hl, _, _, _ => by cases hl

theorem counted_delim {α β : Type} {wr : α → List Byte} {c : α → β} {l l' : List α}
    (h1 : l.length ≤ 65535) (h2 : l'.length ≤ 65535)
    (hd : ∀ x ∈ l, ∀ y ∈ l', ∀ r s, wr x ++ r = wr y ++ s → c x = c y ∧ r = s) {r s : List Byte}
    (h : leBytes 2 l.length ++ l.flatMap wr ++ r = leBytes 2 l'.length ++ l'.flatMap wr ++ s) :
    l.map c = l'.map c ∧ r = s := by
  rw [List.append_assoc, List.append_assoc] at h
  obtain ⟨hl, h⟩ := (decUsize_decodes l.length h1).delim (decUsize_decodes l'.length h2) h
  exact items_delim l l' hd hl r s h

/-- The discriminant that starts the encoding of an enumeration. -/
theorem Variants.wire_disc : (vs : Variants) → (r : Repr) → (prev : Option Nat) →
    (explicit : List (Option Nat)) → (j : Nat) → (explicit.drop j = explicitDiscs vs) →
    (prev = if j = 0 then none else some (discOf explicit (j - 1))) → (v : vs.Val) →
    EncodableVariants r explicit vs j v →
    ∃ (d : Nat) (fw : List Byte), wireVariants r explicit vs j v = reprWire r d ++ fw ∧
      d ∈ vs.discs prev ∧ ReprEncodable r d
  | .nil, _, _, _, _, _, _, v, _ => nomatch v
  | .cons d fs vs, r, prev, explicit, j, h, hp, .inl v, he => by
    have hd : discOf explicit j = nextDisc prev d := by
      rw [hp]
      apply discOf_step
      have := congrArg (·[0]?) h
      simpa [explicitDiscs] using this
    refine ⟨nextDisc prev d, wireFields fs v, ?_, by simp [Variants.discs], ?_⟩
    · show reprWire r (discOf explicit j) ++ wireFields fs v = _
      rw [hd]
    · rw [← hd]; exact he.1
  | .cons d fs vs, r, prev, explicit, j, h, hp, .inr v, he => by
    have hd : discOf explicit j = nextDisc prev d := by
      rw [hp]
      apply discOf_step
      have := congrArg (·[0]?) h
      simpa [explicitDiscs] using this
    have hdrop : explicit.drop (j + 1) = explicitDiscs vs := by
      have := congrArg List.tail h
      simpa [explicitDiscs] using this
    obtain ⟨x, fw, h1, h2, h3⟩ := Variants.wire_disc vs r (some (nextDisc prev d))
      explicit (j + 1) hdrop (by simp [hd]) v he
    exact ⟨x, fw, h1, by simp [Variants.discs, h2], h3⟩

/-- Different variants start differently. -/
theorem Variants.other_disc (d : Option Nat) (fs : Fields) (vs : Variants) (k : Repr) (prev : Option Nat)
    (explicit : List (Option Nat)) (j : Nat) (h : explicit.drop j = explicitDiscs (.cons d fs vs))
    (hp : prev = if j = 0 then none else some (discOf explicit (j - 1)))
    (hn : ((Variants.cons d fs vs).discs prev).Nodup)
    (hr : ∀ d' ∈ (Variants.cons d fs vs).discs prev, k.InRange d') (v : fs.Val) (w : vs.Val)
    (e1 : ReprEncodable k (discOf explicit j) ∧ EncodableFields fs v)
    (e2 : EncodableVariants k explicit vs (j + 1) w) (r s : List Byte)
    (he : reprWire k (discOf explicit j) ++ wireFields fs v ++ r
      = wireVariants k explicit vs (j + 1) w ++ s) : False := by
  have hd : discOf explicit j = nextDisc prev d := by
    rw [hp]
    apply discOf_step
    have := congrArg (·[0]?) h
    simpa [explicitDiscs] using this
  have hdrop : explicit.drop (j + 1) = explicitDiscs vs := by
    have := congrArg List.tail h
    simpa [explicitDiscs] using this
  simp only [Variants.discs, List.nodup_cons] at hn
  obtain ⟨x, fw, h1, h2, h3⟩ := Variants.wire_disc vs k (some (nextDisc prev d)) explicit (j + 1) hdrop
    (by simp [hd]) w e2
  rw [h1, hd, List.append_assoc, List.append_assoc] at he
  have hx := ((decRepr_decodes k (nextDisc prev d : Nat) (hr _ (by simp [Variants.discs])) (hd ▸ e1.1)).delim
    (decRepr_decodes k (x : Nat) (hr _ (by simp [Variants.discs, h2])) h3) he).1
  exact hn.1 ((show nextDisc prev d = x by omega) ▸ h2)

mutual

/-- If two encodings, each followed by anything, agree, then the values are the same, and so is what
follows. -/
theorem Ty.wire_delim : (t : Ty) → t.WF → (v w : t.Val) → Delimited t v → Delimited t w →
    Encodable t v → Encodable t w → (r s : List Byte) → wire t v ++ r = wire t w ++ s →
    carried t v = carried t w ∧ r = s
  | .num k, hw, v, w, _, _, e1, e2, r, s, h =>
    (Ty.decode_decodes (.num k) hw v trivial e1).delim (Ty.decode_decodes (.num k) hw w trivial e2) h
  | .bool, hw, v, w, _, _, e1, e2, r, s, h =>
    (Ty.decode_decodes .bool hw v trivial e1).delim (Ty.decode_decodes .bool hw w trivial e2) h
  | .char, hw, v, w, _, _, e1, e2, r, s, h =>
    (Ty.decode_decodes .char hw v trivial e1).delim (Ty.decode_decodes .char hw w trivial e2) h
  | .usize, hw, v, w, _, _, e1, e2, r, s, h =>
    (Ty.decode_decodes .usize hw v trivial e1).delim (Ty.decode_decodes .usize hw w trivial e2) h
  | .isize, hw, v, w, _, _, e1, e2, r, s, h =>
    (Ty.decode_decodes .isize hw v trivial e1).delim (Ty.decode_decodes .isize hw w trivial e2) h
  | .nonZero k, hw, v, w, _, _, e1, e2, r, s, h =>
    (Ty.decode_decodes (.nonZero k) hw v trivial e1).delim (Ty.decode_decodes (.nonZero k) hw w trivial e2) h
  | .unit k, hw, v, w, _, _, e1, e2, r, s, h =>
    (Ty.decode_decodes (.unit k) hw v trivial e1).delim (Ty.decode_decodes (.unit k) hw w trivial e2) h
  | .duration, hw, v, w, _, _, e1, e2, r, s, h =>
    (Ty.decode_decodes .duration hw v trivial e1).delim (Ty.decode_decodes .duration hw w trivial e2) h
  | .systemTime k, hw, v, w, _, _, e1, e2, r, s, h =>
    (Ty.decode_decodes (.systemTime k) hw v trivial e1).delim (Ty.decode_decodes (.systemTime k) hw w trivial e2) h
  | .ipv4, hw, v, w, _, _, e1, e2, r, s, h =>
    (Ty.decode_decodes .ipv4 hw v trivial e1).delim (Ty.decode_decodes .ipv4 hw w trivial e2) h
  | .ipv6, hw, v, w, _, _, e1, e2, r, s, h =>
    (Ty.decode_decodes .ipv6 hw v trivial e1).delim (Ty.decode_decodes .ipv6 hw w trivial e2) h
  | .ipAddr, hw, v, w, _, _, e1, e2, r, s, h =>
    (Ty.decode_decodes .ipAddr hw v trivial e1).delim (Ty.decode_decodes .ipAddr hw w trivial e2) h
  | .socketAddrV4, hw, v, w, _, _, e1, e2, r, s, h =>
    (Ty.decode_decodes .socketAddrV4 hw v trivial e1).delim (Ty.decode_decodes .socketAddrV4 hw w trivial e2) h
  | .socketAddrV6, hw, v, w, _, _, e1, e2, r, s, h =>
    (Ty.decode_decodes .socketAddrV6 hw v trivial e1).delim (Ty.decode_decodes .socketAddrV6 hw w trivial e2) h
  | .socketAddr, hw, v, w, _, _, e1, e2, r, s, h =>
    (Ty.decode_decodes .socketAddr hw v trivial e1).delim (Ty.decode_decodes .socketAddr hw w trivial e2) h
  | .str k, hw, v, w, _, _, e1, e2, r, s, h =>
    (Ty.decode_decodes (.str k) hw v trivial e1).delim (Ty.decode_decodes (.str k) hw w trivial e2) h
  | .cStr k, hw, v, w, _, _, e1, e2, r, s, h =>
    (Ty.decode_decodes (.cStr k) hw v trivial e1).delim (Ty.decode_decodes (.cStr k) hw w trivial e2) h
  | .sizedStr k, hw, v, w, _, _, e1, e2, r, s, h =>
    (Ty.decode_decodes (.sizedStr k) hw v trivial e1).delim (Ty.decode_decodes (.sizedStr k) hw w trivial e2) h
  | .infallible, _, v, _, _, _, _, _, _, _, _ => nomatch v
  | .wrap k t, hw, v, w, h1, h2, e1, e2, r, s, h => Ty.wire_delim t hw v w h1 h2 e1 e2 r s h
  | .array t n, hw, v, w, h1, h2, e1, e2, r, s, h =>
    let ⟨ha, hb⟩ := items_delim (c := carried t) v.val w.val
      (fun x hx y hy => Ty.wire_delim t hw x y (h1 x hx) (h2 y hy) (e1 x hx) (e2 y hy))
      (v.property.trans w.property.symm) r s h
    ⟨Subtype.ext ha, hb⟩
  | .seq k t, hw, v, w, h1, h2, e1, e2, r, s, h =>
    counted_delim (c := carried t) e1.1 e2.1
      (fun x hx y hy => Ty.wire_delim t hw x y (h1 x hx) (h2 y hy) (e1.2 x hx) (e2.2 y hy)) h
  | .hashMap _ _, _, _, _, h1, _, _, _, _, _, _ => h1.elim
  | .hashSet _, _, _, _, h1, _, _, _, _, _, _ => h1.elim
  | .option t, hw, none, none, h1, h2, e1, e2, r, s, h => ⟨rfl, (List.cons.inj h).2⟩
  | .option t, hw, some v, some w, h1, h2, e1, e2, r, s, h =>
    let ⟨ha, hb⟩ := Ty.wire_delim t hw v w h1 h2 e1 e2 r s (List.cons.inj h).2
    ⟨congrArg some ha, hb⟩
  | .option t, hw, none, some w, h1, h2, e1, e2, r, s, h =>
    absurd (show (0 : Byte) = 1 from (List.cons.inj h).1) (by decide)
  | .option t, hw, some v, none, h1, h2, e1, e2, r, s, h =>
    absurd (show (1 : Byte) = 0 from (List.cons.inj h).1) (by decide)
  | .result t e, hw, .ok v, .ok w, h1, h2, e1, e2, r, s, h =>
    let ⟨ha, hb⟩ := Ty.wire_delim t hw.1 v w h1 h2 e1 e2 r s (List.cons.inj h).2
    ⟨congrArg ResultVal.ok ha, hb⟩
  | .result t e, hw, .err v, .err w, h1, h2, e1, e2, r, s, h =>
    let ⟨ha, hb⟩ := Ty.wire_delim e hw.2 v w h1 h2 e1 e2 r s (List.cons.inj h).2
    ⟨congrArg ResultVal.err ha, hb⟩
  | .result t e, hw, .ok v, .err w, h1, h2, e1, e2, r, s, h =>
    absurd (show (0 : Byte) = 1 from (List.cons.inj h).1) (by decide)
  | .result t e, hw, .err v, .ok w, h1, h2, e1, e2, r, s, h =>
    absurd (show (1 : Byte) = 0 from (List.cons.inj h).1) (by decide)
  | .bound t, hw, .included v, .included w, h1, h2, e1, e2, r, s, h =>
    let ⟨ha, hb⟩ := Ty.wire_delim t hw v w h1 h2 e1 e2 r s (List.cons.inj h).2
    ⟨congrArg BoundVal.included ha, hb⟩
  | .bound t, hw, .excluded v, .excluded w, h1, h2, e1, e2, r, s, h =>
    let ⟨ha, hb⟩ := Ty.wire_delim t hw v w h1 h2 e1 e2 r s (List.cons.inj h).2
    ⟨congrArg BoundVal.excluded ha, hb⟩
  | .bound t, hw, .unbounded, .unbounded, h1, h2, e1, e2, r, s, h => ⟨rfl, (List.cons.inj h).2⟩
  | .bound t, hw, .included v, .excluded w, h1, h2, e1, e2, r, s, h =>
    absurd (show (0 : Byte) = 1 from (List.cons.inj h).1) (by decide)
  | .bound t, hw, .included v, .unbounded, h1, h2, e1, e2, r, s, h =>
    absurd (show (0 : Byte) = 2 from (List.cons.inj h).1) (by decide)
  | .bound t, hw, .excluded v, .included w, h1, h2, e1, e2, r, s, h =>
    absurd (show (1 : Byte) = 0 from (List.cons.inj h).1) (by decide)
  | .bound t, hw, .excluded v, .unbounded, h1, h2, e1, e2, r, s, h =>
    absurd (show (1 : Byte) = 2 from (List.cons.inj h).1) (by decide)
  | .bound t, hw, .unbounded, .included w, h1, h2, e1, e2, r, s, h =>
    absurd (show (2 : Byte) = 0 from (List.cons.inj h).1) (by decide)
  | .bound t, hw, .unbounded, .excluded w, h1, h2, e1, e2, r, s, h =>
    absurd (show (2 : Byte) = 1 from (List.cons.inj h).1) (by decide)
  | .range t, hw, ⟨a, b⟩, ⟨a', b'⟩, h1, h2, e1, e2, r, s, h => by
    have h : wire t a ++ (wire t b ++ r) = wire t a' ++ (wire t b' ++ s) := by
      rw [← List.append_assoc, ← List.append_assoc]; exact h
    obtain ⟨ha, h⟩ := Ty.wire_delim t hw a a' h1.1 h2.1 e1.1 e2.1 _ _ h
    obtain ⟨hb, h⟩ := Ty.wire_delim t hw b b' h1.2 h2.2 e1.2 e2.2 _ _ h
    refine ⟨?_, h⟩
    show (⟨carried t a, carried t b⟩ : RangeVal t.Val) = ⟨carried t a', carried t b'⟩
    rw [ha, hb]
  | .rangeInclusive t, hw, ⟨a, b, _⟩, ⟨a', b', _⟩, h1, h2, e1, e2, r, s, h => by
    have h : wire t a ++ (wire t b ++ r) = wire t a' ++ (wire t b' ++ s) := by
      rw [← List.append_assoc, ← List.append_assoc]; exact h
    obtain ⟨ha, h⟩ := Ty.wire_delim t hw a a' h1.1 h2.1 e1.1 e2.1 _ _ h
    obtain ⟨hb, h⟩ := Ty.wire_delim t hw b b' h1.2 h2.2 e1.2 e2.2 _ _ h
    refine ⟨?_, h⟩
    show (⟨carried t a, carried t b, false⟩ : RangeInclusiveVal t.Val) = ⟨carried t a', carried t b', false⟩
    rw [ha, hb]
  | .lock k t, hw, v, w, h1, h2, e1, e2, r, s, h =>
    let ⟨ha, hb⟩ := Ty.wire_delim t hw v.val w.val h1 h2 e1 e2 r s h
    ⟨congrArg (LockVal.mk false) ha, hb⟩
  | .refCell t, hw, v, w, h1, h2, e1, e2, r, s, h =>
    let ⟨ha, hb⟩ := Ty.wire_delim t hw v.val w.val h1 h2 e1.2 e2.2 r s h
    ⟨congrArg (RefCellVal.mk false) ha, hb⟩
  | .sizedSlice t n, hw, v, w, h1, h2, e1, e2, r, s, h =>
    let ⟨ha, hb⟩ := counted_delim (c := carried t) e1.1 e2.1
      (fun x hx y hy => Ty.wire_delim t hw x y (h1 x hx) (h2 y hy) (e1.2 x hx) (e2.2 y hy)) h
    ⟨Subtype.ext ha, hb⟩
  | .tuple fs, hw, v, w, h1, h2, e1, e2, r, s, h => Fields.wire_delim fs hw v w h1 h2 e1 e2 r s h
  | .struct fs, hw, v, w, h1, h2, e1, e2, r, s, h => Fields.wire_delim fs hw v w h1 h2 e1 e2 r s h
  | .enum k vs, hw, v, w, h1, h2, e1, e2, r, s, h =>
    Variants.wire_delim vs k none (explicitDiscs vs) 0 (by simp) (by simp) hw.1
      (fun d hd => (hw.2.1 d hd).1) hw.2.2 v w h1 h2 e1 e2 r s h

/-- See `Ty.wire_delim`. -/
theorem Fields.wire_delim : (fs : Fields) → fs.WF → (v w : fs.Val) → DelimitedFields fs v →
    DelimitedFields fs w → EncodableFields fs v → EncodableFields fs w → (r s : List Byte) →
    wireFields fs v ++ r = wireFields fs w ++ s → carriedFields fs v = carriedFields fs w ∧ r = s
  | .nil, _, v, w, _, _, _, _, r, s, h => ⟨rfl, h⟩
  | .cons t fs, hw, (a, b), (a', b'), h1, h2, e1, e2, r, s, h => by
    have h : wire t a ++ (wireFields fs b ++ r) = wire t a' ++ (wireFields fs b' ++ s) := by
      rw [← List.append_assoc, ← List.append_assoc]; exact h
    obtain ⟨ha, h⟩ := Ty.wire_delim t hw.1 a a' h1.1 h2.1 e1.1 e2.1 _ _ h
    obtain ⟨hb, h⟩ := Fields.wire_delim fs hw.2 b b' h1.2 h2.2 e1.2 e2.2 _ _ h
    refine ⟨?_, h⟩
    show (carried t a, carriedFields fs b) = (carried t a', carriedFields fs b')
    rw [ha, hb]

/-- See `Ty.wire_delim`. -/
theorem Variants.wire_delim : (vs : Variants) → (k : Repr) → (prev : Option Nat) →
    (explicit : List (Option Nat)) → (j : Nat) → (explicit.drop j = explicitDiscs vs) →
    (prev = if j = 0 then none else some (discOf explicit (j - 1))) →
    (vs.discs prev).Nodup → (∀ d ∈ vs.discs prev, k.InRange d) → vs.WF → (v w : vs.Val) →
    DelimitedVariants vs v → DelimitedVariants vs w → EncodableVariants k explicit vs j v →
    EncodableVariants k explicit vs j w → (r s : List Byte) →
    wireVariants k explicit vs j v ++ r = wireVariants k explicit vs j w ++ s →
    carriedVariants vs v = carriedVariants vs w ∧ r = s
  | .nil, _, _, _, _, _, _, _, _, _, v, _, _, _, _, _, _, _, _ => nomatch v
  | .cons d fs vs, k, prev, explicit, j, h, hp, hn, hr, hw, .inl v, .inl w, h1, h2, e1, e2, r, s, he => by
    have he : reprWire k (discOf explicit j) ++ (wireFields fs v ++ r)
        = reprWire k (discOf explicit j) ++ (wireFields fs w ++ s) := by
      rw [← List.append_assoc, ← List.append_assoc]; exact he
    obtain ⟨ha, hb⟩ := Fields.wire_delim fs hw.1 v w h1 h2 e1.2 e2.2 r s (List.append_cancel_left he)
    exact ⟨congrArg Sum.inl ha, hb⟩
  | .cons d fs vs, k, prev, explicit, j, h, hp, hn, hr, hw, .inr v, .inr w, h1, h2, e1, e2, r, s, he => by
    have hd : discOf explicit j = nextDisc prev d := by
      rw [hp]
      apply discOf_step
      have := congrArg (·[0]?) h
      simpa [explicitDiscs] using this
    have hdrop : explicit.drop (j + 1) = explicitDiscs vs := by
      have := congrArg List.tail h
      simpa [explicitDiscs] using this
    simp only [Variants.discs, List.nodup_cons] at hn
    obtain ⟨ha, hb⟩ := Variants.wire_delim vs k (some (nextDisc prev d)) explicit (j + 1) hdrop
      (by simp [hd]) hn.2 (fun x hx => hr x (by simp [Variants.discs, hx])) hw.2 v w h1 h2 e1 e2 r s he
    exact ⟨congrArg Sum.inr ha, hb⟩
  | .cons d fs vs, k, prev, explicit, j, h, hp, hn, hr, hw, .inl v, .inr w, h1, h2, e1, e2, r, s, he => by
    exact (Variants.other_disc d fs vs k prev explicit j h hp hn hr v w e1 e2 r s he).elim
  | .cons d fs vs, k, prev, explicit, j, h, hp, hn, hr, hw, .inr v, .inl w, h1, h2, e1, e2, r, s, he => by
    exact (Variants.other_disc d fs vs k prev explicit j h hp hn hr w v e2 e1 s r he.symm).elim

end

end Oct
