import Verif.Proofs.Accepts
/- The decoder of every type accepts and rejects what `Spec/Accepts.lean` says. -/
namespace Oct
open Spec
set_option linter.unusedVariables false

/-- The octets stand for the fields of the variant with discriminant `x`. -/
def AcceptsAs (explicit : List (Option Nat)) : (vs : Variants) → (j : Nat) → (x : Int) →
    List Byte → vs.Val → Prop
  | .nil, _, _, _, v => nomatch v
  | .cons _ fs vs, j, x, bs, v =>
    match v with
    | .inl v => x = discOf explicit j ∧ AcceptsFields fs bs v
    | .inr v => AcceptsAs explicit vs (j + 1) x bs v

theorem acceptsVariants_iff (r : Repr) (ex : List (Option Nat)) : (vs : Variants) → (j : Nat) →
    (∀ k < variantCount vs, r.InRange (discOf ex (j + k))) → (bs : List Byte) → (v : vs.Val) →
    (AcceptsVariants r ex vs j bs v ↔ ∃ x b1 b2, bs = b1 ++ b2 ∧
      (ReprEncodable r x ∧ r.InRange x ∧ b1 = reprWire r x) ∧ AcceptsAs ex vs j x b2 v)
  | .nil, _, _, _, v => nomatch v
  | .cons d fs vs, j, hr, bs, .inl v => by
    constructor
    · rintro ⟨h1, w, rfl, h2⟩
      exact ⟨_, _, w, rfl, ⟨h1, hr 0 (Nat.succ_pos _), rfl⟩, rfl, h2⟩
    · rintro ⟨_, _, b2, rfl, ⟨h1, _, rfl⟩, rfl, h2⟩
      exact ⟨h1, b2, rfl, h2⟩
  | .cons d fs vs, j, hr, bs, .inr v =>
    acceptsVariants_iff r ex vs (j + 1) (fun k hk => by
      have := hr (k + 1) (Nat.succ_lt_succ hk)
      rwa [show j + (k + 1) = j + 1 + k by omega] at this) bs v

theorem acceptsAs_disc (ex : List (Option Nat)) : (vs : Variants) → (j : Nat) → (x : Int) →
    (bs : List Byte) → (v : vs.Val) → AcceptsAs ex vs j x bs v →
    ∃ k < variantCount vs, x = discOf ex (j + k)
  | .nil, _, _, _, v, _ => nomatch v
  | .cons d fs vs, j, x, bs, .inl v, h => ⟨0, Nat.succ_pos _, h.1⟩
  | .cons d fs vs, j, x, bs, .inr v, h => by
    obtain ⟨k, hk, e⟩ := acceptsAs_disc ex vs (j + 1) x bs v h
    exact ⟨k + 1, Nat.succ_lt_succ hk, by rw [e]; congr 2; omega⟩

theorem rejectsVariants_disc (ex : List (Option Nat)) : (vs : Variants) → (j : Nat) → (x : Int) →
    (bs : List Byte) → (e : DecErr) → RejectsVariants ex vs j x bs e →
    ∃ k < variantCount vs, x = discOf ex (j + k)
  | .nil, _, _, _, _, h => h.elim
  | .cons d fs vs, j, x, bs, e, .inl h => ⟨0, Nat.succ_pos _, h.1⟩
  | .cons d fs vs, j, x, bs, e, .inr h => by
    obtain ⟨k, hk, e⟩ := rejectsVariants_disc ex vs (j + 1) x bs e h
    exact ⟨k + 1, Nat.succ_lt_succ hk, by rw [e]; congr 2; omega⟩

mutual

theorem Ty.decode_parses : (t : Ty) → t.WF → Parses t.decode (Accepts t) (Rejects t)
  | .num k, _ => decBV_parses k.bytes _ rfl
  | .bool, _ => decBool_parses
  | .char, _ => decChar_parses
  | .usize, _ => decUsize_parses
  | .isize, _ => decIsize_parses
  | .nonZero r, _ => decNonZero_parses r
  | .unit _, _ => (Parses.pure ()).congr
      (fun bs v => ⟨fun h => h.1, fun h => ⟨h, rfl⟩⟩) (fun _ _ => Iff.rfl)
  | .infallible, _ => Parses.panic _
  | .wrap _ t, hw => Ty.decode_parses t hw
  | .array t n, hw => decItems_parses' (Ty.decode_parses t hw) n
  | .seq _ t, hw => decSeq_parses (Ty.decode_parses t hw)
  | .hashMap k v, hw =>
    @decHashMap_parses _ _ _ _ _ _ _ _ k.decEq (Ty.decode_parses k hw.1) (Ty.decode_parses v hw.2)
  | .hashSet k, hw => @decHashSet_parses _ _ _ _ k.decEq (Ty.decode_parses k hw)
  | .option t, hw =>
    (decOption_parses (Ty.decode_parses t hw)).congr (fun _ v => by cases v <;> exact Iff.rfl)
      (fun _ _ => Iff.rfl)
  | .result t e, hw =>
    (decResult_parses (Ty.decode_parses t hw.1) (Ty.decode_parses e hw.2)).congr (fun _ v => by cases v <;> exact Iff.rfl)
      (fun _ _ => Iff.rfl)
  | .bound t, hw =>
    (decBound_parses (Ty.decode_parses t hw)).congr (fun _ v => by cases v <;> exact Iff.rfl)
      (fun _ _ => Iff.rfl)
  | .range t, hw => decRange_parses (Ty.decode_parses t hw)
  | .rangeInclusive t, hw => decRangeInclusive_parses (Ty.decode_parses t hw)
  | .lock _ t, hw => decLock_parses (Ty.decode_parses t hw)
  | .refCell t, hw => decRefCell_parses (Ty.decode_parses t hw)
  | .duration, _ => decDuration_parses
  | .systemTime p, _ => decSystemTime_parses p
  | .ipv4, _ => decIpv4_parses
  | .ipv6, _ => decIpv6_parses
  | .ipAddr, _ => decIpAddr_parses
  | .socketAddrV4, _ => decSocketAddrV4_parses
  | .socketAddrV6, _ => decSocketAddrV6_parses
  | .socketAddr, _ => decSocketAddr_parses
  | .str _, _ => decString_parses
  | .cStr _, _ => decCString_parses
  | .sizedStr n, _ => decSizedStr_parses n
  | .sizedSlice t n, hw => decSizedSlice_parses (Ty.decode_parses t hw) n
  | .tuple fs, hw => (Fields.decode_parses fs id hw).congr (fun _ _ => Iff.rfl) (fun bs e =>
      ⟨fun ⟨e', h, he⟩ => by rw [show e = e' from he]; exact h, fun h => ⟨e, h, rfl⟩⟩)
  | .struct fs, hw => Fields.decode_parses fs DecErr.toGeneric hw
  | .enum r vs, hw => by
    have hc := explicitDiscs_length vs
    have hd := discs_eq_discOf vs
    have hr : ∀ k < variantCount vs, r.InRange (discOf (explicitDiscs vs) k) := by
      intro k hk
      exact hw.2.1 _ (by rw [hd]; exact List.mem_map.mpr ⟨k, List.mem_range.mpr hk, rfl⟩) |>.1
    refine ((decRepr_parses r).bind (fun x => Variants.decode_parses vs none (explicitDiscs vs) 0 x
      (by simp) (by simp) hw.1 hw.2.2)).congr ?_ ?_
    · intro bs v
      exact (acceptsVariants_iff r (explicitDiscs vs) vs 0
        (fun k hk => by rw [Nat.zero_add]; exact hr k hk) bs v).symm
    · intro bs e
      constructor
      · rintro (h | ⟨x, b1, b2, rfl, ⟨h1, h2, rfl⟩, ⟨e', h3, rfl⟩ | ⟨rfl, rfl, h3⟩⟩)
        · exact h.elim
        · exact .inl ⟨x, b2, e', h1, h2, rfl, h3, rfl⟩
        · refine .inr ⟨x, h1, h2, List.append_nil _, rfl, fun j hj => ?_⟩
          have := h3 j (hc ▸ hj)
          rwa [Nat.zero_add] at this
      · rintro (⟨x, w, e', h1, h2, rfl, h3, rfl⟩ | ⟨x, h1, h2, rfl, rfl, h3⟩)
        · exact .inr ⟨x, _, w, rfl, ⟨h1, h2, rfl⟩, .inl ⟨e', h3, rfl⟩⟩
        · refine .inr ⟨x, _, [], (List.append_nil _).symm, ⟨h1, h2, rfl⟩, .inr ⟨rfl, rfl, ?_⟩⟩
          intro k hk
          rw [Nat.zero_add]; exact h3 k (hc ▸ hk)

theorem Fields.decode_parses : (fs : Fields) → (g : DecErr → DecErr) → fs.WF →
    Parses (fs.decode g) (AcceptsFields fs) (fun bs e => ∃ e', RejectsFields fs bs e' ∧ e = g e')
  | .nil, g, _ => (Parses.pure ()).congr (fun bs v => ⟨fun h => h.1, fun h => ⟨h, rfl⟩⟩)
      (fun bs e => ⟨False.elim, fun h => by obtain ⟨_, h, _⟩ := h; exact h⟩)
  | .cons t fs, g, hw => by
    refine (two_parses ((Ty.decode_parses t hw.1).mapErr g) (Fields.decode_parses fs g hw.2)
      (fun a b => (a, b))).congr ?_ ?_
    · intro bs v
      constructor
      · rintro ⟨a, b, h, rfl⟩; exact h
      · intro h; exact ⟨v.1, v.2, h, rfl⟩
    · intro bs e
      constructor
      · rintro (⟨e', h, rfl⟩ | ⟨a, b1, b2, rfl, hA, e', h, rfl⟩)
        · exact ⟨e', .inl h, rfl⟩
        · exact ⟨e', .inr ⟨a, b1, b2, rfl, hA, h⟩, rfl⟩
      · rintro ⟨e', h | ⟨a, b1, b2, rfl, hA, h⟩, rfl⟩
        · exact .inl ⟨e', h, rfl⟩
        · exact .inr ⟨a, b1, b2, rfl, hA, e', h, rfl⟩

theorem Variants.decode_parses : (vs : Variants) → (prev : Option Nat) → (ex : List (Option Nat)) →
    (j : Nat) → (x : Int) → ex.drop j = explicitDiscs vs →
    (prev = if j = 0 then none else some (discOf ex (j - 1))) → (vs.discs prev).Nodup → vs.WF →
    Parses (vs.decode prev x) (AcceptsAs ex vs j x)
      (fun bs e => (∃ e', RejectsVariants ex vs j x bs e' ∧ e = .badField e'.toGeneric) ∨
        bs = [] ∧ e = .unassigned x ∧ ∀ k < variantCount vs, x ≠ discOf ex (j + k))
  | .nil, prev, ex, j, x, _, _, _, _ => (Parses.fail _).congr (fun _ v => nomatch v) (fun bs e => by
      constructor
      · rintro ⟨rfl, rfl⟩; exact .inr ⟨rfl, rfl, fun k hk => absurd hk (Nat.not_lt_zero k)⟩
      · rintro (⟨_, h, _⟩ | ⟨rfl, rfl, _⟩)
        · exact h.elim
        · exact ⟨rfl, rfl⟩)
  | .cons d fs vs, prev, ex, j, x, h, hp, hn, hw => by
    have hd : discOf ex j = nextDisc prev d := by
      rw [hp]
      apply discOf_step
      have := congrArg (·[0]?) h
      simpa [explicitDiscs] using this
    have hdrop : ex.drop (j + 1) = explicitDiscs vs := by
      have := congrArg List.tail h
      simpa [explicitDiscs] using this
    simp only [Variants.discs, List.nodup_cons] at hn
    have hds := discs_eq vs (some (nextDisc prev d)) ex (j + 1) hdrop (by simp [hd])
    have hnot : ∀ k < variantCount vs, discOf ex (j + 1 + k) ≠ nextDisc prev d := by
      intro k hk e
      apply hn.1
      rw [hds]
      exact List.mem_map.mpr ⟨k, List.mem_range.mpr hk, e⟩
    have ihv := Variants.decode_parses vs (some (nextDisc prev d)) ex (j + 1) x hdrop
      (by simp [hd]) hn.2 hw.2
    have ihf := Fields.decode_parses fs (fun e => .badField e.toGeneric) hw.1
    show Parses (if x = (nextDisc prev d : Int) then _ else _) _ _
    by_cases hx : x = (nextDisc prev d : Int)
    · rw [if_pos hx]
      refine (ihf.map Sum.inl).congr ?_ ?_
      · intro bs v
        constructor
        · rintro ⟨a, hA, rfl⟩; exact ⟨by rw [hd]; exact hx, hA⟩
        · match v with
          | .inl v => rintro ⟨_, hA⟩; exact ⟨v, hA, rfl⟩
          | .inr v =>
            intro hA
            obtain ⟨k, hk, e⟩ := acceptsAs_disc ex vs (j + 1) x bs v hA
            exact absurd (by omega : discOf ex (j + 1 + k) = nextDisc prev d) (hnot k hk)
      · intro bs e
        constructor
        · rintro ⟨e', hR, rfl⟩; exact .inl ⟨e', .inl ⟨by rw [hd]; exact hx, hR⟩, rfl⟩
        · rintro (⟨e', ⟨_, hR⟩ | hR, rfl⟩ | ⟨_, _, h⟩)
          · exact ⟨e', hR, rfl⟩
          · obtain ⟨k, hk, e⟩ := rejectsVariants_disc ex vs (j + 1) x bs e' hR
            exact absurd (by omega : discOf ex (j + 1 + k) = nextDisc prev d) (hnot k hk)
          · exact absurd (by rw [Nat.add_zero, hd]; exact hx) (h 0 (Nat.succ_pos _))
    · rw [if_neg hx]
      refine (ihv.map Sum.inr).congr ?_ ?_
      · intro bs v
        constructor
        · rintro ⟨a, hA, rfl⟩; exact hA
        · match v with
          | .inl v => rintro ⟨e, _⟩; rw [hd] at e; exact absurd e hx
          | .inr v => intro hA; exact ⟨v, hA, rfl⟩
      · intro bs e
        constructor
        · rintro (⟨e', hR, rfl⟩ | ⟨rfl, rfl, h⟩)
          · exact .inl ⟨e', .inr hR, rfl⟩
          · refine .inr ⟨rfl, rfl, fun k hk => ?_⟩
            cases k with
            | zero => rw [Nat.add_zero, hd]; exact hx
            | succ k =>
              have := h k (Nat.lt_of_succ_lt_succ hk)
              rwa [show j + (k + 1) = j + 1 + k by omega]
        · rintro (⟨e', ⟨e, _⟩ | hR, rfl⟩ | ⟨rfl, rfl, h⟩)
          · rw [hd] at e; exact absurd e hx
          · exact .inl ⟨e', hR, rfl⟩
          · refine .inr ⟨rfl, rfl, fun k hk => ?_⟩
            have := h (k + 1) (Nat.succ_lt_succ hk)
            rwa [show j + (k + 1) = j + 1 + k by omega] at this

end

end Oct
