import Verif.Proofs.LeaksMap
/- When decoding loses allocations: all types. -/
namespace Oct
open Spec
set_option linter.unusedVariables false

/-- Types that do not allocate and always read something. -/
theorem Ty.track_leaf (t : Ty) (hw : t.WF) (h : t.track = Track.of t.decode) (hd : Decodable t)
    (he : Eats t) : Acct t.track (Decodable t) False False (Eats t) False := by
  rw [h]
  exact (Acct.of t.decode t.decode_local (fun _ _ _ => hd) (fun _ => t.takes_of hw hd)
    (t.decode_eats he)).congr Iff.rfl Iff.rfl Iff.rfl ⟨fun _ => he, fun _ => trivial⟩ Iff.rfl

/-- What can be decoded somewhere can be decoded anywhere. -/
theorem Ty.exists_yields (t : Ty) (hw : t.WF) (I : Input) (a : t.Val) (h : (t.decode I).1 = .ok a) :
    ∃ w, Yields t.decode w (.ok a) := by
  obtain ⟨bs, -, ha⟩ := ((Ty.decode_parses t hw I (t.decode I).2).1 a).mp (Prod.ext h rfl)
  exact ⟨bs, (Ty.decode_parses t hw).yields ha⟩

/-- Something of the fields of the variant with this discriminant. -/
def VarOn (P : Fields → Prop) (q : Prop) : Variants → Option Nat → Int → Prop
  | .nil, _, _ => q
  | .cons d fs vs, prev, x =>
    if x = (nextDisc prev d : Int) then P fs else VarOn P q vs (some (nextDisc prev d)) x

/-- Something of the fields of a variant whose discriminant can be encoded. -/
def AnyVar (P : Fields → Prop) (r : Repr) (ex : List (Option Nat)) : Variants → Nat → Prop
  | .nil, _ => False
  | .cons _ fs vs, j => ReprEncodable r (discOf ex j) ∧ P fs ∨ AnyVar P r ex vs (j + 1)

theorem anyVar_of {P : Fields → Prop} {r : Repr} {ex : List (Option Nat)} {x : Int}
    (hx : ReprEncodable r x) : (vs : Variants) → (prev : Option Nat) → (j : Nat) →
    ex.drop j = explicitDiscs vs → (prev = if j = 0 then none else some (discOf ex (j - 1))) →
    (vs.discs prev).Nodup → VarOn P False vs prev x → AnyVar P r ex vs j
  | .nil, _, _, _, _, _, h => h
  | .cons d fs vs, prev, j, h, hp, hn, ho => by
    obtain ⟨hd, hdrop, hp', hn', hne⟩ := disc_ne h hp hn
    unfold VarOn at ho
    split at ho
    · rename_i e
      subst e
      exact .inl ⟨hd ▸ hx, ho⟩
    · exact .inr (anyVar_of hx vs _ (j + 1) hdrop hp' hn' ho)

theorem AnyVar.on {P : Fields → Prop} {r : Repr} {ex : List (Option Nat)} : (vs : Variants) →
    (prev : Option Nat) → (j : Nat) → ex.drop j = explicitDiscs vs →
    (prev = if j = 0 then none else some (discOf ex (j - 1))) → (vs.discs prev).Nodup →
    AnyVar P r ex vs j → ∃ k < variantCount vs, ReprEncodable r (discOf ex (j + k)) ∧
      VarOn P False vs prev (discOf ex (j + k))
  | .nil, _, _, _, _, _, h => h.elim
  | .cons d fs vs, prev, j, h, hp, hn, ho => by
    obtain ⟨hd, hdrop, hp', hn', hne⟩ := disc_ne h hp hn
    rcases ho with ⟨he, ho⟩ | ho
    · refine ⟨0, Nat.succ_pos _, he, ?_⟩
      show if (discOf ex j : Int) = _ then _ else _
      rw [if_pos (congrArg Nat.cast hd)]
      exact ho
    · obtain ⟨k, hk, he, ho⟩ := AnyVar.on vs _ (j + 1) hdrop hp' hn' ho
      refine ⟨k + 1, Nat.succ_lt_succ hk, ?_⟩
      rw [show j + (k + 1) = j + 1 + k by omega]
      refine ⟨he, ?_⟩
      unfold VarOn
      rw [if_neg (hne k hk)]
      exact ho

/-- The discriminants that can be read. -/
theorem anyVar_iff {P : Fields → Prop} {r : Repr} {vs : Variants} (hw : (Ty.enum r vs).WF) :
    (∃ x, (r.InRange x ∧ ReprEncodable r x) ∧ VarOn P False vs none x) ↔
      AnyVar P r (explicitDiscs vs) vs 0 := by
  constructor
  · rintro ⟨x, hx, h⟩
    exact anyVar_of hx.2 vs none 0 rfl (by simp) hw.1 h
  · intro h
    obtain ⟨k, hk, he, h⟩ := AnyVar.on vs none 0 rfl (by simp) hw.1 h
    refine ⟨_, ⟨?_, he⟩, h⟩
    rw [Nat.zero_add]
    exact hw.2.1 _ (by rw [discs_eq_discOf vs]; exact List.mem_map.mpr ⟨k, List.mem_range.mpr hk, rfl⟩) |>.1

theorem decodableVariants_any (r : Repr) (ex : List (Option Nat)) : (vs : Variants) → (j : Nat) →
    (AnyVar DecodableFields r ex vs j ↔ DecodableVariants r ex vs j)
  | .nil, _ => Iff.rfl
  | .cons _ fs vs, j => or_congr Iff.rfl (decodableVariants_any r ex vs (j + 1))

theorem owningVariants_any (r : Repr) (ex : List (Option Nat)) : (vs : Variants) → (j : Nat) →
    (AnyVar OwningFields r ex vs j ↔ OwningVariants r ex vs j)
  | .nil, _ => Iff.rfl
  | .cons _ fs vs, j => or_congr Iff.rfl (owningVariants_any r ex vs (j + 1))

theorem spillingVariants_any (r : Repr) (ex : List (Option Nat)) : (vs : Variants) → (j : Nat) →
    (AnyVar SpillingFields r ex vs j ↔ SpillingVariants r ex vs j)
  | .nil, _ => Iff.rfl
  | .cons _ fs vs, j => or_congr Iff.rfl (spillingVariants_any r ex vs (j + 1))

theorem leakyVariants_any (r : Repr) (ex : List (Option Nat)) : (vs : Variants) → (j : Nat) →
    (AnyVar LeakyFields r ex vs j ↔ LeakyVariants r ex vs j)
  | .nil, _ => Iff.rfl
  | .cons _ fs vs, j => or_congr Iff.rfl (leakyVariants_any r ex vs (j + 1))

/-- A choice of a sign. -/
theorem Acct.sign {β : Type} {f : Bool → Track β} {D O S F L : Bool → Prop}
    (h : ∀ b, Acct (f b) (D b) (O b) (S b) (F b) (L b)) :
    Acct (Track.bind (Track.of decBool) f) (D false ∨ D true) (O false ∨ O true) (S false ∨ S true) True
      (L false ∨ L true) := by
  have key : ∀ P : Bool → Prop, (∃ b, True ∧ P b) ↔ P false ∨ P true := fun P => by
    constructor
    · rintro ⟨b, -, h⟩
      cases b
      · exact .inl h
      · exact .inr h
    · rintro (h | h)
      · exact ⟨false, trivial, h⟩
      · exact ⟨true, trivial, h⟩
  refine (Acct.choose (A := fun _ => True) (fun _ _ _ => trivial) (fun b _ => ?_) decBool_eats
    fun b _ => h b).congr (key D) (key O) (key S) Iff.rfl (key L)
  exact Ty.exists_yields .bool trivial ⟨[if b then 1 else 0], 0⟩ b (by cases b <;> rfl)

/-- A choice of one octet. -/
theorem Acct.octet {β : Type} {f : Nat → Track β} {D O S F L : Nat → Prop}
    (h : ∀ b, Acct (f b) (D b) (O b) (S b) (F b) (L b)) :
    Acct (Track.bind (Track.of decU8) f) (∃ b, b < 256 ∧ D b) (∃ b, b < 256 ∧ O b) (∃ b, b < 256 ∧ S b) True
      (∃ b, b < 256 ∧ L b) := by
  refine Acct.choose (A := fun b => b < 256) (fun I a ha => ?_) (fun b hb => ?_) decU8_eats fun b _ => h b
  · have := decU8_ends hsOverflow (U := anyUb) I
    rw [ha] at this
    exact this
  · exact ⟨_, decU8_decodes b hb⟩

theorem Acct.bound {α : Type} {m : Track α} {D O S F L : Prop} (h : Acct m D O S F L) :
    Acct (trackBound m) True O S True L := by
  have key : ∀ {P Q : Prop}, (∃ b, b < 256 ∧ if b = 0 then P else if b = 1 then P else
      if b = 2 then Q else False) ↔ P ∨ Q := fun {P Q} => by
    constructor
    · rintro ⟨b, -, h⟩
      split at h
      · exact .inl h
      · split at h
        · exact .inl h
        · split at h
          · exact .inr h
          · exact h.elim
    · rintro (h | h)
      · exact ⟨0, by decide, h⟩
      · exact ⟨2, by decide, h⟩
  refine (Acct.octet fun b => Acct.ite (fun _ => (h.mapErr _).map _) fun _ =>
    Acct.ite (fun _ => (h.mapErr _).map _) fun _ => Acct.ite (fun _ => Acct.pure' _) fun _ =>
      Acct.stop _ fun _ _ h => by cases h).congr ?_ ?_ ?_ Iff.rfl ?_
  · exact key.trans (by simp)
  · exact key.trans (by simp)
  · exact key.trans (by simp)
  · exact key.trans (by simp)

theorem Acct.option {α : Type} {m : Track α} {D O S F L : Prop} (h : Acct m D O S F L) :
    Acct (trackOption m) True O S True L :=
  (Acct.sign fun b => Acct.ite (fun _ => h.map _) fun _ => Acct.pure' _).congr
    (by simp) (by simp) (by simp) Iff.rfl (by simp)

theorem Acct.result {α β : Type} {m : Track α} {m' : Track β} {D O S F L D' O' S' F' L' : Prop}
    (h : Acct m D O S F L) (h' : Acct m' D' O' S' F' L') :
    Acct (trackResult m m') (D ∨ D') (O ∨ O') (S ∨ S') True (L ∨ L') :=
  (Acct.sign fun b => Acct.ite (fun _ => (h'.mapErr _).map _) fun _ => (h.mapErr _).map _).congr
    (by simp) (by simp) (by simp) Iff.rfl (by simp)

/-- Both ends of a range. -/
theorem Acct.twice {α β : Type} {m : Track α} {g : α → α → β} {D O S F L : Prop} (h : Acct m D O S F L) :
    Acct (Track.bind m fun a => m.map (g a)) D O S F (L ∨ S ∧ F) := by
  have ho := h.owning
  have hs := h.spilling
  refine (h.bind fun a => h.map (g a)).congr ?_ ?_ ?_ ?_ ?_
  · exact and_self_iff
  · exact ⟨fun h => h.elim (·.1) (·.2), fun h => .inl ⟨h, ho h⟩⟩
  · exact ⟨fun h => h.elim (·.1) (·.2), fun h => .inl ⟨h, ho (hs h)⟩⟩
  · exact or_self_iff
  · exact ⟨fun h => h.elim .inl fun h => h.elim (fun h => .inl h.2) .inr,
      fun h => h.elim .inl fun h => .inr (.inr h)⟩

theorem Acct.text (k : StrKind) : Acct (Ty.str k).track True True False True False := by
  have hw : (Ty.str k).WF := trivial
  refine Acct.choose' (A := fun a => ∃ w, Yields decString w (.ok a)) (F := True)
    (fun I a h => (Ty.str k).exists_yields hw I a h) (fun a h => h) ((Ty.str k).decode_eats trivial)
    (fun s _ => ((Acct.buffer s.val.length).map fun _ => s).toUpper.mono (fun _ => trivial)
      (fun _ => trivial) id (fun _ => trivial) id) (fun _ => ?_) (fun _ => ?_) (fun h => h.elim)
    (fun h => h.elim)
  · exact ⟨⟨[], by decide⟩, (Ty.str k).exists_yields hw ⟨[0, 0], 0⟩ ⟨[], by decide⟩ rfl, [], ⟨[], by decide⟩,
      fun pre rest n => ⟨rfl, rfl, trivial⟩⟩
  · exact ⟨⟨[97], by decide⟩, (Ty.str k).exists_yields hw ⟨[1, 0, 97], 0⟩ ⟨[97], by decide⟩ rfl, [],
      ⟨[97], by decide⟩, fun pre rest n => ⟨rfl, rfl, .inl (by simp [Track.map, trackBuffer, Track.alloc])⟩⟩

theorem Acct.cText (k : CStrKind) : Acct (Ty.cStr k).track True True False True False := by
  have hw : (Ty.cStr k).WF := trivial
  obtain ⟨w, a, ha⟩ := (Ty.cStr k).takes_of hw trivial
  refine (Acct.choose (A := fun a => ∃ w, Yields decCString w (.ok a))
    (fun I a h => (Ty.cStr k).exists_yields hw I a h) (fun a h => h) ((Ty.cStr k).decode_eats trivial)
    (fun s _ => Acct.alloc s)).congr ?_ ?_ ?_ Iff.rfl ?_
  · exact ⟨fun _ => trivial, fun _ => ⟨a, ⟨w, ha⟩, trivial⟩⟩
  · exact ⟨fun _ => trivial, fun _ => ⟨a, ⟨w, ha⟩, trivial⟩⟩
  · simp
  · simp

/-- Boxes own what is in them, and are allocations. -/
theorem Acct.boxed {α : Type} {m : Track α} {D O S F L : Prop} (h : Acct m D O S F L) (b : Bool) :
    Acct (Track.bind m fun v => if b then Track.alloc v else Track.of (pure v)) D
      (if b then D else O) S F L := by
  have ho := h.owning
  cases b with
  | true =>
    exact (h.bind fun v => Acct.alloc v).congr (by simp) (by simp; exact ho) (by simp) (by simp) (by simp)
  | false =>
    exact (h.bind fun v => Acct.pure' v).congr (by simp) (by simp) (by simp) (by simp) (by simp)

mutual

theorem Ty.track_acct : (t : Ty) → t.WF →
    Acct t.track (Decodable t) (Owning t) (Spilling t) (Eats t) (Leaky t)
  | .wrap w t, hw => by
    have h := (t.track_acct hw).boxed w.boxes
    cases w <;> exact h
  | .array t n, hw => (t.track_acct hw).items n 0
  | .seq .linkedList t, hw => (t.track_acct hw).list
  | .seq .vec t, hw => (t.track_acct hw).vec
  | .seq .slice t, hw => (t.track_acct hw).vec
  | .hashMap k v, hw => @Acct.hashMap _ _ k.decEq _ _ _ _ _ _ _ _ _ _ _ _ (k.track_acct hw.1) (v.track_acct hw.2)
  | .hashSet k, hw => @Acct.hashSet _ k.decEq _ _ _ _ _ _ (k.track_acct hw)
  | .option t, hw => (t.track_acct hw).option
  | .result t e, hw => (t.track_acct hw.1).result (e.track_acct hw.2)
  | .bound t, hw => (t.track_acct hw).bound
  | .range t, hw => (t.track_acct hw).twice
  | .rangeInclusive t, hw => (t.track_acct hw).twice
  | .lock _ t, hw => (t.track_acct hw).map _
  | .refCell t, hw => (t.track_acct hw).map _
  | .sizedSlice t n, hw => (t.track_acct hw).sized n
  | .tuple fs, hw => fs.track_acct id hw
  | .struct fs, hw => fs.track_acct _ hw
  | .enum r vs, hw => by
    refine (Acct.choose (A := fun x => r.InRange x ∧ ReprEncodable r x) (fun I a ha => ?_)
      (fun x hx => ⟨_, decRepr_yields_disc r x hx.2 hx.1⟩) (decRepr_eats r)
      (fun x _ => vs.track_acct none x hw.2.2)).congr ?_ ?_ ?_ Iff.rfl ?_
    · have := decRepr_ends hsOverflow (U := anyUb) r I
      rw [ha] at this
      exact this
    · exact (anyVar_iff hw).trans (decodableVariants_any _ _ vs 0)
    · exact (anyVar_iff hw).trans (owningVariants_any _ _ vs 0)
    · exact (anyVar_iff hw).trans (spillingVariants_any _ _ vs 0)
    · exact (anyVar_iff hw).trans (leakyVariants_any _ _ vs 0)
  | .num k, hw => (Ty.num k).track_leaf hw rfl trivial trivial
  | .bool, hw => Ty.bool.track_leaf hw rfl trivial trivial
  | .char, hw => Ty.char.track_leaf hw rfl trivial trivial
  | .usize, hw => Ty.usize.track_leaf hw rfl trivial trivial
  | .isize, hw => Ty.isize.track_leaf hw rfl trivial trivial
  | .nonZero r, hw => (Ty.nonZero r).track_leaf hw rfl trivial trivial
  | .unit _, _ => Acct.pure' _
  | .infallible, _ => Acct.stop _ fun _ _ h => by cases h
  | .duration, hw => Ty.duration.track_leaf hw rfl trivial trivial
  | .systemTime p, hw => (Ty.systemTime p).track_leaf hw rfl trivial trivial
  | .ipv4, hw => Ty.ipv4.track_leaf hw rfl trivial trivial
  | .ipv6, hw => Ty.ipv6.track_leaf hw rfl trivial trivial
  | .ipAddr, hw => Ty.ipAddr.track_leaf hw rfl trivial trivial
  | .socketAddrV4, hw => Ty.socketAddrV4.track_leaf hw rfl trivial trivial
  | .socketAddrV6, hw => Ty.socketAddrV6.track_leaf hw rfl trivial trivial
  | .socketAddr, hw => Ty.socketAddr.track_leaf hw rfl trivial trivial
  | .str k, _ => Acct.text k
  | .cStr k, _ => Acct.cText k
  | .sizedStr n, hw => (Ty.sizedStr n).track_leaf hw rfl trivial trivial

theorem Fields.track_acct : (fs : Fields) → (g : DecErr → DecErr) → fs.WF →
    Acct (fs.track g) (DecodableFields fs) (OwningFields fs) (SpillingFields fs) (EatsFields fs) (LeakyFields fs)
  | .nil, _, _ => Acct.pure' _
  | .cons t fs, g, hw => ((t.track_acct hw.1).mapErr g).bind fun v => (fs.track_acct g hw.2).map _

theorem Variants.track_acct : (vs : Variants) → (prev : Option Nat) → (x : Int) → vs.WF →
    Acct (vs.track prev x) (VarOn DecodableFields False vs prev x) (VarOn OwningFields False vs prev x)
      (VarOn SpillingFields False vs prev x) (VarOn EatsFields True vs prev x)
      (VarOn LeakyFields False vs prev x)
  | .nil, _, _, _ => Acct.stop _ fun _ _ h => by cases h
  | .cons d fs vs, prev, x, hw =>
    Acct.ite (fun _ => (fs.track_acct _ hw.1).map _) fun _ => (vs.track_acct _ x hw.2).map _

end

end Oct
