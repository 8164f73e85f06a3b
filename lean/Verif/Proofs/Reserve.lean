import Verif.Spec.Reserve
import Verif.Proofs.Stops
import Verif.Proofs.Yields
import Verif.Proofs.Everywhere
/- When decoding asks for buffers that are too large. -/
namespace Oct
open Spec
set_option linter.unusedVariables false
variable {α β : Type}

/-! Unless it panics, decoding is as if there was no limit. -/

/-- The second decoder does as the first one, or asks for a buffer that is too large. -/
def AgreesOn (m m' : Dec α) : Prop := ∀ i, m' i = m i ∨ (m' i).1 = .panic .capacityOverflow

namespace AgreesOn

theorem refl (m : Dec α) : AgreesOn m m := fun _ => .inl rfl

theorem bind {m m' : Dec α} {f f' : α → Dec β} (hm : AgreesOn m m') (hf : ∀ a, AgreesOn (f a) (f' a)) :
    AgreesOn (m >>= f) (m' >>= f') := by
  intro i
  show Dec.bind m' f' i = Dec.bind m f i ∨ (Dec.bind m' f' i).1 = _
  unfold Dec.bind
  rcases hm i with h | h
  · rw [h]
    generalize m i = x
    obtain ⟨r, i'⟩ := x
    cases r with
    | ok a => exact hf a i'
    | err e => exact .inl rfl
    | panic p => exact .inl rfl
    | ub u => exact .inl rfl
  · generalize m' i = x at h ⊢
    obtain ⟨r, i'⟩ := x
    cases h
    exact .inr rfl

theorem mapErr {m m' : Dec α} (g : DecErr → DecErr) (hm : AgreesOn m m') :
    AgreesOn (m.mapErr g) (m'.mapErr g) := by
  intro i
  unfold Dec.mapErr
  rcases hm i with h | h
  · rw [h]; exact .inl rfl
  · right
    show (m' i).1.mapErr g = _
    rw [h]; rfl

theorem ite {c : Prop} [Decidable c] {m m' n n' : Dec α} (h : AgreesOn m m') (h' : AgreesOn n n') :
    AgreesOn (if c then m else n) (if c then m' else n') := by
  split
  · exact h
  · exact h'

/-- Reserving something in between. -/
theorem reserve (b : Bool) {m m' : Dec α} (h : AgreesOn m m') :
    AgreesOn m (Dec.reserve b >>= fun _ => m') := by
  cases b
  · exact fun _ => .inr rfl
  · exact h

end AgreesOn

theorem decItems_agrees {dec dec' : Dec α} (h : AgreesOn dec dec') : (n i : Nat) →
    AgreesOn (decItems dec n i) (decItems dec' n i)
  | 0, _ => .refl _
  | n + 1, i => (h.mapErr _).bind fun _ => (decItems_agrees h n (i + 1)).bind fun _ => .refl _

theorem decSeq_agrees {dec dec' : Dec α} (h : AgreesOn dec dec') : AgreesOn (decSeq dec) (decSeq dec') :=
  (AgreesOn.refl _).bind fun n => (decItems_agrees h n 0).bind fun _ => .refl _

theorem decSizedSlice_agrees {dec dec' : Dec α} (h : AgreesOn dec dec') (n : Nat) :
    AgreesOn (decSizedSlice dec n) (decSizedSlice dec' n) := (AgreesOn.refl _).bind fun len => by
  split
  · exact .refl _
  · exact (decItems_agrees h n 0).bind fun _ => .refl _

theorem decVecOn_agrees (fits : Nat → Bool) {dec dec' : Dec α} (h : AgreesOn dec dec') :
    AgreesOn (decSeq dec) (decVecOn fits dec') :=
  (AgreesOn.refl _).bind fun n => AgreesOn.reserve _ ((decItems_agrees h n 0).bind fun _ => .refl _)

theorem decMapLoop_agrees [DecidableEq α] {k k' : Dec α} {v v' : Dec β} (hk : AgreesOn k k')
    (hv : AgreesOn v v') : (n i : Nat) → (m : MapVal α β) →
    AgreesOn (decMapLoop k v n i m) (decMapLoop k' v' n i m)
  | 0, _, _ => .refl _
  | n + 1, i, m => (hk.mapErr _).bind fun _ => (hv.mapErr _).bind fun _ =>
      decMapLoop_agrees hk hv n (i + 1) _

theorem decHashMapOn_agrees [DecidableEq α] (fits : Nat → Bool) {k k' : Dec α} {v v' : Dec β}
    (hk : AgreesOn k k') (hv : AgreesOn v v') : AgreesOn (decHashMap k v) (decHashMapOn fits k' v') :=
  (AgreesOn.refl _).bind fun n => AgreesOn.reserve _ (decMapLoop_agrees hk hv n 0 _)

theorem decSetLoop_agrees [DecidableEq α] {k k' : Dec α} (hk : AgreesOn k k') : (n i : Nat) →
    (m : SetVal α) → AgreesOn (decSetLoop k n i m) (decSetLoop k' n i m)
  | 0, _, _ => .refl _
  | n + 1, i, m => (hk.mapErr _).bind fun _ => decSetLoop_agrees hk n (i + 1) _

theorem decHashSetOn_agrees [DecidableEq α] (fits : Nat → Bool) {k k' : Dec α} (hk : AgreesOn k k') :
    AgreesOn (decHashSet k) (decHashSetOn fits k') :=
  (AgreesOn.refl _).bind fun n => AgreesOn.reserve _ (decSetLoop_agrees hk n 0 _)

mutual

theorem Ty.decodeOn_agrees (T : Target) : (t : Ty) → AgreesOn t.decode (t.decodeOn T)
  | .wrap _ t => t.decodeOn_agrees T
  | .array t n => decItems_agrees (t.decodeOn_agrees T) n 0
  | .seq .linkedList t => decSeq_agrees (t.decodeOn_agrees T)
  | .seq .vec t => decVecOn_agrees _ (t.decodeOn_agrees T)
  | .seq .slice t => decVecOn_agrees _ (t.decodeOn_agrees T)
  | .hashMap k v => @decHashMapOn_agrees _ _ k.decEq _ _ _ _ _ (k.decodeOn_agrees T) (v.decodeOn_agrees T)
  | .hashSet k => @decHashSetOn_agrees _ k.decEq _ _ _ (k.decodeOn_agrees T)
  | .option t => (AgreesOn.refl _).bind fun _ =>
      .ite ((t.decodeOn_agrees T).bind fun _ => .refl _) (.refl _)
  | .result t e => (AgreesOn.refl _).bind fun _ =>
      .ite (((e.decodeOn_agrees T).mapErr _).bind fun _ => .refl _)
        (((t.decodeOn_agrees T).mapErr _).bind fun _ => .refl _)
  | .bound t => (AgreesOn.refl _).bind fun _ =>
      .ite (((t.decodeOn_agrees T).mapErr _).bind fun _ => .refl _)
        (.ite (((t.decodeOn_agrees T).mapErr _).bind fun _ => .refl _) (.refl _))
  | .range t => (t.decodeOn_agrees T).bind fun _ => (t.decodeOn_agrees T).bind fun _ => .refl _
  | .rangeInclusive t => (t.decodeOn_agrees T).bind fun _ => (t.decodeOn_agrees T).bind fun _ => .refl _
  | .lock _ t => (t.decodeOn_agrees T).bind fun _ => .refl _
  | .refCell t => (t.decodeOn_agrees T).bind fun _ => .refl _
  | .sizedSlice t n => decSizedSlice_agrees (t.decodeOn_agrees T) n
  | .tuple fs => fs.decodeOn_agrees T id
  | .struct fs => fs.decodeOn_agrees T _
  | .enum r vs => (AgreesOn.refl _).bind fun x => vs.decodeOn_agrees T none x
  | .num _ => .refl _
  | .bool => .refl _
  | .char => .refl _
  | .usize => .refl _
  | .isize => .refl _
  | .nonZero _ => .refl _
  | .unit _ => .refl _
  | .infallible => .refl _
  | .duration => .refl _
  | .systemTime _ => .refl _
  | .ipv4 => .refl _
  | .ipv6 => .refl _
  | .ipAddr => .refl _
  | .socketAddrV4 => .refl _
  | .socketAddrV6 => .refl _
  | .socketAddr => .refl _
  | .str _ => .refl _
  | .cStr _ => .refl _
  | .sizedStr _ => .refl _

theorem Fields.decodeOn_agrees (T : Target) : (fs : Fields) → (g : DecErr → DecErr) →
    AgreesOn (fs.decode g) (fs.decodeOn T g)
  | .nil, _ => .refl _
  | .cons t fs, g => ((t.decodeOn_agrees T).mapErr g).bind fun _ =>
      (fs.decodeOn_agrees T g).bind fun _ => .refl _

theorem Variants.decodeOn_agrees (T : Target) : (vs : Variants) → (prev : Option Nat) → (x : Int) →
    AgreesOn (vs.decode prev x) (vs.decodeOn T prev x)
  | .nil, _, _ => .refl _
  | .cons d fs vs, prev, x => .ite ((fs.decodeOn_agrees T _).bind fun _ => .refl _)
      ((vs.decodeOn_agrees T _ x).bind fun _ => .refl _)

end

/-! Types that cannot ask for too much do not. -/

/-- Not a buffer that is too large. -/
abbrev notOverflow : Panic → Prop := (· ≠ .capacityOverflow)

/-- Any undefined behaviour. -/
abbrev anyUb : Ub → Prop := fun _ => True

theorem hsOverflow : notOverflow .shortInput := fun h => nomatch h

theorem Ty.decode_ends_any (t : Ty) : Ends t.decode (fun _ => True) notOverflow anyUb :=
  (Ty.decode_ends hsOverflow t (everywhere_of_all (fun t => by
    unfold Allows
    split
    · exact fun h => nomatch h
    · exact fun h => nomatch h
    · trivial
    · trivial) t)).mono fun _ _ => trivial

theorem reserve_ends {b : Bool} (h : b = true) : Ends (Dec.reserve b) (fun _ => True) notOverflow anyUb := by
  subst h
  exact Ends.pure trivial

theorem Ends.anything {m : Dec α} {P : α → Prop} (h : Ends m P notOverflow anyUb) :
    Ends m (fun _ => True) notOverflow anyUb := h.mono fun _ _ => trivial

/-- Keys that have no values keep the loop from getting to the values. -/
theorem decMapLoop_ends_key [DecidableEq α] {k : Dec α} {v : Dec β}
    (hk : Ends k (fun _ => False) notOverflow anyUb) : (n i : Nat) → (m : MapVal α β) →
    Ends (decMapLoop k v n i m) (fun _ => True) notOverflow anyUb
  | 0, _, _ => Ends.pure trivial
  | n + 1, i, m => Ends.bind (hk.mapErr _) fun _ h => h.elim

mutual

theorem Ty.decodeOn_ends (T : Target) : (t : Ty) → ¬ Overflows T t →
    Ends (t.decodeOn T) (fun _ => Decodable t) notOverflow anyUb
  | .wrap _ t, h => t.decodeOn_ends T h
  | .array t n, h => by
    cases n with
    | zero => exact Ends.pure (.inl rfl)
    | succ n =>
      refine (decItems_ends (t.decodeOn_ends T fun h' => h ⟨by omega, h'⟩) (n + 1) 0).mono ?_
      rintro ⟨l, hl⟩ hx
      match l, hl with
      | a :: l, _ => exact .inr (hx a List.mem_cons_self)
  | .seq .linkedList t, h => (decSeq_ends hsOverflow (t.decodeOn_ends T h)).mono fun _ _ => trivial
  | .seq .vec t, h => (Ends.bind (decUsize_ends hsOverflow) fun n hn => Ends.bind (reserve_ends (by
      have : ¬ T.isizeMax < 65535 * T.size t := fun h' => h (.inl h')
      have h2 := Nat.mul_le_mul_right (T.size t) hn
      simp only [Target.vecFits, decide_eq_true_eq]; omega)) fun _ _ =>
        Ends.bind (decItems_ends (t.decodeOn_ends T fun h' => h (.inr h')) n 0) fun _ _ =>
          Ends.pure trivial)
  | .seq .slice t, h => (Ends.bind (decUsize_ends hsOverflow) fun n hn => Ends.bind (reserve_ends (by
      have : ¬ T.isizeMax < 65535 * T.size t := fun h' => h (.inl h')
      have h2 := Nat.mul_le_mul_right (T.size t) hn
      simp only [Target.vecFits, decide_eq_true_eq]; omega)) fun _ _ =>
        Ends.bind (decItems_ends (t.decodeOn_ends T fun h' => h (.inr h')) n 0) fun _ _ =>
          Ends.pure trivial)
  | .hashMap k v, h => Ends.bind (decUsize_ends hsOverflow) fun n hn => Ends.bind (reserve_ends (by
      cases hf : T.mapFits k v n with
      | true => rfl
      | false => exact absurd (.inl ⟨n, hn, hf⟩) h)) fun _ _ => by
        have hk := k.decodeOn_ends T fun h' => h (.inr (.inl h'))
        by_cases hd : Decodable k
        · exact (@decMapLoop_ends _ _ _ _ k.decEq _ _ _ _ hk.anything
            (v.decodeOn_ends T fun h' => h (.inr (.inr ⟨hd, h'⟩))).anything n 0 ⟨[], List.nodup_nil⟩
            (by simp)).mono fun _ _ => trivial
        · exact (@decMapLoop_ends_key _ _ k.decEq _ _ (hk.mono fun _ h' => hd h') n 0 _).mono
            fun _ _ => trivial
  | .hashSet k, h => Ends.bind (decUsize_ends hsOverflow) fun n hn => Ends.bind (reserve_ends (by
      cases hf : T.setFits k n with
      | true => rfl
      | false => exact absurd (.inl ⟨n, hn, hf⟩) h)) fun _ _ =>
        (@decSetLoop_ends _ _ _ k.decEq _ _ (k.decodeOn_ends T fun h' => h (.inr h')).anything n 0
          ⟨[], List.nodup_nil⟩ (by simp)).mono fun _ _ => trivial
  | .option t, h => Ends.bind (decBool_ends hsOverflow) fun _ _ =>
      Ends.ite (fun _ => Ends.bind (t.decodeOn_ends T h) fun _ _ => Ends.pure trivial)
        fun _ => Ends.pure trivial
  | .result t e, h => Ends.bind (decBool_ends hsOverflow) fun _ _ =>
      Ends.ite (fun _ => Ends.bind ((e.decodeOn_ends T fun h' => h (.inr h')).mapErr _) fun _ hv =>
          Ends.pure (.inr hv))
        fun _ => Ends.bind ((t.decodeOn_ends T fun h' => h (.inl h')).mapErr _) fun _ hv =>
          Ends.pure (.inl hv)
  | .bound t, h => Ends.bind (decU8_ends hsOverflow) fun _ _ =>
      Ends.ite (fun _ => Ends.bind ((t.decodeOn_ends T h).mapErr _) fun _ _ => Ends.pure trivial)
        fun _ => Ends.ite
          (fun _ => Ends.bind ((t.decodeOn_ends T h).mapErr _) fun _ _ => Ends.pure trivial)
          fun _ => Ends.ite (fun _ => Ends.pure trivial) fun _ => Ends.fail
  | .range t, h => Ends.bind (t.decodeOn_ends T h) fun _ hv =>
      Ends.bind (t.decodeOn_ends T h) fun _ _ => Ends.pure hv
  | .rangeInclusive t, h => Ends.bind (t.decodeOn_ends T h) fun _ hv =>
      Ends.bind (t.decodeOn_ends T h) fun _ _ => Ends.pure hv
  | .lock _ t, h => Ends.bind (t.decodeOn_ends T h) fun _ hv => Ends.pure hv
  | .refCell t, h => Ends.bind (t.decodeOn_ends T h) fun _ hv => Ends.pure hv
  | .sizedSlice t n, h => Ends.bind (decUsize_ends hsOverflow) fun len _ =>
      Ends.ite (fun _ => Ends.fail) fun _ => by
        cases n with
        | zero => exact Ends.pure (.inl rfl)
        | succ n =>
          refine Ends.bind (decItems_ends (t.decodeOn_ends T fun h' => h ⟨by omega, h'⟩) (n + 1) 0) ?_
          rintro ⟨l, hl⟩ hx
          match l, hl with
          | a :: l, _ => exact Ends.pure (.inr (hx a List.mem_cons_self))
  | .tuple fs, h => fs.decodeOn_ends T _ h
  | .struct fs, h => fs.decodeOn_ends T _ h
  | .enum r vs, h => Ends.bind (decRepr_ends hsOverflow r) fun x hx =>
      vs.decodeOn_ends T r none (explicitDiscs vs) 0 rfl (by simp) x hx.2 h
  | .num k, _ => (Ty.decode_ends_any (.num k)).mono fun _ _ => trivial
  | .bool, _ => (Ty.decode_ends_any .bool).mono fun _ _ => trivial
  | .char, _ => (Ty.decode_ends_any .char).mono fun _ _ => trivial
  | .usize, _ => (Ty.decode_ends_any .usize).mono fun _ _ => trivial
  | .isize, _ => (Ty.decode_ends_any .isize).mono fun _ _ => trivial
  | .nonZero r, _ => (Ty.decode_ends_any (.nonZero r)).mono fun _ _ => trivial
  | .unit k, _ => (Ty.decode_ends_any (.unit k)).mono fun _ _ => trivial
  | .infallible, _ => Ends.panic (fun h => nomatch h)
  | .duration, _ => (Ty.decode_ends_any .duration).mono fun _ _ => trivial
  | .systemTime p, _ => (Ty.decode_ends_any (.systemTime p)).mono fun _ _ => trivial
  | .ipv4, _ => (Ty.decode_ends_any .ipv4).mono fun _ _ => trivial
  | .ipv6, _ => (Ty.decode_ends_any .ipv6).mono fun _ _ => trivial
  | .ipAddr, _ => (Ty.decode_ends_any .ipAddr).mono fun _ _ => trivial
  | .socketAddrV4, _ => (Ty.decode_ends_any .socketAddrV4).mono fun _ _ => trivial
  | .socketAddrV6, _ => (Ty.decode_ends_any .socketAddrV6).mono fun _ _ => trivial
  | .socketAddr, _ => (Ty.decode_ends_any .socketAddr).mono fun _ _ => trivial
  | .str k, _ => (Ty.decode_ends_any (.str k)).mono fun _ _ => trivial
  | .cStr k, _ => (Ty.decode_ends_any (.cStr k)).mono fun _ _ => trivial
  | .sizedStr n, _ => (Ty.decode_ends_any (.sizedStr n)).mono fun _ _ => trivial

theorem Fields.decodeOn_ends (T : Target) : (fs : Fields) → (g : DecErr → DecErr) →
    ¬ OverflowsFields T fs → Ends (fs.decodeOn T g) (fun _ => DecodableFields fs) notOverflow anyUb
  | .nil, _, _ => Ends.pure trivial
  | .cons t fs, g, h => Ends.bind ((t.decodeOn_ends T fun h' => h (.inl h')).mapErr g) fun _ hv =>
      Ends.bind (fs.decodeOn_ends T g fun h' => h (.inr ⟨hv, h'⟩)) fun _ hvs => Ends.pure ⟨hv, hvs⟩

theorem Variants.decodeOn_ends (T : Target) : (vs : Variants) → (r : Repr) → (prev : Option Nat) →
    (ex : List (Option Nat)) → (j : Nat) → ex.drop j = explicitDiscs vs →
    (prev = if j = 0 then none else some (discOf ex (j - 1))) → (x : Int) → ReprEncodable r x →
    ¬ OverflowsVariants T r ex vs j →
    Ends (vs.decodeOn T prev x) (fun _ => DecodableVariants r ex vs j) notOverflow anyUb
  | .nil, _, _, _, _, _, _, _, _, _ => Ends.fail
  | .cons d fs vs, r, prev, ex, j, h, hp, x, hx, ho => by
    have hd : discOf ex j = nextDisc prev d := by
      rw [hp]
      apply discOf_step
      have := congrArg (·[0]?) h
      simpa [explicitDiscs] using this
    have hdrop : ex.drop (j + 1) = explicitDiscs vs := by
      have := congrArg List.tail h
      simpa [explicitDiscs] using this
    refine Ends.ite (fun e => ?_) fun _ => ?_
    · subst e
      rw [← hd] at hx
      exact Ends.bind (fs.decodeOn_ends T _ fun h' => ho (.inl ⟨hx, h'⟩)) fun _ hv =>
        Ends.pure (.inl ⟨hx, hv⟩)
    · exact Ends.bind (vs.decodeOn_ends T r _ ex (j + 1) hdrop (by simp [hd]) x hx
        fun h' => ho (.inr h')) fun _ hv => Ends.pure (.inr hv)

end

/-! The other types do, for some octets. -/

theorem Parses.yields {A : List Byte → α → Prop} {R : List Byte → DecErr → Prop} {m : Dec α}
    (h : Parses m A R) {bs : List Byte} {a : α} (ha : A bs a) : Yields m bs (.ok a) := fun pre rest =>
  ((h _ _).1 a).mpr ⟨bs, ⟨⟨rest, List.drop_left⟩, rfl⟩, ha⟩

theorem bind_overflow {m : Dec α} {f : α → Dec β} {w : List Byte}
    (h : Yields m w (.panic .capacityOverflow)) : Yields (m >>= f) w (.panic .capacityOverflow) := by
  intro pre rest
  show Dec.bind m f _ = _
  unfold Dec.bind
  rw [h pre rest]

theorem reserve_yields {b : Bool} (h : b = true) : Yields (Dec.reserve b) [] (.ok ()) := by
  subst h; exact Yields.pure ()

theorem reserve_overflow {b : Bool} (h : b = false) :
    Yields (Dec.reserve b) [] (.panic .capacityOverflow) := by
  subst h; exact Yields.panic _

theorem decItems_yields_same {dec : Dec α} {w : List Byte} {a : α} (h : Yields dec w (.ok a)) :
    (n i : Nat) → ∃ bs l, Yields (decItems dec n i) bs (.ok l)
  | 0, _ => ⟨[], _, Yields.pure _⟩
  | n + 1, i => by
    obtain ⟨bs, l, ih⟩ := decItems_yields_same h n (i + 1)
    exact ⟨_, _, (h.mapErr _).bind (ih.map (Yields.pure _))⟩

theorem decItems_overflow {dec : Dec α} {w : List Byte} (h : Yields dec w (.panic .capacityOverflow))
    (n i : Nat) (hn : n ≠ 0) : Yields (decItems dec n i) w (.panic .capacityOverflow) := by
  cases n with
  | zero => exact absurd rfl hn
  | succ n => exact bind_overflow (h.mapErr _)

theorem decSizedSlice_yields {dec : Dec α} {n : Nat} {w : List Byte} {l : Items α n}
    (h : Yields (decItems dec n 0) w (.ok l)) : ∃ bs v, Yields (decSizedSlice dec n) bs (.ok v) := by
  refine ⟨_, ⟨l.val.take 0, Nat.zero_le n⟩, (decUsize_yields 0 (by decide)).bind (w' := w) ?_⟩
  rw [if_neg (Nat.not_lt_zero n)]
  exact h.map (Yields.pure _)

theorem decSizedSlice_overflow {dec : Dec α} {n : Nat} {w : List Byte}
    (h : Yields (decItems dec n 0) w (.panic .capacityOverflow)) :
    Yields (decSizedSlice dec n) (leBytes 2 0 ++ w) (.panic .capacityOverflow) := by
  refine (decUsize_yields 0 (by decide)).bind (w' := w) ?_
  rw [if_neg (Nat.not_lt_zero n)]
  exact bind_overflow h

theorem decMapLoop_overflow_key [DecidableEq α] {k : Dec α} {v : Dec β} {w : List Byte}
    (h : Yields k w (.panic .capacityOverflow)) (m : MapVal α β) :
    Yields (decMapLoop k v 1 0 m) w (.panic .capacityOverflow) := bind_overflow (h.mapErr _)

theorem decMapLoop_overflow_value [DecidableEq α] {k : Dec α} {v : Dec β} {w w' : List Byte} {a : α}
    (h : Yields k w (.ok a)) (h' : Yields v w' (.panic .capacityOverflow)) (m : MapVal α β) :
    Yields (decMapLoop k v 1 0 m) (w ++ w') (.panic .capacityOverflow) :=
  (h.mapErr _).bind (bind_overflow (h'.mapErr _))

theorem decSetLoop_overflow [DecidableEq α] {k : Dec α} {w : List Byte}
    (h : Yields k w (.panic .capacityOverflow)) (m : SetVal α) :
    Yields (decSetLoop k 1 0 m) w (.panic .capacityOverflow) := bind_overflow (h.mapErr _)

/-- A length and a buffer that is too large. -/
theorem prefix_overflow {fits : Nat → Bool} {n : Nat} (hn : n ≤ 65535) (h : fits n = false)
    {f : Nat → Dec β} :
    Yields (decUsize >>= fun len => Dec.reserve (fits len) >>= fun _ => f len) (leBytes 2 n)
      (.panic .capacityOverflow) :=
  (decUsize_yields n hn).map (bind_overflow (reserve_overflow h))

/-- A length, a buffer and the rest. -/
theorem prefix_yields {fits : Nat → Bool} {n : Nat} (hn : n ≤ 65535) (h : fits n = true)
    {f : Nat → Dec β} {w : List Byte} {r : Res DecErr β} (hf : Yields (f n) w r) :
    Yields (decUsize >>= fun len => Dec.reserve (fits len) >>= fun _ => f len) (leBytes 2 n ++ w) r :=
  (decUsize_yields n hn).bind ((reserve_yields h).bind hf)

/-- One item, if its buffer fits, or none. -/
theorem prefix_one {fits : Nat → Bool} {f : Nat → Dec β} {w : List Byte}
    (hf : Yields (f 1) w (.panic .capacityOverflow)) :
    ∃ bs, Yields (decUsize >>= fun len => Dec.reserve (fits len) >>= fun _ => f len) bs
      (.panic .capacityOverflow) := by
  cases h : fits 1 with
  | true => exact ⟨_, prefix_yields (by decide) h hf⟩
  | false => exact ⟨_, prefix_overflow (by decide) h⟩

theorem decBool_true : Yields decBool [1] (.ok true) := decBool_decodes true

theorem decBool_false : Yields decBool [0] (.ok false) := decBool_decodes false

theorem decRepr_yields_disc (r : Repr) (x : Int) (h : ReprEncodable r x) (h' : r.InRange x) :
    Yields (decRepr r) (reprWire r x) (.ok x) := (decRepr_parses r).yields ⟨h, h', rfl⟩

/-- Types without buffers. -/
theorem Ty.takes_of (t : Ty) (hw : t.WF) (h : Decodable t) : ∃ bs v, Yields t.decode bs (.ok v) := by
  obtain ⟨bs, v, h⟩ := (decodable_iff t hw).mp h
  exact ⟨bs, v, (Ty.decode_parses t hw).yields h⟩

/-- The discriminants in front are not those of the variants behind. -/
theorem disc_ne {d : Option Nat} {fs : Fields} {vs : Variants} {prev : Option Nat}
    {ex : List (Option Nat)} {j : Nat} (h : ex.drop j = explicitDiscs (.cons d fs vs))
    (hp : prev = if j = 0 then none else some (discOf ex (j - 1)))
    (hn : ((Variants.cons d fs vs).discs prev).Nodup) :
    discOf ex j = nextDisc prev d ∧ ex.drop (j + 1) = explicitDiscs vs ∧
      (some (nextDisc prev d) = if j + 1 = 0 then none else some (discOf ex (j + 1 - 1))) ∧
      (vs.discs (some (nextDisc prev d))).Nodup ∧
      ∀ k < variantCount vs, (discOf ex (j + 1 + k) : Int) ≠ (nextDisc prev d : Int) := by
  have hd : discOf ex j = nextDisc prev d := by
    rw [hp]
    apply discOf_step
    have := congrArg (·[0]?) h
    simpa [explicitDiscs] using this
  have hdrop : ex.drop (j + 1) = explicitDiscs vs := by
    have := congrArg List.tail h
    simpa [explicitDiscs] using this
  simp only [Variants.discs, List.nodup_cons] at hn
  have hds := discs_eq vs (some (nextDisc prev d)) ex (j + 1) hdrop (by simp [hd])
  refine ⟨hd, hdrop, by simp [hd], hn.2, fun k hk e => hn.1 ?_⟩
  rw [hds]
  exact List.mem_map.mpr ⟨k, List.mem_range.mpr hk, by omega⟩

mutual

/-- What can be decoded at all can be decoded without reserving anything. -/
theorem Ty.decodeOn_takes (T : Target) : (t : Ty) → t.WF → Decodable t →
    ∃ bs v, Yields (t.decodeOn T) bs (.ok v)
  | .wrap _ t, hw, h => t.decodeOn_takes T hw h
  | .array t n, hw, h => by
    rcases h with rfl | h
    · exact ⟨[], _, Yields.pure _⟩
    · obtain ⟨bs, v, h⟩ := t.decodeOn_takes T hw h
      exact decItems_yields_same h n 0
  | .seq .linkedList t, _, _ =>
    ⟨_, _, (decUsize_yields 0 (by decide)).bind
      (Yields.map (a := ⟨[], rfl⟩) (Yields.pure _) (Yields.pure _))⟩
  | .seq .vec t, _, _ => ⟨_, _, prefix_yields (n := 0) (by decide) (by simp [Target.vecFits])
      (Yields.map (a := ⟨[], rfl⟩) (Yields.pure _) (Yields.pure _))⟩
  | .seq .slice t, _, _ => ⟨_, _, prefix_yields (n := 0) (by decide) (by simp [Target.vecFits])
      (Yields.map (a := ⟨[], rfl⟩) (Yields.pure _) (Yields.pure _))⟩
  | .hashMap k v, _, _ => ⟨_, _, prefix_yields (n := 0) (by decide) (T.tableFits_zero _) (Yields.pure _)⟩
  | .hashSet k, _, _ => ⟨_, _, prefix_yields (n := 0) (by decide) (T.tableFits_zero _) (Yields.pure _)⟩
  | .option t, _, _ => ⟨_, none, decBool_false.bind (Yields.pure _)⟩
  | .result t e, hw, h => by
    rcases h with h | h
    · obtain ⟨bs, v, h⟩ := t.decodeOn_takes T hw.1 h
      exact ⟨_, .ok v, decBool_false.bind ((h.mapErr _).map (Yields.pure _))⟩
    · obtain ⟨bs, v, h⟩ := e.decodeOn_takes T hw.2 h
      exact ⟨_, .err v, decBool_true.bind ((h.mapErr _).map (Yields.pure _))⟩
  | .bound t, _, _ => ⟨_, .unbounded, (Yields.ofDecodes (decU8_decodes 2 (by decide))).bind
      (Yields.pure _)⟩
  | .range t, hw, h => by
    obtain ⟨bs, v, h⟩ := t.decodeOn_takes T hw h
    exact ⟨_, _, h.bind (h.map (Yields.pure _))⟩
  | .rangeInclusive t, hw, h => by
    obtain ⟨bs, v, h⟩ := t.decodeOn_takes T hw h
    exact ⟨_, _, h.bind (h.map (Yields.pure _))⟩
  | .lock _ t, hw, h => by
    obtain ⟨bs, v, h⟩ := t.decodeOn_takes T hw h
    exact ⟨_, _, h.map (Yields.pure _)⟩
  | .refCell t, hw, h => by
    obtain ⟨bs, v, h⟩ := t.decodeOn_takes T hw h
    exact ⟨_, _, h.map (Yields.pure _)⟩
  | .sizedSlice t n, hw, h => by
    have : ∃ bs l, Yields (decItems (t.decodeOn T) n 0) bs (.ok l) := by
      rcases h with rfl | h
      · exact ⟨[], _, Yields.pure _⟩
      · obtain ⟨bs, v, h⟩ := t.decodeOn_takes T hw h
        exact decItems_yields_same h n 0
    obtain ⟨bs, l, h⟩ := this
    exact decSizedSlice_yields h
  | .tuple fs, hw, h => fs.decodeOn_takes T _ hw h
  | .struct fs, hw, h => fs.decodeOn_takes T _ hw h
  | .enum r vs, hw, h => by
    have hd := discs_eq_discOf vs
    have hr : ∀ k < variantCount vs, r.InRange (discOf (explicitDiscs vs) (0 + k)) := by
      intro k hk
      rw [Nat.zero_add]
      exact hw.2.1 _ (by rw [hd]; exact List.mem_map.mpr ⟨k, List.mem_range.mpr hk, rfl⟩) |>.1
    obtain ⟨k, hk, he, bs, v, h⟩ := vs.decodeOn_takes T r none (explicitDiscs vs) 0 rfl (by simp)
      hw.1 hw.2.2 h
    exact ⟨_, v, (decRepr_yields_disc r _ he (hr k hk)).bind h⟩
  | .num k, hw, h => (Ty.num k).takes_of hw h
  | .bool, hw, h => Ty.bool.takes_of hw h
  | .char, hw, h => Ty.char.takes_of hw h
  | .usize, hw, h => Ty.usize.takes_of hw h
  | .isize, hw, h => Ty.isize.takes_of hw h
  | .nonZero r, hw, h => (Ty.nonZero r).takes_of hw h
  | .unit k, hw, h => (Ty.unit k).takes_of hw h
  | .infallible, _, h => h.elim
  | .duration, hw, h => Ty.duration.takes_of hw h
  | .systemTime p, hw, h => (Ty.systemTime p).takes_of hw h
  | .ipv4, hw, h => Ty.ipv4.takes_of hw h
  | .ipv6, hw, h => Ty.ipv6.takes_of hw h
  | .ipAddr, hw, h => Ty.ipAddr.takes_of hw h
  | .socketAddrV4, hw, h => Ty.socketAddrV4.takes_of hw h
  | .socketAddrV6, hw, h => Ty.socketAddrV6.takes_of hw h
  | .socketAddr, hw, h => Ty.socketAddr.takes_of hw h
  | .str k, hw, h => (Ty.str k).takes_of hw h
  | .cStr k, hw, h => (Ty.cStr k).takes_of hw h
  | .sizedStr n, hw, h => (Ty.sizedStr n).takes_of hw h

theorem Fields.decodeOn_takes (T : Target) : (fs : Fields) → (g : DecErr → DecErr) → fs.WF →
    DecodableFields fs → ∃ bs v, Yields (fs.decodeOn T g) bs (.ok v)
  | .nil, _, _, _ => ⟨[], (), Yields.pure _⟩
  | .cons t fs, g, hw, h => by
    obtain ⟨bs, v, h1⟩ := t.decodeOn_takes T hw.1 h.1
    obtain ⟨bs', vs, h2⟩ := fs.decodeOn_takes T g hw.2 h.2
    exact ⟨_, (v, vs), (h1.mapErr g).bind (h2.map (Yields.pure _))⟩

theorem Variants.decodeOn_takes (T : Target) : (vs : Variants) → (r : Repr) → (prev : Option Nat) →
    (ex : List (Option Nat)) → (j : Nat) → ex.drop j = explicitDiscs vs →
    (prev = if j = 0 then none else some (discOf ex (j - 1))) → (vs.discs prev).Nodup → vs.WF →
    DecodableVariants r ex vs j → ∃ k < variantCount vs, ReprEncodable r (discOf ex (j + k)) ∧
      ∃ bs v, Yields (vs.decodeOn T prev (discOf ex (j + k))) bs (.ok v)
  | .nil, _, _, _, _, _, _, _, _, h => h.elim
  | .cons d fs vs, r, prev, ex, j, h, hp, hn, hw, ho => by
    obtain ⟨hd, hdrop, hp', hn', hne⟩ := disc_ne h hp hn
    rcases ho with ⟨he, ho⟩ | ho
    · obtain ⟨bs, v, ho⟩ := fs.decodeOn_takes T (fun e => .badField e.toGeneric) hw.1 ho
      refine ⟨0, Nat.succ_pos _, he, bs, .inl v, ?_⟩
      show Yields (if (discOf ex j : Int) = _ then _ else _) _ _
      rw [if_pos (congrArg Nat.cast hd)]
      exact ho.map (Yields.pure _)
    · obtain ⟨k, hk, he, bs, v, ho⟩ := vs.decodeOn_takes T r _ ex (j + 1) hdrop hp' hn' hw.2 ho
      refine ⟨k + 1, Nat.succ_lt_succ hk, ?_⟩
      rw [show j + (k + 1) = j + 1 + k by omega]
      refine ⟨he, bs, .inr v, ?_⟩
      show Yields (if _ then _ else _) _ _
      rw [if_neg (hne k hk)]
      exact ho.map (Yields.pure _)

end

mutual

theorem Ty.decodeOn_overflow (T : Target) : (t : Ty) → t.WF → Overflows T t →
    ∃ bs, Yields (t.decodeOn T) bs (.panic .capacityOverflow)
  | .wrap _ t, hw, h => t.decodeOn_overflow T hw h
  | .array t n, hw, h => by
    obtain ⟨bs, h'⟩ := t.decodeOn_overflow T hw h.2
    exact ⟨bs, decItems_overflow h' n 0 h.1⟩
  | .seq .linkedList t, hw, h => by
    obtain ⟨bs, h'⟩ := t.decodeOn_overflow T hw h
    exact ⟨_, (decUsize_yields 1 (by decide)).bind (bind_overflow (decItems_overflow h' 1 0 (by decide)))⟩
  | .seq .vec t, hw, h => by
    rcases h with h | h
    · exact ⟨_, prefix_overflow (n := 65535) (by decide) (by simp [Target.vecFits]; omega)⟩
    · obtain ⟨bs, h'⟩ := t.decodeOn_overflow T hw h
      exact prefix_one (bind_overflow (decItems_overflow h' 1 0 (by decide)))
  | .seq .slice t, hw, h => by
    rcases h with h | h
    · exact ⟨_, prefix_overflow (n := 65535) (by decide) (by simp [Target.vecFits]; omega)⟩
    · obtain ⟨bs, h'⟩ := t.decodeOn_overflow T hw h
      exact prefix_one (bind_overflow (decItems_overflow h' 1 0 (by decide)))
  | .hashMap k v, hw, h => by
    rcases h with ⟨n, hn, h⟩ | h | ⟨hd, h⟩
    · exact ⟨_, prefix_overflow hn h⟩
    · obtain ⟨bs, h'⟩ := k.decodeOn_overflow T hw.1 h
      exact prefix_one (@decMapLoop_overflow_key _ _ k.decEq _ _ _ h' _)
    · obtain ⟨bs, a, hk⟩ := k.decodeOn_takes T hw.1 hd
      obtain ⟨bs', h'⟩ := v.decodeOn_overflow T hw.2 h
      exact prefix_one (@decMapLoop_overflow_value _ _ k.decEq _ _ _ _ _ hk h' _)
  | .hashSet k, hw, h => by
    rcases h with ⟨n, hn, h⟩ | h
    · exact ⟨_, prefix_overflow hn h⟩
    · obtain ⟨bs, h'⟩ := k.decodeOn_overflow T hw h
      exact prefix_one (@decSetLoop_overflow _ k.decEq _ _ h' _)
  | .option t, hw, h => by
    obtain ⟨bs, h'⟩ := t.decodeOn_overflow T hw h
    exact ⟨_, decBool_true.bind (bind_overflow h')⟩
  | .result t e, hw, h => by
    rcases h with h | h
    · obtain ⟨bs, h'⟩ := t.decodeOn_overflow T hw.1 h
      exact ⟨_, decBool_false.bind (bind_overflow (h'.mapErr _))⟩
    · obtain ⟨bs, h'⟩ := e.decodeOn_overflow T hw.2 h
      exact ⟨_, decBool_true.bind (bind_overflow (h'.mapErr _))⟩
  | .bound t, hw, h => by
    obtain ⟨bs, h'⟩ := t.decodeOn_overflow T hw h
    exact ⟨_, (Yields.ofDecodes (decU8_decodes 0 (by decide))).bind (bind_overflow (h'.mapErr _))⟩
  | .range t, hw, h => by
    obtain ⟨bs, h'⟩ := t.decodeOn_overflow T hw h
    exact ⟨_, bind_overflow h'⟩
  | .rangeInclusive t, hw, h => by
    obtain ⟨bs, h'⟩ := t.decodeOn_overflow T hw h
    exact ⟨_, bind_overflow h'⟩
  | .lock _ t, hw, h => by
    obtain ⟨bs, h'⟩ := t.decodeOn_overflow T hw h
    exact ⟨_, bind_overflow h'⟩
  | .refCell t, hw, h => by
    obtain ⟨bs, h'⟩ := t.decodeOn_overflow T hw h
    exact ⟨_, bind_overflow h'⟩
  | .sizedSlice t n, hw, h => by
    obtain ⟨bs, h'⟩ := t.decodeOn_overflow T hw h.2
    exact ⟨_, decSizedSlice_overflow (decItems_overflow h' n 0 h.1)⟩
  | .tuple fs, hw, h => fs.decodeOn_overflow T _ hw h
  | .struct fs, hw, h => fs.decodeOn_overflow T _ hw h
  | .enum r vs, hw, h => by
    have hd := discs_eq_discOf vs
    have hr : ∀ k < variantCount vs, r.InRange (discOf (explicitDiscs vs) (0 + k)) := by
      intro k hk
      rw [Nat.zero_add]
      exact hw.2.1 _ (by rw [hd]; exact List.mem_map.mpr ⟨k, List.mem_range.mpr hk, rfl⟩) |>.1
    obtain ⟨k, hk, he, bs, h⟩ := vs.decodeOn_overflow T r none (explicitDiscs vs) 0 rfl (by simp)
      hw.1 hw.2.2 h
    exact ⟨_, (decRepr_yields_disc r _ he (hr k hk)).bind h⟩
  | .num k, _, h => h.elim
  | .bool, _, h => h.elim
  | .char, _, h => h.elim
  | .usize, _, h => h.elim
  | .isize, _, h => h.elim
  | .nonZero r, _, h => h.elim
  | .unit k, _, h => h.elim
  | .infallible, _, h => h.elim
  | .duration, _, h => h.elim
  | .systemTime p, _, h => h.elim
  | .ipv4, _, h => h.elim
  | .ipv6, _, h => h.elim
  | .ipAddr, _, h => h.elim
  | .socketAddrV4, _, h => h.elim
  | .socketAddrV6, _, h => h.elim
  | .socketAddr, _, h => h.elim
  | .str k, _, h => h.elim
  | .cStr k, _, h => h.elim
  | .sizedStr n, _, h => h.elim

theorem Fields.decodeOn_overflow (T : Target) : (fs : Fields) → (g : DecErr → DecErr) → fs.WF →
    OverflowsFields T fs → ∃ bs, Yields (fs.decodeOn T g) bs (.panic .capacityOverflow)
  | .nil, _, _, h => h.elim
  | .cons t fs, g, hw, h => by
    rcases h with h | ⟨hd, h⟩
    · obtain ⟨bs, h'⟩ := t.decodeOn_overflow T hw.1 h
      exact ⟨_, bind_overflow (h'.mapErr g)⟩
    · obtain ⟨bs, v, h1⟩ := t.decodeOn_takes T hw.1 hd
      obtain ⟨bs', h2⟩ := fs.decodeOn_overflow T g hw.2 h
      exact ⟨_, (h1.mapErr g).bind (bind_overflow h2)⟩

theorem Variants.decodeOn_overflow (T : Target) : (vs : Variants) → (r : Repr) → (prev : Option Nat) →
    (ex : List (Option Nat)) → (j : Nat) → ex.drop j = explicitDiscs vs →
    (prev = if j = 0 then none else some (discOf ex (j - 1))) → (vs.discs prev).Nodup → vs.WF →
    OverflowsVariants T r ex vs j → ∃ k < variantCount vs, ReprEncodable r (discOf ex (j + k)) ∧
      ∃ bs, Yields (vs.decodeOn T prev (discOf ex (j + k))) bs (.panic .capacityOverflow)
  | .nil, _, _, _, _, _, _, _, _, h => h.elim
  | .cons d fs vs, r, prev, ex, j, h, hp, hn, hw, ho => by
    obtain ⟨hd, hdrop, hp', hn', hne⟩ := disc_ne h hp hn
    rcases ho with ⟨he, ho⟩ | ho
    · obtain ⟨bs, ho⟩ := fs.decodeOn_overflow T (fun e => .badField e.toGeneric) hw.1 ho
      refine ⟨0, Nat.succ_pos _, he, bs, ?_⟩
      show Yields (if (discOf ex j : Int) = _ then _ else _) _ _
      rw [if_pos (congrArg Nat.cast hd)]
      exact bind_overflow ho
    · obtain ⟨k, hk, he, bs, ho⟩ := vs.decodeOn_overflow T r _ ex (j + 1) hdrop hp' hn' hw.2 ho
      refine ⟨k + 1, Nat.succ_lt_succ hk, ?_⟩
      rw [show j + (k + 1) = j + 1 + k by omega]
      refine ⟨he, bs, ?_⟩
      show Yields (if _ then _ else _) _ _
      rw [if_neg (hne k hk)]
      exact bind_overflow ho

end

/-! Types all of whose collections fit. -/

mutual

theorem not_overflows_of_roomy (T : Target) : (t : Ty) → Everywhere (Roomy T) t → ¬ Overflows T t
  | .wrap _ t, h => not_overflows_of_roomy T t h.2
  | .array t n, h => fun h' => not_overflows_of_roomy T t h.2 h'.2
  | .seq .linkedList t, h => not_overflows_of_roomy T t h.2
  | .seq .vec t, h => fun h' => h'.elim (Nat.not_lt.mpr h.1) (not_overflows_of_roomy T t h.2)
  | .seq .slice t, h => fun h' => h'.elim (Nat.not_lt.mpr h.1) (not_overflows_of_roomy T t h.2)
  | .hashMap k v, h => by
    rintro (⟨n, hn, h'⟩ | h' | ⟨_, h'⟩)
    · have := h.1 n hn
      rw [h'] at this
      cases this
    · exact not_overflows_of_roomy T k h.2.1 h'
    · exact not_overflows_of_roomy T v h.2.2 h'
  | .hashSet k, h => by
    rintro (⟨n, hn, h'⟩ | h')
    · have := h.1 n hn
      rw [h'] at this
      cases this
    · exact not_overflows_of_roomy T k h.2 h'
  | .option t, h => not_overflows_of_roomy T t h.2
  | .result t e, h => fun h' =>
      h'.elim (not_overflows_of_roomy T t h.2.1) (not_overflows_of_roomy T e h.2.2)
  | .bound t, h => not_overflows_of_roomy T t h.2
  | .range t, h => not_overflows_of_roomy T t h.2
  | .rangeInclusive t, h => not_overflows_of_roomy T t h.2
  | .lock _ t, h => not_overflows_of_roomy T t h.2
  | .refCell t, h => not_overflows_of_roomy T t h.2
  | .sizedSlice t n, h => fun h' => not_overflows_of_roomy T t h.2 h'.2
  | .tuple fs, h => not_overflowsFields_of_roomy T fs h.2
  | .struct fs, h => not_overflowsFields_of_roomy T fs h.2
  | .enum r vs, h => not_overflowsVariants_of_roomy T r _ vs 0 h.2
  | .num k, _ => id
  | .bool, _ => id
  | .char, _ => id
  | .usize, _ => id
  | .isize, _ => id
  | .nonZero r, _ => id
  | .unit k, _ => id
  | .infallible, _ => id
  | .duration, _ => id
  | .systemTime p, _ => id
  | .ipv4, _ => id
  | .ipv6, _ => id
  | .ipAddr, _ => id
  | .socketAddrV4, _ => id
  | .socketAddrV6, _ => id
  | .socketAddr, _ => id
  | .str k, _ => id
  | .cStr k, _ => id
  | .sizedStr n, _ => id

theorem not_overflowsFields_of_roomy (T : Target) : (fs : Fields) → EverywhereFields (Roomy T) fs →
    ¬ OverflowsFields T fs
  | .nil, _ => id
  | .cons t fs, h => fun h' =>
      h'.elim (not_overflows_of_roomy T t h.1) fun h' => not_overflowsFields_of_roomy T fs h.2 h'.2

theorem not_overflowsVariants_of_roomy (T : Target) (r : Repr) (ex : List (Option Nat)) :
    (vs : Variants) → (j : Nat) → EverywhereVariants (Roomy T) vs → ¬ OverflowsVariants T r ex vs j
  | .nil, _, _ => id
  | .cons _ fs vs, j, h => fun h' => h'.elim (fun h' => not_overflowsFields_of_roomy T fs h.1 h'.2)
      (not_overflowsVariants_of_roomy T r ex vs (j + 1) h.2)

end

end Oct
