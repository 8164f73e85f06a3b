import Verif.Proofs.Delimited
import Verif.Spec.Trailing
/-
Encodings of values that have hash maps and sets at their end only.
-/
namespace Oct
open Spec
set_option linter.unusedVariables false

theorem items_trail {α β : Type} {wr : α → List Byte} {c : α → β} : ∀ (l l' : List α),
    (∀ x ∈ l, ∀ y ∈ l', ∀ r s, wr x ++ r = wr y ++ s → c x = c y ∧ r = s) →
    (∀ x ∈ l, wr x ≠ []) → (∀ x ∈ l', wr x ≠ []) →
    l.flatMap wr = l'.flatMap wr → l.map c = l'.map c
  | [], [], _, _, _, _ => rfl
  | x :: l, y :: l', hd, hl, hl', h => by
    rw [List.flatMap_cons, List.flatMap_cons] at h
    obtain ⟨h1, h2⟩ := hd x List.mem_cons_self y List.mem_cons_self _ _ h
    have h3 := items_trail l l'
      (fun x hx y hy => hd x (List.mem_cons_of_mem _ hx) y (List.mem_cons_of_mem _ hy))
      (fun x hx => hl x (List.mem_cons_of_mem _ hx)) (fun x hx => hl' x (List.mem_cons_of_mem _ hx)) h2
    rw [List.map_cons, List.map_cons, h1, h3]
  | [], y :: l', _, _, hl', h => by
    rw [List.flatMap_cons] at h
    exact absurd (List.append_eq_nil_iff.mp h.symm).1 (hl' y List.mem_cons_self)
  | x :: l, [], _, hl, _, h => by
    rw [List.flatMap_cons] at h
    exact absurd (List.append_eq_nil_iff.mp h).1 (hl x List.mem_cons_self)

theorem map_self {α : Type} {c : α → α} : ∀ (l : List α), (∀ x ∈ l, c x = x) → l.map c = l
  | [], _ => rfl
  | x :: l, h => by
    rw [List.map_cons, h x List.mem_cons_self, map_self l fun y hy => h y (List.mem_cons_of_mem _ hy)]

theorem Ty.wire_delim_all (t : Ty) (hw : t.WF) (v w : t.Val) (h1 : Delimited t v) (h2 : Delimited t w)
    (e1 : Encodable t v) (e2 : Encodable t w) (h : wire t v = wire t w) : carried t v = carried t w :=
  (Ty.wire_delim t hw v w h1 h2 e1 e2 [] [] (by rw [h])).1

mutual

/-- Values without hash maps and sets end with none. -/
theorem Ty.trailing : (t : Ty) → (v : t.Val) → Delimited t v → Trailing t v
  | .num _, _, h => h
  | .bool, _, h => h
  | .char, _, h => h
  | .usize, _, h => h
  | .isize, _, h => h
  | .nonZero _, _, h => h
  | .unit _, _, h => h
  | .duration, _, h => h
  | .systemTime _, _, h => h
  | .ipv4, _, h => h
  | .ipv6, _, h => h
  | .ipAddr, _, h => h
  | .socketAddrV4, _, h => h
  | .socketAddrV6, _, h => h
  | .socketAddr, _, h => h
  | .str _, _, h => h
  | .cStr _, _, h => h
  | .sizedStr _, _, h => h
  | .array _ _, _, h => h
  | .seq _ _, _, h => h
  | .range _, _, h => h
  | .rangeInclusive _, _, h => h
  | .sizedSlice _ _, _, h => h
  | .infallible, v, _ => nomatch v
  | .hashMap _ _, _, h => h.elim
  | .hashSet _, _, h => h.elim
  | .wrap _ t, v, h => Ty.trailing t v h
  | .option t, none, _ => trivial
  | .option t, some v, h => Ty.trailing t v h
  | .result t e, .ok v, h => Ty.trailing t v h
  | .result t e, .err v, h => Ty.trailing e v h
  | .bound t, .included v, h => Ty.trailing t v h
  | .bound t, .excluded v, h => Ty.trailing t v h
  | .bound t, .unbounded, _ => trivial
  | .lock _ t, v, h => Ty.trailing t v.val h
  | .refCell t, v, h => Ty.trailing t v.val h
  | .tuple fs, v, h => Fields.trailing fs v h
  | .struct fs, v, h => Fields.trailing fs v h
  | .enum _ vs, v, h => Variants.trailing vs v h

theorem Fields.trailing : (fs : Fields) → (v : fs.Val) → DelimitedFields fs v → TrailingFields fs v
  | .nil, _, _ => trivial
  | .cons t fs, v, h => ⟨.inr h.1, Fields.trailing fs v.2 h.2⟩

theorem Variants.trailing : (vs : Variants) → (v : vs.Val) → DelimitedVariants vs v →
    TrailingVariants vs v
  | .nil, v, _ => nomatch v
  | .cons _ fs vs, .inl v, h => Fields.trailing fs v h
  | .cons _ fs vs, .inr v, h => Variants.trailing vs v h

end

mutual

/-- If the encodings of two values that have hash maps and sets at their ends only are the same, then
so are the values. -/
theorem Ty.wire_trail : (t : Ty) → t.WF → (v w : t.Val) → Trailing t v → Trailing t w →
    Encodable t v → Encodable t w → wire t v = wire t w → carried t v = carried t w
  | .num k, hw, v, w, h1, h2, e1, e2, h => Ty.wire_delim_all _ hw v w h1 h2 e1 e2 h
  | .bool, hw, v, w, h1, h2, e1, e2, h => Ty.wire_delim_all _ hw v w h1 h2 e1 e2 h
  | .char, hw, v, w, h1, h2, e1, e2, h => Ty.wire_delim_all _ hw v w h1 h2 e1 e2 h
  | .usize, hw, v, w, h1, h2, e1, e2, h => Ty.wire_delim_all _ hw v w h1 h2 e1 e2 h
  | .isize, hw, v, w, h1, h2, e1, e2, h => Ty.wire_delim_all _ hw v w h1 h2 e1 e2 h
  | .nonZero k, hw, v, w, h1, h2, e1, e2, h => Ty.wire_delim_all _ hw v w h1 h2 e1 e2 h
  | .unit k, hw, v, w, h1, h2, e1, e2, h => Ty.wire_delim_all _ hw v w h1 h2 e1 e2 h
  | .duration, hw, v, w, h1, h2, e1, e2, h => Ty.wire_delim_all _ hw v w h1 h2 e1 e2 h
  | .systemTime k, hw, v, w, h1, h2, e1, e2, h => Ty.wire_delim_all _ hw v w h1 h2 e1 e2 h
  | .ipv4, hw, v, w, h1, h2, e1, e2, h => Ty.wire_delim_all _ hw v w h1 h2 e1 e2 h
  | .ipv6, hw, v, w, h1, h2, e1, e2, h => Ty.wire_delim_all _ hw v w h1 h2 e1 e2 h
  | .ipAddr, hw, v, w, h1, h2, e1, e2, h => Ty.wire_delim_all _ hw v w h1 h2 e1 e2 h
  | .socketAddrV4, hw, v, w, h1, h2, e1, e2, h => Ty.wire_delim_all _ hw v w h1 h2 e1 e2 h
  | .socketAddrV6, hw, v, w, h1, h2, e1, e2, h => Ty.wire_delim_all _ hw v w h1 h2 e1 e2 h
  | .socketAddr, hw, v, w, h1, h2, e1, e2, h => Ty.wire_delim_all _ hw v w h1 h2 e1 e2 h
  | .str k, hw, v, w, h1, h2, e1, e2, h => Ty.wire_delim_all _ hw v w h1 h2 e1 e2 h
  | .cStr k, hw, v, w, h1, h2, e1, e2, h => Ty.wire_delim_all _ hw v w h1 h2 e1 e2 h
  | .sizedStr k, hw, v, w, h1, h2, e1, e2, h => Ty.wire_delim_all _ hw v w h1 h2 e1 e2 h
  | .infallible, _, v, _, _, _, _, _, _ => nomatch v
  | .array t n, hw, v, w, h1, h2, e1, e2, h => Ty.wire_delim_all (.array t n) hw v w h1 h2 e1 e2 h
  | .seq k t, hw, v, w, h1, h2, e1, e2, h => Ty.wire_delim_all (.seq k t) hw v w h1 h2 e1 e2 h
  | .range t, hw, v, w, h1, h2, e1, e2, h => Ty.wire_delim_all (.range t) hw v w h1 h2 e1 e2 h
  | .rangeInclusive t, hw, v, w, h1, h2, e1, e2, h =>
    Ty.wire_delim_all (.rangeInclusive t) hw v w h1 h2 e1 e2 h
  | .sizedSlice t n, hw, v, w, h1, h2, e1, e2, h =>
    Ty.wire_delim_all (.sizedSlice t n) hw v w h1 h2 e1 e2 h
  | .hashMap k t, hw, v, w, h1, h2, e1, e2, h => by
    have hk := items_trail (c := fun p : k.Val × t.Val => (carried k p.1, carried t p.2)) v.val w.val
      (fun x hx y hy r s hxy => by
        rw [List.append_assoc, List.append_assoc] at hxy
        obtain ⟨ha, hxy⟩ := Ty.wire_delim k hw.1 x.1 y.1 (h1 x hx).1.1 (h2 y hy).1.1 (e1 x hx).1
          (e2 y hy).1 _ _ hxy
        obtain ⟨hb, hxy⟩ := Ty.wire_delim t hw.2 x.2 y.2 (h1 x hx).1.2 (h2 y hy).1.2 (e1 x hx).2
          (e2 y hy).2 _ _ hxy
        exact ⟨by rw [ha, hb], hxy⟩)
      (fun x hx => (h1 x hx).2.2) (fun x hx => (h2 x hx).2.2) h
    rw [map_self v.val fun x hx => Prod.ext (h1 x hx).2.1.1 (h1 x hx).2.1.2,
      map_self w.val fun x hx => Prod.ext (h2 x hx).2.1.1 (h2 x hx).2.1.2] at hk
    exact Subtype.ext hk
  | .hashSet k, hw, v, w, h1, h2, e1, e2, h => by
    have hk := items_trail (c := carried k) v.val w.val
      (fun x hx y hy => Ty.wire_delim k hw x y (h1 x hx).1 (h2 y hy).1 (e1 x hx) (e2 y hy))
      (fun x hx => (h1 x hx).2.2) (fun x hx => (h2 x hx).2.2) h
    rw [map_self v.val fun x hx => (h1 x hx).2.1, map_self w.val fun x hx => (h2 x hx).2.1] at hk
    exact Subtype.ext hk
  | .wrap k t, hw, v, w, h1, h2, e1, e2, h => Ty.wire_trail t hw v w h1 h2 e1 e2 h
  | .option t, hw, none, none, h1, h2, e1, e2, h => rfl
  | .option t, hw, some v, some w, h1, h2, e1, e2, h =>
    congrArg some (Ty.wire_trail t hw v w h1 h2 e1 e2 (List.cons.inj h).2)
  | .option t, hw, none, some w, h1, h2, e1, e2, h =>
    absurd (show (0 : Byte) = 1 from (List.cons.inj h).1) (by decide)
  | .option t, hw, some v, none, h1, h2, e1, e2, h =>
    absurd (show (1 : Byte) = 0 from (List.cons.inj h).1) (by decide)
  | .result t e, hw, .ok v, .ok w, h1, h2, e1, e2, h =>
    congrArg ResultVal.ok (Ty.wire_trail t hw.1 v w h1 h2 e1 e2 (List.cons.inj h).2)
  | .result t e, hw, .err v, .err w, h1, h2, e1, e2, h =>
    congrArg ResultVal.err (Ty.wire_trail e hw.2 v w h1 h2 e1 e2 (List.cons.inj h).2)
  | .result t e, hw, .ok v, .err w, h1, h2, e1, e2, h =>
    absurd (show (0 : Byte) = 1 from (List.cons.inj h).1) (by decide)
  | .result t e, hw, .err v, .ok w, h1, h2, e1, e2, h =>
    absurd (show (1 : Byte) = 0 from (List.cons.inj h).1) (by decide)
  | .bound t, hw, .included v, .included w, h1, h2, e1, e2, h =>
    congrArg BoundVal.included (Ty.wire_trail t hw v w h1 h2 e1 e2 (List.cons.inj h).2)
  | .bound t, hw, .excluded v, .excluded w, h1, h2, e1, e2, h =>
    congrArg BoundVal.excluded (Ty.wire_trail t hw v w h1 h2 e1 e2 (List.cons.inj h).2)
  | .bound t, hw, .unbounded, .unbounded, h1, h2, e1, e2, h => rfl
  | .bound t, hw, .included v, .excluded w, h1, h2, e1, e2, h =>
    absurd (show (0 : Byte) = 1 from (List.cons.inj h).1) (by decide)
  | .bound t, hw, .included v, .unbounded, h1, h2, e1, e2, h =>
    absurd (show (0 : Byte) = 2 from (List.cons.inj h).1) (by decide)
  | .bound t, hw, .excluded v, .included w, h1, h2, e1, e2, h =>
    absurd (show (1 : Byte) = 0 from (List.cons.inj h).1) (by decide)
  | .bound t, hw, .excluded v, .unbounded, h1, h2, e1, e2, h =>
    absurd (show (1 : Byte) = 2 from (List.cons.inj h).1) (by decide)
  | .bound t, hw, .unbounded, .included w, h1, h2, e1, e2, h =>
    absurd (show (2 : Byte) = 0 from (List.cons.inj h).1) (by decide)
  | .bound t, hw, .unbounded, .excluded w, h1, h2, e1, e2, h =>
    absurd (show (2 : Byte) = 1 from (List.cons.inj h).1) (by decide)
  | .lock k t, hw, v, w, h1, h2, e1, e2, h =>
    congrArg (LockVal.mk false) (Ty.wire_trail t hw v.val w.val h1 h2 e1 e2 h)
  | .refCell t, hw, v, w, h1, h2, e1, e2, h =>
    congrArg (RefCellVal.mk false) (Ty.wire_trail t hw v.val w.val h1 h2 e1.2 e2.2 h)
  | .tuple fs, hw, v, w, h1, h2, e1, e2, h => Fields.wire_trail fs hw v w h1 h2 e1 e2 h
  | .struct fs, hw, v, w, h1, h2, e1, e2, h => Fields.wire_trail fs hw v w h1 h2 e1 e2 h
  | .enum k vs, hw, v, w, h1, h2, e1, e2, h =>
    Variants.wire_trail vs k none (explicitDiscs vs) 0 (by simp) (by simp) hw.1
      (fun d hd => (hw.2.1 d hd).1) hw.2.2 v w h1 h2 e1 e2 h

/-- See `Ty.wire_trail`. -/
theorem Fields.wire_trail : (fs : Fields) → fs.WF → (v w : fs.Val) → TrailingFields fs v →
    TrailingFields fs w → EncodableFields fs v → EncodableFields fs w →
    wireFields fs v = wireFields fs w → carriedFields fs v = carriedFields fs w
  | .nil, _, v, w, _, _, _, _, h => rfl
  | .cons t fs, hw, (a, b), (a', b'), h1, h2, e1, e2, h => by
    have h : wire t a ++ wireFields fs b = wire t a' ++ wireFields fs b' := h
    have key : carried t a = carried t a' ∧ wireFields fs b = wireFields fs b' := by
      by_cases hT : Delimited t a ∧ Delimited t a'
      · exact Ty.wire_delim t hw.1 a a' hT.1 hT.2 e1.1 e2.1 _ _ h
      · have hn : fs = .nil := by
          rcases h1.1 with h1 | h1
          · exact h1.1
          · rcases h2.1 with h2 | h2
            · exact h2.1
            · exact absurd ⟨h1, h2⟩ hT
        subst hn
        have h : wire t a ++ [] = wire t a' ++ [] := h
        rw [List.append_nil, List.append_nil] at h
        exact ⟨Ty.wire_trail t hw.1 a a' (h1.1.elim (·.2) (Ty.trailing t a))
          (h2.1.elim (·.2) (Ty.trailing t a')) e1.1 e2.1 h, rfl⟩
    have hb := Fields.wire_trail fs hw.2 b b' h1.2 h2.2 e1.2 e2.2 key.2
    show (carried t a, carriedFields fs b) = (carried t a', carriedFields fs b')
    rw [key.1, hb]

/-- See `Ty.wire_trail`. -/
theorem Variants.wire_trail : (vs : Variants) → (k : Repr) → (prev : Option Nat) →
    (explicit : List (Option Nat)) → (j : Nat) → (explicit.drop j = explicitDiscs vs) →
    (prev = if j = 0 then none else some (discOf explicit (j - 1))) →
    (vs.discs prev).Nodup → (∀ d ∈ vs.discs prev, k.InRange d) → vs.WF → (v w : vs.Val) →
    TrailingVariants vs v → TrailingVariants vs w → EncodableVariants k explicit vs j v →
    EncodableVariants k explicit vs j w →
    wireVariants k explicit vs j v = wireVariants k explicit vs j w →
    carriedVariants vs v = carriedVariants vs w
  | .nil, _, _, _, _, _, _, _, _, _, v, _, _, _, _, _, _ => nomatch v
  | .cons d fs vs, k, prev, explicit, j, h, hp, hn, hr, hw, .inl v, .inl w, h1, h2, e1, e2, he => by
    have he : reprWire k (discOf explicit j) ++ wireFields fs v
        = reprWire k (discOf explicit j) ++ wireFields fs w := he
    exact congrArg Sum.inl (Fields.wire_trail fs hw.1 v w h1 h2 e1.2 e2.2 (List.append_cancel_left he))
  | .cons d fs vs, k, prev, explicit, j, h, hp, hn, hr, hw, .inr v, .inr w, h1, h2, e1, e2, he => by
    have hd : discOf explicit j = nextDisc prev d := by
      rw [hp]
      apply discOf_step
      have := congrArg (·[0]?) h
      simpa [explicitDiscs] using this
    have hdrop : explicit.drop (j + 1) = explicitDiscs vs := by
      have := congrArg List.tail h
      simpa [explicitDiscs] using this
    simp only [Variants.discs, List.nodup_cons] at hn
    exact congrArg Sum.inr (Variants.wire_trail vs k (some (nextDisc prev d)) explicit (j + 1) hdrop
      (by simp [hd]) hn.2 (fun x hx => hr x (by simp [Variants.discs, hx])) hw.2 v w h1 h2 e1 e2 he)
  | .cons d fs vs, k, prev, explicit, j, h, hp, hn, hr, hw, .inl v, .inr w, h1, h2, e1, e2, he => by
    exact (Variants.other_disc d fs vs k prev explicit j h hp hn hr v w e1 e2 [] []
      (by rw [List.append_nil, List.append_nil]; exact he)).elim
  | .cons d fs vs, k, prev, explicit, j, h, hp, hn, hr, hw, .inr v, .inl w, h1, h2, e1, e2, he => by
    exact (Variants.other_disc d fs vs k prev explicit j h hp hn hr w v e2 e1 [] []
      (by rw [List.append_nil, List.append_nil]; exact he.symm)).elim

end

end Oct
