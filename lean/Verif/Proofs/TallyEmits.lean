import Verif.Proofs.TallyTy
/- Lemmas for C133: which types always write an octet. -/
set_option linter.unusedVariables false
namespace Oct
open Spec

theorem leBytes_append_ne {n : Nat} (h : 0 < n) (x : Nat) (l : List UInt8) : leBytes n x ++ l ≠ [] := by
  intro e
  have := congrArg List.length e
  simp only [List.length_append, List.length_nil, leBytes, List.length_map, List.length_range] at this
  omega

theorem leBytesInt_append_ne {n : Nat} (h : 0 < n) (x : Int) (l : List UInt8) : leBytesInt n x ++ l ≠ [] :=
  leBytes_append_ne h _ l

theorem reprWire_append_ne (r : Repr) (x : Int) (l : List UInt8) : reprWire r x ++ l ≠ [] := by
  cases r with
  | int k => exact leBytesInt_append_ne (by cases k <;> decide) _ l
  | usize => exact leBytesInt_append_ne (by decide) _ l
  | isize => exact leBytesInt_append_ne (by decide) _ l

theorem items_reverse_ne_nil {n : Nat} (h : 0 < n) (a : Items UInt8 n) (l : List UInt8) : a.val.reverse ++ l ≠ [] := by
  intro e
  have := congrArg List.length e
  simp only [List.length_append, List.length_reverse, a.property, List.length_nil] at this
  omega

theorem wireVariants_ne_nil (r : Repr) (ex : List (Option Nat)) : (vs : Variants) → (j : Nat) → (v : vs.Val) →
    wireVariants r ex vs j v ≠ []
  | .nil, _, v => nomatch v
  | .cons _ fs vs, j, .inl v => reprWire_append_ne r _ _
  | .cons _ fs vs, j, .inr v => wireVariants_ne_nil r ex vs (j + 1) v

mutual

theorem Ty.wire_ne_nil : (t : Ty) → EmitsSome t → (v : t.Val) → wire t v ≠ []
  | .num k, _, v => by
    have := leBytes_append_ne (n := k.bytes) (by
      cases k with
      | int k => cases k <;> decide
      | _ => decide) (show BitVec (8 * k.bytes) from v).toNat []
    rwa [List.append_nil] at this
  | .bool, _, v => List.cons_ne_nil _ _
  | .char, _, v => by
    have := leBytes_append_ne (n := 4) (by decide) (show Char from v).toNat []
    rwa [List.append_nil] at this
  | .usize, _, v => by
    have := leBytes_append_ne (n := 2) (by decide) v []
    rwa [List.append_nil] at this
  | .isize, _, v => by
    have := leBytesInt_append_ne (n := 2) (by decide) v []
    rwa [List.append_nil] at this
  | .nonZero r, _, v => by
    have := reprWire_append_ne r v.val []
    rwa [List.append_nil] at this
  | .infallible, _, v => nomatch v
  | .wrap _ t, h, v => t.wire_ne_nil h v
  | .array t n, h, v => by
    intro e
    have hv : v.val ≠ [] := fun e' => h.1 (by rw [← v.property, e']; rfl)
    obtain ⟨x, l, hx⟩ := List.exists_cons_of_ne_nil hv
    change v.val.flatMap (wire t) = [] at e
    rw [hx, List.flatMap_cons] at e
    exact t.wire_ne_nil h.2 x (List.append_eq_nil_iff.mp e).1
  | .seq _ t, _, v => leBytes_append_ne (by decide) _ _
  | .option t, _, none => List.cons_ne_nil _ _
  | .option t, _, some v => List.cons_ne_nil _ _
  | .result t e, _, .ok v => List.cons_ne_nil _ _
  | .result t e, _, .err v => List.cons_ne_nil _ _
  | .bound t, _, .included v => List.cons_ne_nil _ _
  | .bound t, _, .excluded v => List.cons_ne_nil _ _
  | .bound t, _, .unbounded => List.cons_ne_nil _ _
  | .range t, h, v => fun e => t.wire_ne_nil h v.start (List.append_eq_nil_iff.mp e).1
  | .rangeInclusive t, h, v => fun e => t.wire_ne_nil h v.start (List.append_eq_nil_iff.mp e).1
  | .lock _ t, h, v => t.wire_ne_nil h v.val
  | .refCell t, h, v => t.wire_ne_nil h v.val
  | .duration, _, v => leBytes_append_ne (by decide) _ _
  | .systemTime _, _, v => by
    have := leBytesInt_append_ne (n := 8) (by decide) (v.val.tdiv nanosPerSec) []
    rwa [List.append_nil] at this
  | .ipv4, _, v => by
    have := items_reverse_ne_nil (by decide) v []
    rwa [List.append_nil] at this
  | .ipv6, _, v => by
    have := items_reverse_ne_nil (by decide) v []
    rwa [List.append_nil] at this
  | .ipAddr, _, .v4 _ => List.cons_ne_nil _ _
  | .ipAddr, _, .v6 _ => List.cons_ne_nil _ _
  | .socketAddrV4, _, v => items_reverse_ne_nil (by decide) _ _
  | .socketAddrV6, _, v => by
    show v.ip.val.reverse ++ _ ++ _ ++ _ ≠ []
    rw [List.append_assoc, List.append_assoc]
    exact items_reverse_ne_nil (by decide) _ _
  | .socketAddr, _, .v4 _ => List.cons_ne_nil _ _
  | .socketAddr, _, .v6 _ => List.cons_ne_nil _ _
  | .str _, _, v => leBytes_append_ne (by decide) _ _
  | .cStr _, _, v => leBytes_append_ne (by decide) _ _
  | .sizedStr _, _, v => leBytes_append_ne (by decide) _ _
  | .sizedSlice t _, _, v => leBytes_append_ne (by decide) _ _
  | .tuple fs, h, v => fs.wire_ne_nil h v
  | .struct fs, h, v => fs.wire_ne_nil h v
  | .enum r vs, _, v => wireVariants_ne_nil r _ vs 0 v

theorem Fields.wire_ne_nil : (fs : Fields) → EmitsSomeFields fs → (v : fs.Val) → wireFields fs v ≠ []
  | .cons t fs, .inl h, v => fun e => t.wire_ne_nil h v.1 (List.append_eq_nil_iff.mp e).1
  | .cons t fs, .inr h, v => fun e => fs.wire_ne_nil h v.2 (List.append_eq_nil_iff.mp e).2

end

mutual

theorem Ty.wire_nil : (t : Ty) → ¬ EmitsSome t → ∃ v : t.Val, wire t v = [] ∧ Encodable t v
  | .num k, h => absurd trivial h
  | .bool, h => absurd trivial h
  | .char, h => absurd trivial h
  | .usize, h => absurd trivial h
  | .isize, h => absurd trivial h
  | .nonZero r, h => absurd trivial h
  | .unit _, _ => ⟨(), rfl, trivial⟩
  | .infallible, h => absurd trivial h
  | .wrap _ t, h => t.wire_nil h
  | .array t n, h => by
    by_cases hn : n = 0
    · subst hn
      exact ⟨⟨[], rfl⟩, rfl, fun x hx => nomatch hx⟩
    · obtain ⟨v, hv, hE⟩ := t.wire_nil fun ht => h ⟨hn, ht⟩
      refine ⟨⟨List.replicate n v, List.length_replicate⟩, ?_, fun x hx => ?_⟩
      · show (List.replicate n v).flatMap (wire t) = []
        rw [List.flatMap_eq_nil_iff]
        intro x hx
        rw [List.eq_of_mem_replicate hx, hv]
      · rw [List.eq_of_mem_replicate hx]
        exact hE
  | .seq _ t, h => absurd trivial h
  | .hashMap k v, _ => ⟨⟨[], by simp⟩, rfl, fun x hx => nomatch hx⟩
  | .hashSet k, _ => ⟨⟨[], by simp⟩, rfl, fun x hx => nomatch hx⟩
  | .option t, h => absurd trivial h
  | .result t e, h => absurd trivial h
  | .bound t, h => absurd trivial h
  | .range t, h => by
    obtain ⟨v, hv, hE⟩ := t.wire_nil h
    exact ⟨⟨v, v⟩, by show wire t v ++ wire t v = []; rw [hv]; rfl, hE, hE⟩
  | .rangeInclusive t, h => by
    obtain ⟨v, hv, hE⟩ := t.wire_nil h
    exact ⟨⟨v, v, false⟩, by show wire t v ++ wire t v = []; rw [hv]; rfl, hE, hE⟩
  | .lock _ t, h => by
    obtain ⟨v, hv, hE⟩ := t.wire_nil h
    exact ⟨⟨false, v⟩, hv, hE⟩
  | .refCell t, h => by
    obtain ⟨v, hv, hE⟩ := t.wire_nil h
    exact ⟨⟨false, v⟩, hv, rfl, hE⟩
  | .duration, h => absurd trivial h
  | .systemTime _, h => absurd trivial h
  | .ipv4, h => absurd trivial h
  | .ipv6, h => absurd trivial h
  | .ipAddr, h => absurd trivial h
  | .socketAddrV4, h => absurd trivial h
  | .socketAddrV6, h => absurd trivial h
  | .socketAddr, h => absurd trivial h
  | .str _, h => absurd trivial h
  | .cStr _, h => absurd trivial h
  | .sizedStr _, h => absurd trivial h
  | .sizedSlice t _, h => absurd trivial h
  | .tuple fs, h => fs.wire_nil h
  | .struct fs, h => fs.wire_nil h
  | .enum r vs, h => absurd trivial h

theorem Fields.wire_nil : (fs : Fields) → ¬ EmitsSomeFields fs →
    ∃ v : fs.Val, wireFields fs v = [] ∧ EncodableFields fs v
  | .nil, _ => ⟨(), rfl, trivial⟩
  | .cons t fs, h => by
    obtain ⟨v, hv, hE⟩ := t.wire_nil fun ht => h (.inl ht)
    obtain ⟨w, hw, hE'⟩ := fs.wire_nil fun hf => h (.inr hf)
    exact ⟨(v, w), by show wire t v ++ wireFields fs w = []; rw [hv, hw]; rfl, hE, hE'⟩

end

end Oct

namespace Oct
open Spec Effort

/-- The call itself is paid for. -/
theorem Ty.tally_ge (p : Prices) (t : Ty) (v : t.Val) (o : Output) : p.call ≤ (t.tally p v o).2 := by
  cases t with
  | seq k t => cases k <;> exact Nat.le_add_right _ _
  | option t => cases v <;> exact Nat.le_add_right _ _
  | result t e => cases v <;> exact Nat.le_add_right _ _
  | bound t => cases v <;> exact Nat.le_add_right _ _
  | ipAddr => cases v <;> exact Nat.le_add_right _ _
  | socketAddr => cases v <;> exact Nat.le_add_right _ _
  | str k => cases k <;> exact Nat.le_add_right _ _
  | cStr k => cases k <;> exact Nat.le_add_right _ _
  | infallible => exact nomatch v
  | _ => exact Nat.le_add_right _ _

theorem tallyItems_ge {α : Type} {c : Nat} {m : α → Effort} (h : ∀ v o, c ≤ (m v o).2)
    (wrap : Nat → EncErr → EncErr) : (i : Nat) → (l : List α) → (o : Output) →
    finished (tallyItems m wrap i l o).1.1 = true → c * l.length ≤ (tallyItems m wrap i l o).2
  | _, [], _, _ => Nat.le_refl _
  | i, v :: vs, o, hf => by
    change finished (((m v).mapErr (wrap i)).andThen (tallyItems m wrap (i + 1) vs) o).1.1 = true at hf
    show _ ≤ (((m v).mapErr (wrap i)).andThen (tallyItems m wrap (i + 1) vs) o).2
    cases h1 : finished ((m v).mapErr (wrap i) o).1.1 with
    | true =>
      rw [andThen_ok h1] at hf ⊢
      have h2 := tallyItems_ge h wrap (i + 1) vs _ hf
      have h3 : c ≤ ((m v).mapErr (wrap i) o).2 := h v o
      rw [List.length_cons, Nat.mul_add, Nat.mul_one]
      dsimp only
      omega
    | false =>
      rw [(andThen_not h1).1] at hf
      exact nomatch hf

theorem andThen_ge {m n : Effort} {c : Nat} {o : Output} (hf : finished (m.andThen n o).1.1 = true)
    (h : ∀ o', finished (n o').1.1 = true → c ≤ (n o').2) : c ≤ (m.andThen n o).2 := by
  cases h1 : finished (m o).1.1 with
  | true =>
    rw [andThen_ok h1] at hf ⊢
    have := h _ hf
    dsimp only
    omega
  | false =>
    rw [(andThen_not h1).1] at hf
    exact nomatch hf

/-- Each item of a collection is paid for. -/
theorem tallySeq_ge (p : Prices) (k : SeqKind) (t : Ty) (v : List t.Val) (o : Output)
    (hf : finished (Ty.tally p (.seq k t) v o).1.1 = true) : p.call * v.length ≤ (Ty.tally p (.seq k t) v o).2 := by
  have hI := fun wrap o' => tallyItems_ge (fun x o => t.tally_ge p x o) wrap 0 v o'
  cases k with
  | slice =>
    exact Nat.le_trans (andThen_ge (m := (tallyUsize p v.length).mapErr .badLength)
      (n := tallyItems (t.tally p) (fun i e => .badItem (.item i e)) 0 v) hf (hI _)) (Nat.le_add_left _ _)
  | vec =>
    exact Nat.le_trans (Nat.le_trans (andThen_ge (m := (tallyUsize p v.length).mapErr .badLength)
      (n := tallyItems (t.tally p) (fun i e => .badItem (.item i e)) 0 v) hf (hI _)) (Nat.le_add_left _ _))
      (Nat.le_add_left _ _)
  | linkedList =>
    exact Nat.le_trans (andThen_ge (m := (tallyUsize p v.length).mapErr .badLength)
      (n := tallyItems (t.tally p) (fun i e => .badItem (.pair i e)) 0 v) hf (hI _)) (Nat.le_add_left _ _)

end Oct
