import Verif.Proofs.Values
import Verif.Spec.Derived
/- Derived types. -/
namespace Oct
open Spec
set_option linter.unusedVariables false

theorem Spec.VariantAt.wire {vs : Variants} {i : Nat} {fs : Fields} {f : fs.Val → vs.Val}
    (h : VariantAt vs i fs f) (r : Repr) (ex : List (Option Nat)) (fv : fs.Val) : ∀ j,
    wireVariants r ex vs j (f fv) = reprWire r (discOf ex (j + i)) ++ wireFields fs fv ∧
    (EncodableVariants r ex vs j (f fv) ↔
      ReprEncodable r (discOf ex (j + i)) ∧ EncodableFields fs fv) := by
  induction h with
  | here d fs vs => intro j; exact ⟨rfl, Iff.rfl⟩
  | there d fs' h ih =>
    intro j
    have := ih fv (j + 1)
    rw [Nat.add_assoc, Nat.add_comm 1] at this
    exact this

theorem Spec.VariantAt.lt {vs : Variants} {i : Nat} {fs : Fields} {f : fs.Val → vs.Val}
    (h : VariantAt vs i fs f) : i < variantCount vs := by
  induction h with
  | here d fs vs => exact Nat.succ_pos _
  | there d fs' h ih => exact Nat.succ_lt_succ ih

/-- Every number below the count is that of one variant. -/
theorem Spec.VariantAt.exists : (vs : Variants) → (i : Nat) → i < variantCount vs →
    ∃ fs f, VariantAt vs i fs f
  | .nil, i, h => absurd h (Nat.not_lt_zero i)
  | .cons d fs vs, 0, h => ⟨fs, _, .here d fs vs⟩
  | .cons d fs vs, i + 1, h => by
    obtain ⟨fs', f, h'⟩ := Spec.VariantAt.exists vs i (Nat.lt_of_succ_lt_succ h)
    exact ⟨fs', _, .there d fs h'⟩

/-- Every value is made of one variant. -/
theorem Spec.VariantAt.cover : (vs : Variants) → (v : vs.Val) →
    ∃ i fs f fv, VariantAt vs i fs f ∧ v = f fv
  | .nil, v => nomatch v
  | .cons d fs vs, .inl v => ⟨0, fs, _, v, .here d fs vs, rfl⟩
  | .cons d fs vs, .inr v => by
    obtain ⟨i, fs', f, fv, h, rfl⟩ := Spec.VariantAt.cover vs v
    exact ⟨i + 1, fs', _, fv, .there d fs h, rfl⟩

theorem explicitDiscs_length : (vs : Variants) → (explicitDiscs vs).length = variantCount vs
  | .nil => rfl
  | .cons _ _ vs => congrArg (· + 1) (explicitDiscs_length vs)

theorem discs_eq : (vs : Variants) → (prev : Option Nat) → (ex : List (Option Nat)) → (j : Nat) →
    ex.drop j = explicitDiscs vs → (prev = if j = 0 then none else some (discOf ex (j - 1))) →
    vs.discs prev = (List.range (variantCount vs)).map fun i => discOf ex (j + i)
  | .nil, _, _, _, _, _ => rfl
  | .cons d fs vs, prev, ex, j, h, hp => by
    have hd : discOf ex j = nextDisc prev d := by
      rw [hp]
      apply discOf_step
      have := congrArg (·[0]?) h
      simpa [explicitDiscs] using this
    have hdrop : ex.drop (j + 1) = explicitDiscs vs := by
      have := congrArg List.tail h
      simpa [explicitDiscs] using this
    have ih := discs_eq vs (some (nextDisc prev d)) ex (j + 1) hdrop (by simp [hd])
    rw [Variants.discs, ih, variantCount, List.range_succ_eq_map, List.map_cons, List.map_map]
    congr 1
    · exact hd.symm
    · apply List.map_congr_left
      intro i _
      simp only [Function.comp_apply]
      congr 1
      omega

/-- The macro gives variants the language's discriminants. -/
theorem discs_eq_discOf (vs : Variants) :
    vs.discs none = (List.range (variantCount vs)).map (discOf (explicitDiscs vs)) := by
  have := discs_eq vs none (explicitDiscs vs) 0 (by simp) (by simp)
  simpa using this

theorem Dec.mapErr_bind {α β : Type} (g : DecErr → DecErr) (m : Dec α) (f : α → Dec β) :
    (m >>= f).mapErr g = (m.mapErr g >>= fun a => (f a).mapErr g) := by
  funext i
  show Dec.mapErr g (Dec.bind m f) i = Dec.bind (Dec.mapErr g m) _ i
  unfold Dec.bind Dec.mapErr
  dsimp only
  rcases m i with ⟨r, i'⟩
  cases r <;> rfl

theorem Dec.mapErr_mapErr {α : Type} (g h : DecErr → DecErr) (m : Dec α) :
    (m.mapErr h).mapErr g = m.mapErr (fun e => g (h e)) := by
  funext i
  unfold Dec.mapErr
  dsimp only
  rcases m i with ⟨r, i'⟩
  cases r <;> rfl

theorem Fields.decode_mapErr : (fs : Fields) → (g h : DecErr → DecErr) →
    (fs.decode h).mapErr g = fs.decode (fun e => g (h e))
  | .nil, g, h => rfl
  | .cons t fs, g, h => by
    show Dec.mapErr g (t.decode.mapErr h >>= fun v => fs.decode h >>= fun vs => pure (v, vs)) = _
    rw [Dec.mapErr_bind, Dec.mapErr_mapErr]
    show _ = (t.decode.mapErr _ >>= fun v => fs.decode _ >>= fun vs => pure (v, vs))
    congr 1
    funext v
    rw [Dec.mapErr_bind, Fields.decode_mapErr fs]
    rfl

theorem Enc.mapErr_bind {α β : Type} (g : EncErr → EncErr) (m : Enc α) (f : α → Enc β) :
    (m >>= f).mapErr g = (m.mapErr g >>= fun a => (f a).mapErr g) := by
  funext i
  show Enc.mapErr g (Enc.bind m f) i = Enc.bind (Enc.mapErr g m) _ i
  unfold Enc.bind Enc.mapErr
  dsimp only
  rcases m i with ⟨r, i'⟩
  cases r <;> rfl

theorem Enc.mapErr_mapErr {α : Type} (g h : EncErr → EncErr) (m : Enc α) :
    (m.mapErr h).mapErr g = m.mapErr (fun e => g (h e)) := by
  funext i
  unfold Enc.mapErr
  dsimp only
  rcases m i with ⟨r, i'⟩
  cases r <;> rfl

theorem Fields.encode_mapErr : (fs : Fields) → (g h : EncErr → EncErr) → (v : fs.Val) →
    (fs.encode h v).mapErr g = fs.encode (fun e => g (h e)) v
  | .nil, g, h, v => rfl
  | .cons t fs, g, h, v => by
    show Enc.mapErr g ((t.encode v.1).mapErr h >>= fun _ => fs.encode h v.2) = _
    rw [Enc.mapErr_bind, Enc.mapErr_mapErr]
    show _ = ((t.encode v.1).mapErr _ >>= fun _ => fs.encode _ v.2)
    congr 1
    funext _
    rw [Fields.encode_mapErr fs]

/-- Decoding the fields of the variant that the discriminant belongs to. -/
theorem Spec.VariantAt.decode {vs : Variants} {i : Nat} {fs : Fields} {f : fs.Val → vs.Val}
    (h : VariantAt vs i fs f) : ∀ (prev : Option Nat) (ex : List (Option Nat)) (j : Nat),
    ex.drop j = explicitDiscs vs → (prev = if j = 0 then none else some (discOf ex (j - 1))) →
    (vs.discs prev).Nodup →
    ∀ w r, Yields (fs.decode (fun e => .badField e.toGeneric)) w r →
      Yields (vs.decode prev (discOf ex (j + i))) w (r.map f) := by
  induction h with
  | here d fs vs =>
    intro prev ex j h hp hn w r hy
    have hd : discOf ex j = nextDisc prev d := by
      rw [hp]
      apply discOf_step
      have := congrArg (·[0]?) h
      simpa [explicitDiscs] using this
    show Yields (if _ then _ else _) _ _
    rw [if_pos (by rw [Nat.add_zero, hd])]
    exact hy.bind_map
  | @there d fs' vs i fs f h' ih =>
    intro prev ex j h hp hn w r hy
    have hd : discOf ex j = nextDisc prev d := by
      rw [hp]
      apply discOf_step
      have := congrArg (·[0]?) h
      simpa [explicitDiscs] using this
    have hdrop : ex.drop (j + 1) = explicitDiscs vs := by
      have := congrArg List.tail h
      simpa [explicitDiscs] using this
    have hp' : some (nextDisc prev d) = if j + 1 = 0 then none else some (discOf ex (j + 1 - 1)) := by
      simp [hd]
    have hds := discs_eq vs (some (nextDisc prev d)) ex (j + 1) hdrop hp'
    simp only [Variants.discs, List.nodup_cons] at hn
    have hy' := ih (some (nextDisc prev d)) ex (j + 1) hdrop hp' hn.2 w r hy
    show Yields (if _ then _ else _) _ _
    rw [if_neg]
    · have e : j + (i + 1) = j + 1 + i := by omega
      rw [e]
      have := hy'.bind_map (f := (Sum.inr : vs.Val → fs'.Val ⊕ vs.Val))
      cases r <;> exact this
    · intro e
      apply hn.1
      rw [hds, List.mem_map]
      exact ⟨i, List.mem_range.mpr h'.lt, by
        have e' : j + (i + 1) = j + 1 + i := by omega
        rw [← e']
        omega⟩

theorem Variants.decode_unassigned : (vs : Variants) → (prev : Option Nat) → (x : Int) →
    (∀ d ∈ vs.discs prev, x ≠ (d : Int)) → Yields (vs.decode prev x) [] (.err (.unassigned x))
  | .nil, _, x, _ => Yields.fail _
  | .cons d fs vs, prev, x, h => by
    show Yields (if _ then _ else _) _ _
    rw [if_neg (h _ (by simp [Variants.discs]))]
    exact (Variants.decode_unassigned vs _ x (fun d hd => h d (by simp [Variants.discs, hd]))).bind_map
      (f := Sum.inr)

/-- Encoding of a variant: its discriminant, then its fields. -/
theorem Spec.VariantAt.encode {vs : Variants} {i : Nat} {fs : Fields} {f : fs.Val → vs.Val}
    (h : VariantAt vs i fs f) : ∀ (r : Repr) (prev : Option Nat) (ex : List (Option Nat)) (j : Nat),
    ex.drop j = explicitDiscs vs → (prev = if j = 0 then none else some (discOf ex (j - 1))) →
    ∀ fv, vs.encode r prev (f fv) = ((encRepr r (discOf ex (j + i))).mapErr .badDiscriminant >>=
      fun _ => fs.encode (fun e => .badField e.toGeneric) fv) := by
  induction h with
  | here d fs vs =>
    intro r prev ex j h hp fv
    have hd : discOf ex j = nextDisc prev d := by
      rw [hp]
      apply discOf_step
      have := congrArg (·[0]?) h
      simpa [explicitDiscs] using this
    rw [Nat.add_zero, hd]
    rfl
  | @there d fs' vs i fs f h' ih =>
    intro r prev ex j h hp fv
    have hd : discOf ex j = nextDisc prev d := by
      rw [hp]
      apply discOf_step
      have := congrArg (·[0]?) h
      simpa [explicitDiscs] using this
    have hdrop : ex.drop (j + 1) = explicitDiscs vs := by
      have := congrArg List.tail h
      simpa [explicitDiscs] using this
    have hp' : some (nextDisc prev d) = if j + 1 = 0 then none else some (discOf ex (j + 1 - 1)) := by
      simp [hd]
    have := ih r (some (nextDisc prev d)) ex (j + 1) hdrop hp' fv
    have e : j + (i + 1) = j + 1 + i := by omega
    rw [e]
    exact this

theorem encRepr_bad (r : Repr) (d : Nat) (h : ¬ ReprEncodable r d) (o : Output) :
    ∃ e, (e = .usize d ∨ e = .isize d) ∧ encRepr r d o = (.err e, o) := by
  cases r with
  | int k => exact absurd trivial h
  | usize =>
    refine ⟨.usize d, .inl rfl, ?_⟩
    show encUsize (d : Int).toNat o = _
    have h' : ¬ (d : Int) ≤ 65535 := h
    unfold encUsize
    rw [if_neg (by omega)]
    rfl
  | isize =>
    refine ⟨.isize d, .inr rfl, ?_⟩
    show encIsize d o = _
    unfold encIsize
    rw [if_neg (show ¬ (-32768 ≤ (d : Int) ∧ (d : Int) ≤ 32767) from h)]
    rfl

theorem wireFields_append : (fs : Fields) → {gs : Fields} → (v : fs.Val) → (w : gs.Val) →
    wireFields (appendFields fs gs) (appendVals fs v w) = wireFields fs v ++ wireFields gs w ∧
    (EncodableFields (appendFields fs gs) (appendVals fs v w) ↔
      EncodableFields fs v ∧ EncodableFields gs w)
  | .nil, gs, v, w => ⟨rfl, ⟨fun h => ⟨trivial, h⟩, fun h => h.2⟩⟩
  | .cons t fs, gs, v, w => by
    have ih := wireFields_append fs v.2 w
    refine ⟨?_, ?_⟩
    · show wire t v.1 ++ wireFields _ (appendVals fs v.2 w) = wire t v.1 ++ wireFields fs v.2 ++ _
      rw [ih.1, List.append_assoc]
    · show Encodable t v.1 ∧ EncodableFields _ (appendVals fs v.2 w) ↔
        (Encodable t v.1 ∧ EncodableFields fs v.2) ∧ _
      rw [ih.2, and_assoc]

theorem wireFields_repeat (t : Ty) : (l : List t.Val) →
    wireFields (repeatField t l) (repeatVals t l) = l.flatMap (wire t) ∧
    (EncodableFields (repeatField t l) (repeatVals t l) ↔ ∀ x ∈ l, Encodable t x)
  | [] => ⟨rfl, by simp [repeatField, EncodableFields]⟩
  | v :: l => by
    have ih := wireFields_repeat t l
    refine ⟨?_, ?_⟩
    · show wire t v ++ wireFields _ (repeatVals t l) = _
      rw [ih.1, List.flatMap_cons]
    · show Encodable t v ∧ EncodableFields _ (repeatVals t l) ↔ _
      rw [ih.2, List.forall_mem_cons]

end Oct
