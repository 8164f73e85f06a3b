import Verif.Proofs.GenericDecode
/-
C124: derived impls of generic items.
-/
namespace Oct.Props
open Oct Oct.Spec

/-- `struct S<T>(T)`. -/
def newtype : GItem := .struct (.cons (.param 0) .nil)

/-- `T: Encode<Error: Into<GenericEncodeError>>`. -/
def encFull : EncBounds := { encode := fun _ => some (.inl 0), into := fun _ => true }

/-- `T: Encode`. -/
def encOnly : EncBounds := { encode := fun _ => some (.inl 0), into := fun _ => false }

/-- No bounds. -/
def encNone : EncBounds := { encode := fun _ => none, into := fun _ => false }

def decFull : DecBounds := { decode := fun _ => some (.inl 0), into := fun _ => true }
def decOnly : DecBounds := { decode := fun _ => some (.inl 0), into := fun _ => false }
def decNone : DecBounds := { decode := fun _ => none, into := fun _ => false }

/-- C124. What rustc accepts for the generic item holds for all arguments that meet the bounds: each
instance has the impl, with the error type of the generic one. -/
theorem C124_encode (item : GItem) (B : EncBounds) (σ : Nat → Ty) (ε : Nat → EncTy)
    (hσ : MeetsEnc B σ ε) (E : EncTy) (h : item.deriveEncode B = some E) :
    (item.inst σ).encErr = some E := by
  cases item with
  | struct fs =>
    rw [GItem.deriveEncode] at h
    split at h
    · next hi => cases h; rw [GItem.inst, Ty.encErr, if_pos (GFields.encInto_sound hσ fs hi)]
    · cases h
  | enum r vs =>
    rw [GItem.deriveEncode] at h
    split at h
    · next hi => cases h; rw [GItem.inst, Ty.encErr, if_pos (GVariants.encInto_sound hσ vs hi)]
    · cases h

/-- `S<usize>`. -/
example : (newtype.inst fun _ => .usize).encErr = some .generic :=
  C124_encode newtype encFull (fun _ => .usize) (fun _ => .usize)
    ⟨fun _ _ _ => rfl, (fun _ _ h => nomatch h), fun _ _ => rfl⟩ .generic rfl

/-- C124. And no fewer bounds would do: where rustc refuses the generic item, some arguments meet the
bounds and their instance has no impl. -/
theorem C124_encode_needed (item : GItem) (B : EncBounds)
    (hB : ∀ i e, B.encode i = some (.inr e) → ∃ t : Ty, t.encErr = some e)
    (h : item.deriveEncode B = none) :
    ∃ σ ε, MeetsEnc B σ ε ∧ (item.inst σ).encErr = none := by
  cases item with
  | struct fs =>
    obtain ⟨σ, h1, h2⟩ := encFree_exists B (fs.encNeed B + 1) hB
    refine ⟨σ, _, h2, ?_⟩
    rw [GItem.deriveEncode] at h
    rw [GItem.inst, Ty.encErr, GFields.encInto_free h1 fs (by omega)]
    split at h
    · cases h
    · next hi => rw [if_neg hi]
  | enum r vs =>
    obtain ⟨σ, h1, h2⟩ := encFree_exists B (vs.encNeed B + 1) hB
    refine ⟨σ, _, h2, ?_⟩
    rw [GItem.deriveEncode] at h
    rw [GItem.inst, Ty.encErr, GVariants.encInto_free h1 vs (by omega)]
    split at h
    · cases h
    · next hi => rw [if_neg hi]

/-- `struct S<T: Encode>(T)`: `T` may be `RefCell<bool>`. -/
example : ∃ σ ε, MeetsEnc encOnly σ ε ∧ (newtype.inst σ).encErr = none :=
  C124_encode_needed newtype encOnly (fun _ _ h => nomatch h) rfl

example : (newtype.inst fun _ => .refCell .bool).encErr = none := rfl

/-- C124. The same for `Decode`. -/
theorem C124_decode (item : GItem) (B : DecBounds) (σ : Nat → Ty) (ε : Nat → DecTy)
    (hσ : MeetsDec B σ ε) (E : DecTy) (h : item.deriveDecode B = some E) :
    (item.inst σ).decErr = some E := by
  cases item with
  | struct fs =>
    rw [GItem.deriveDecode] at h
    split at h
    · next hi =>
      cases h
      rw [GItem.inst, Ty.decErr, Ty.decErrOf, if_pos (GFields.decInto_sound hσ fs hi)]
    · cases h
  | enum r vs =>
    rw [GItem.deriveDecode] at h
    split at h
    · next hi =>
      cases h
      rw [GItem.inst, Ty.decErr, Ty.decErrOf, if_pos (GVariants.decInto_sound hσ vs hi)]
    · cases h

/-- `S<NonZero<u8>>`. -/
example : (newtype.inst fun _ => .nonZero (.int .u8)).decErr = some .generic :=
  C124_decode newtype decFull (fun _ => .nonZero (.int .u8)) (fun _ => .nonZero)
    ⟨fun _ => trivial, fun _ _ _ => rfl, (fun _ _ h => nomatch h), fun _ _ => rfl⟩ .generic rfl

theorem C124_decode_needed (item : GItem) (B : DecBounds)
    (hB : ∀ i e, B.decode i = some (.inr e) → ∃ t : Ty, t.decErr = some e)
    (h : item.deriveDecode B = none) :
    ∃ σ ε, MeetsDec B σ ε ∧ (item.inst σ).decErr = none := by
  cases item with
  | struct fs =>
    obtain ⟨σ, h1, h2⟩ := decFree_exists B (fs.decNeed B + 1) hB
    refine ⟨σ, _, h2, ?_⟩
    rw [GItem.deriveDecode] at h
    rw [GItem.inst, Ty.decErr, Ty.decErrOf, GFields.decInto_free h1 fs (by omega)]
    split at h
    · cases h
    · next hi => rw [if_neg hi]
  | enum r vs =>
    obtain ⟨σ, h1, h2⟩ := decFree_exists B (vs.decNeed B + 1) hB
    refine ⟨σ, _, h2, ?_⟩
    rw [GItem.deriveDecode] at h
    rw [GItem.inst, Ty.decErr, Ty.decErrOf, GVariants.decInto_free h1 vs (by omega)]
    split at h
    · cases h
    · next hi => rw [if_neg hi]

/-- `struct S<T: Decode>(T)`: `T` may be `char`. -/
example : ∃ σ ε, MeetsDec decOnly σ ε ∧ (newtype.inst σ).decErr = none :=
  C124_decode_needed newtype decOnly (fun _ _ h => nomatch h) rfl

example : (newtype.inst fun _ => .char).decErr = none := rfl

/-- C124. `SizedEncode` is derived just if all arguments that meet the bounds give an instance with
`SizedEncode`. -/
theorem C124_sized (item : GItem) (S : Nat → Prop) :
    item.deriveSized S ↔
      ∀ σ : Nat → Ty, (∀ i, S i → (σ i).HasSized) → (item.inst σ).HasSized := by
  constructor
  · intro h σ hσ
    cases item with
    | struct fs => exact (GFields.hasSized_inst σ fs).mpr (GFields.hasSized_mono hσ fs h)
    | enum r vs => exact (GVariants.hasSized_inst σ vs).mpr (GVariants.hasSized_mono hσ vs h)
  · intro h
    have key : ∃ σ : Nat → Ty, ∀ i, S i ↔ (σ i).HasSized := by
      have one : ∀ i, ∃ t : Ty, S i ↔ t.HasSized := by
        intro i
        by_cases hi : S i
        · exact ⟨.bool, fun _ => trivial, fun _ => hi⟩
        · exact ⟨.hashSet .bool, fun h => absurd h hi, fun h => h.elim⟩
      exact ⟨fun i => Classical.choose (one i), fun i => Classical.choose_spec (one i)⟩
    obtain ⟨σ, hσ⟩ := key
    have h' := h σ fun i => (hσ i).mp
    have hm : ∀ i, (σ i).HasSized → S i := fun i => (hσ i).mpr
    cases item with
    | struct fs => exact GFields.hasSized_mono hm fs ((GFields.hasSized_inst σ fs).mp h')
    | enum r vs => exact GVariants.hasSized_mono hm vs ((GVariants.hasSized_inst σ vs).mp h')

/-- `struct S<T: SizedEncode>(T)`, and not `struct S<T>(T)`. -/
example : newtype.deriveSized (fun _ => True) ∧ ¬ newtype.deriveSized (fun _ => False) :=
  ⟨⟨trivial, trivial⟩, fun h => h.1⟩

/-- C124. The impl has no bounds but those of the item: an item that has a value of a parameter without
`Encode` has no derived impl. -/
theorem C124_unbounded (item : GItem) (B : EncBounds) (i : Nat) (hi : MentionsItem i item)
    (h : B.encode i = none) : item.deriveEncode B = none := by
  have key : ∀ {b : Bool}, (b = true → ∃ x, B.err i = some x ∧ x.intoGeneric B = true) →
      b = false := by
    intro b hb
    cases b with
    | false => rfl
    | true =>
      obtain ⟨x, h1, _⟩ := hb rfl
      rw [EncBounds.err, h] at h1
      cases h1
  cases item with
  | struct fs => rw [GItem.deriveEncode, key (GFields.encInto_mentions fs hi)]; rfl
  | enum r vs => rw [GItem.deriveEncode, key (GVariants.encInto_mentions vs hi)]; rfl

/-- `struct S<T>(T)`, though `S<u8>` could be encoded; `derive(Clone)` is accepted there. A parameter in
`PhantomData` only needs no bound. -/
example : newtype.deriveEncode encNone = none ∧
    (newtype.inst fun _ => .num (.int .u8)).encErr = some .generic :=
  ⟨C124_unbounded newtype encNone 0 (Or.inl rfl) rfl, rfl⟩

example : (GItem.struct (.cons (.phantom (.param 0)) .nil)).deriveEncode encNone = some .generic := rfl

/-- C124. `T: Encode` does not do either, in no item that has a value of `T`: the error type must be known
to be `Into<GenericEncodeError>`. -/
theorem C124_without_into (item : GItem) (B : EncBounds) (i j : Nat) (hi : MentionsItem i item)
    (h : B.encode i = some (.inl j)) (hj : B.into j = false) : item.deriveEncode B = none := by
  have key : ∀ {b : Bool}, (b = true → ∃ x, B.err i = some x ∧ x.intoGeneric B = true) →
      b = false := by
    intro b hb
    cases b with
    | false => rfl
    | true =>
      obtain ⟨x, h1, h2⟩ := hb rfl
      rw [EncBounds.err, h] at h1
      cases h1
      rw [XEnc.intoGeneric, hj] at h2
      cases h2
  cases item with
  | struct fs => rw [GItem.deriveEncode, key (GFields.encInto_mentions fs hi)]; rfl
  | enum r vs => rw [GItem.deriveEncode, key (GVariants.encInto_mentions vs hi)]; rfl

/-- `enum E<T: Encode> { A(Vec<T>) }`. -/
example : (GItem.enum (.int .u8) (.cons none (.cons (.seq .vec (.param 0)) .nil) .nil)).deriveEncode
    encOnly = none :=
  C124_without_into _ encOnly 0 0 (Or.inl (Or.inl rfl)) rfl rfl

/-- C124. The same for `Decode`. -/
theorem C124_unbounded_decode (item : GItem) (B : DecBounds) (i : Nat) (hi : MentionsItem i item)
    (h : B.decode i = none ∨ ∃ j, B.decode i = some (.inl j) ∧ B.into j = false) :
    item.deriveDecode B = none := by
  have key : ∀ {b : Bool}, (b = true → ∃ x, B.err i = some x ∧ x.intoGeneric B = true) →
      b = false := by
    intro b hb
    cases b with
    | false => rfl
    | true =>
      obtain ⟨x, h1, h2⟩ := hb rfl
      rw [DecBounds.err] at h1
      rcases h with h | ⟨j, h, hj⟩
      · rw [h] at h1; cases h1
      · rw [h] at h1
        cases h1
        rw [XDec.intoGeneric, hj] at h2
        cases h2
  cases item with
  | struct fs => rw [GItem.deriveDecode, key (GFields.decInto_mentions fs hi)]; rfl
  | enum r vs => rw [GItem.deriveDecode, key (GVariants.decInto_mentions vs hi)]; rfl

example : newtype.deriveDecode decNone = none ∧ newtype.deriveDecode decOnly = none ∧
    newtype.deriveDecode decFull = some .generic :=
  ⟨C124_unbounded_decode newtype decNone 0 (Or.inl rfl) (Or.inl rfl),
    C124_unbounded_decode newtype decOnly 0 (Or.inl rfl) (Or.inr ⟨0, rfl, rfl⟩), rfl⟩

/-- Fields that are parameters. -/
def ofParams : List Nat → GFields
  | [] => .nil
  | i :: l => .cons (.param i) (ofParams l)

/-- C124. Of a struct of parameters, these bounds are all that is needed. -/
theorem C124_params (l : List Nat) (B : EncBounds) (D : DecBounds) :
    ((GItem.struct (ofParams l)).deriveEncode B = some .generic ↔
      ∀ i ∈ l, (∃ j, B.encode i = some (.inl j) ∧ B.into j = true) ∨
        ∃ e, B.encode i = some (.inr e) ∧ e.intoGeneric = true) ∧
    ((GItem.struct (ofParams l)).deriveDecode D = some .generic ↔
      ∀ i ∈ l, (∃ j, D.decode i = some (.inl j) ∧ D.into j = true) ∨
        ∃ e, D.decode i = some (.inr e) ∧ e.intoGeneric = true) := by
  have h1 : (ofParams l).encInto B = true ↔
      ∀ i ∈ l, (∃ j, B.encode i = some (.inl j) ∧ B.into j = true) ∨
        ∃ e, B.encode i = some (.inr e) ∧ e.intoGeneric = true := by
    induction l with
    | nil => exact ⟨fun _ _ h => (nomatch h), fun _ => rfl⟩
    | cons i l ih =>
      rw [ofParams, GFields.encInto, Bool.and_eq_true, ih, List.forall_mem_cons]
      refine and_congr ?_ Iff.rfl
      rw [GTy.encErr, EncBounds.err]
      cases B.encode i with
      | none => simp
      | some x =>
        cases x with
        | inl j => simp [XEnc.intoGeneric]
        | inr e =>
          have := XEnc.free_generic B 0 e.lift
          rw [EncTy.lift_sub] at this
          simp [this]
  have h2 : (ofParams l).decInto D = true ↔
      ∀ i ∈ l, (∃ j, D.decode i = some (.inl j) ∧ D.into j = true) ∨
        ∃ e, D.decode i = some (.inr e) ∧ e.intoGeneric = true := by
    clear h1
    induction l with
    | nil => exact ⟨fun _ _ h => (nomatch h), fun _ => rfl⟩
    | cons i l ih =>
      rw [ofParams, GFields.decInto, Bool.and_eq_true, ih, List.forall_mem_cons]
      refine and_congr ?_ Iff.rfl
      rw [GTy.decErrOf, DecBounds.err]
      cases D.decode i with
      | none => simp
      | some x =>
        cases x with
        | inl j => simp [XDec.intoGeneric]
        | inr e =>
          have := XDec.free_generic D 0 e.lift
          rw [DecTy.lift_sub] at this
          simp [this]
  constructor
  · rw [← h1, GItem.deriveEncode]
    cases (ofParams l).encInto B <;> simp
  · rw [← h2, GItem.deriveDecode]
    cases (ofParams l).decInto D <;> simp

/-- `struct P<T, U>(T, U, T)`. -/
example : (GItem.struct (ofParams [0, 1, 0])).deriveEncode encFull = some .generic :=
  (C124_params [0, 1, 0] encFull decFull).1.mpr fun _ _ => Or.inl ⟨0, rfl, rfl⟩

/-- C124. The item for certain arguments is the item with its parameters replaced by them. -/
theorem C124_instance (item : GItem) (σ : Nat → Ty) (t : Ty) :
    item.inst σ = t ↔ InstanceItem σ item t := by
  constructor
  · intro h
    subst h
    cases item with
    | struct fs => exact .struct (fs.instance σ)
    | enum r vs => exact .enum r (vs.instance σ)
  · intro h
    cases h with
    | struct h => exact congrArg _ (InstanceFields.unique _ h)
    | enum r h => exact congrArg _ (InstanceVariants.unique _ h)

example (σ : Nat → Ty) : InstanceItem σ (.struct (.cons (.range (.param 0)) .nil))
    (.struct (.cons (.range (σ 0)) .nil)) := .struct (.cons (.range (.param 0)) .nil)

end Oct.Props
