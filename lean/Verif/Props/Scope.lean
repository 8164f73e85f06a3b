import Verif.Proofs.Scope
import Verif.Props.Macros
/-
C121: derived implementations mean the same wherever they stand.
-/
namespace Oct.Props
open Oct Spec Macro
set_option linter.unusedVariables false

/-- C121. Where nothing is in the way, the emitted `encode` of a structure is accepted and does what the
model's does. -/
theorem C121_encode_struct_partial (σ : Scope) (hσ : ScopeClear σ) (attrs : List Attr)
    (gs : List GenericParam) (fs : SynFields) (h : FieldsOk fs) (v : (fieldsOf fs.decl).Val) :
    ∃ c, deriveEncode ⟨attrs, gs, .struct fs⟩ = some c ∧
      c.runStructIn σ (view fs.decl v) = some ((Ty.struct (fieldsOf fs.decl)).encode v) := by
  refine ⟨_, rfl, ?_⟩
  rw [EncodeImpl.runStructIn, if_pos (accepts_of hσ fun s => encodeStruct_bound fs)]
  exact encodeStruct_run h v

/-- C121. The same for `decode`. -/
theorem C121_decode_struct_partial (σ : Scope) (hσ : ScopeClear σ) (attrs : List Attr)
    (gs : List GenericParam) (fs : SynFields) (h : FieldsOk fs) :
    ∃ c, deriveDecode ⟨attrs, gs, .struct fs⟩ = some c ∧
      c.runStructIn σ fs.decl = some (mapped (view fs.decl) (Ty.struct (fieldsOf fs.decl)).decode) := by
  refine ⟨_, rfl, ?_⟩
  rw [DecodeImpl.runStructIn, if_pos (accepts_of hσ fun s => decode_bound _)]
  exact decodeStruct_run h

/-- C121. The same for the constant. -/
theorem C121_size_struct_partial (σ : Scope) (hσ : ScopeClear σ) (sizeOf : Ty → Nat)
    (attrs : List Attr) (gs : List GenericParam) (fs : SynFields) :
    ∃ c, deriveSizedEncode ⟨attrs, gs, .struct fs⟩ = some c ∧
      c.runIn σ sizeOf = some ((Ty.struct (fieldsOf fs.decl)).maxSize sizeOf) := by
  obtain ⟨c, h1, h2⟩ := C65_struct sizeOf attrs gs fs
  refine ⟨c, h1, ?_⟩
  cases h1
  rw [sizedStruct_in sizeOf fs hσ.1 (resolve_of hσ .usize), h2]

/-- C121. Wherever an enumeration stands and is accepted, it is encoded as if its representation were
what the name of the representation means there. -/
theorem C121_encode_alias (σ : Scope) (attrs : List Attr) (gs : List GenericParam)
    (vs : List SynVariant) (hv : VariantsOk vs) (hr : LegalRepr attrs) (c : EncodeImpl)
    (h : deriveEncode ⟨attrs, gs, .enum vs⟩ = some c) (ho : σ.oct = true)
    (hb : ∀ name, Bound name → σ.taken name = false) (r : Repr)
    (hs : σ.resolve (Repr.toStr (rustRepr attrs)) = some r)
    (hd : LegalDiscs r (vs.map (·.disc))) (v : (variantsOf vs).Val) :
    c.runEnumIn σ (viewEnum vs v) = some ((Ty.enum r (variantsOf vs)).encode v) := by
  simp only [deriveEncode, Option.bind_eq_some_iff] at h
  obtain ⟨r0, h1, h2⟩ := h
  rw [get_legal hr h1] at h2
  refine encodeEnum_in hv h2 ?_ hs hd.1 v
  simp only [Scope.accepts, ho, Bool.true_and, List.all_eq_true]
  intro s hs
  rw [hb s (encodeEnum_bound h2 hs)]
  rfl

/-- C121. The same for `decode`. -/
theorem C121_decode_alias (σ : Scope) (attrs : List Attr) (gs : List GenericParam)
    (vs : List SynVariant) (hv : VariantsOk vs) (hr : LegalRepr attrs) (c : DecodeImpl)
    (h : deriveDecode ⟨attrs, gs, .enum vs⟩ = some c) (ho : σ.oct = true)
    (hb : ∀ name, Bound name → σ.taken name = false) (r : Repr)
    (hs : σ.resolve (Repr.toStr (rustRepr attrs)) = some r)
    (hd : LegalDiscs r (vs.map (·.disc))) :
    c.runEnumIn σ (declsOf vs) =
      some (mapped (viewEnum vs) (Ty.enum r (variantsOf vs)).decode) := by
  simp only [deriveDecode, Option.bind_eq_some_iff] at h
  obtain ⟨r0, h1, h2⟩ := h
  rw [get_legal hr h1] at h2
  refine decodeEnum_in hv h2 ?_ hs hd.1
  simp only [Scope.accepts, ho, Bool.true_and, List.all_eq_true]
  intro s hs
  rw [hb s (decode_bound c hs)]
  rfl

/-- C121. The same for the constant, where `usize` means what it does. -/
theorem C121_size_alias (σ : Scope) (sizeOf : Ty → Nat) (attrs : List Attr) (gs : List GenericParam)
    (vs : List SynVariant) (hr : LegalRepr attrs) (c : SizedImpl)
    (h : deriveSizedEncode ⟨attrs, gs, .enum vs⟩ = some c) (ho : σ.oct = true)
    (hb : ∀ name, Bound name → σ.taken name = false) (hu : σ.resolve "usize" = some .usize) (r : Repr)
    (hs : σ.resolve (Repr.toStr (rustRepr attrs)) = some r) :
    c.runIn σ sizeOf = some ((Ty.enum r (variantsOf vs)).maxSize sizeOf) := by
  simp only [deriveSizedEncode, Option.map_eq_some_iff] at h
  obtain ⟨r0, h1, rfl⟩ := h
  rw [get_legal hr h1]
  rw [sizedEnum_in sizeOf vs ?_ hu hs]
  · simp only [sizedEncodeEnum, SizedImpl.run, maxSizes_eq, Ty.maxSize, Nat.zero_max]
  · simp only [Scope.accepts, ho, Bool.true_and, List.all_eq_true]
    intro s hs
    rw [hb s (sized_bound _ hs)]
    rfl

/-- C121. Where nothing is in the way, the emitted implementations of an enumeration are accepted and do
what the model's do. -/
theorem C121_enum_partial (σ : Scope) (hσ : ScopeClear σ) (sizeOf : Ty → Nat) (attrs : List Attr)
    (gs : List GenericParam) (vs : List SynVariant) (hv : VariantsOk vs) (hr : LegalRepr attrs)
    (hd : LegalDiscs (rustRepr attrs) (vs.map (·.disc))) :
    (∀ c, deriveEncode ⟨attrs, gs, .enum vs⟩ = some c → ∀ v : (variantsOf vs).Val,
      c.runEnumIn σ (viewEnum vs v) = some ((Ty.enum (rustRepr attrs) (variantsOf vs)).encode v)) ∧
    (∀ c, deriveDecode ⟨attrs, gs, .enum vs⟩ = some c →
      c.runEnumIn σ (declsOf vs) =
        some (mapped (viewEnum vs) (Ty.enum (rustRepr attrs) (variantsOf vs)).decode)) ∧
    (∀ c, deriveSizedEncode ⟨attrs, gs, .enum vs⟩ = some c →
      c.runIn σ sizeOf = some ((Ty.enum (rustRepr attrs) (variantsOf vs)).maxSize sizeOf)) :=
  ⟨fun c h v => C121_encode_alias σ attrs gs vs hv hr c h hσ.1 hσ.2.1 _ (resolve_of hσ _) hd v,
    fun c h => C121_decode_alias σ attrs gs vs hv hr c h hσ.1 hσ.2.1 _ (resolve_of hσ _) hd,
    fun c h => C121_size_alias σ sizeOf attrs gs vs hr c h hσ.1 hσ.2.1 (resolve_of hσ .usize) _
      (resolve_of hσ _)⟩

example : ScopeClear Scope.plain := ⟨rfl, fun _ _ => rfl, fun _ _ => .inl rfl⟩

/-- C121. Nothing is derived where the crate goes by another name. -/
theorem C121_false_renamed (σ : Scope) (h : σ.oct = false) (e : EncodeImpl) (d : DecodeImpl)
    (z : SizedImpl) (sizeOf : Ty → Nat) :
    (∀ v, e.runStructIn σ v = none) ∧ (∀ v, e.runEnumIn σ v = none) ∧
      (∀ l, d.runStructIn σ l = none) ∧ (∀ l, d.runEnumIn σ l = none) ∧ z.runIn σ sizeOf = none := by
  have ha : ∀ l, σ.accepts l = false := fun l => by simp [Scope.accepts, h]
  refine ⟨fun v => ?_, fun v => ?_, fun l => ?_, fun l => ?_, ?_⟩
  · simp [EncodeImpl.runStructIn, ha]
  · cases e <;> simp [EncodeImpl.runEnumIn, ha]
  · simp [DecodeImpl.runStructIn, ha]
  · cases d <;> simp [DecodeImpl.runEnumIn, ha]
  · rw [SizedImpl.runIn.eq_def, ha]
    rfl

example : (⟨false, fun _ => none, fun _ => false⟩ : Scope).oct = false := rfl

/-- C121. Neither `Encode` nor `Decode` is derived where a constant goes by the name of `stream`. -/
theorem C121_false_taken (σ : Scope) (h : σ.taken "stream" = true) (e : EncodeImpl) (d : DecodeImpl) :
    (∀ v, e.runStructIn σ v = none) ∧ (∀ v, e.runEnumIn σ v = none) ∧
      (∀ l, d.runStructIn σ l = none) ∧ (∀ l, d.runEnumIn σ l = none) := by
  have he : σ.accepts e.bindings = false :=
    accepts_false (s := "stream") (by cases e <;> simp [EncodeImpl.bindings]) h
  have hd : σ.accepts d.bindings = false :=
    accepts_false (s := "stream") (by cases d <;> simp [DecodeImpl.bindings]) h
  refine ⟨fun v => ?_, fun v => ?_, fun l => ?_, fun l => ?_⟩
  · simp [EncodeImpl.runStructIn, he]
  · cases e <;> simp [EncodeImpl.runEnumIn, he]
  · simp [DecodeImpl.runStructIn, hd]
  · cases d <;> simp [DecodeImpl.runEnumIn, hd]

example : (⟨true, fun _ => none, fun n => n == "stream"⟩ : Scope).taken "stream" = true := by decide

/-- C121. Nor is `Decode` where one goes by the name of `this`; of enumerations, where one goes by the
name of `discriminant` or `value`; nor is `SizedEncode` of enumerations where one goes by the name of
`total_size` or `current_size`. -/
theorem C121_false_names (σ : Scope) (sizeOf : Ty → Nat) (d : DecodeImpl) :
    (σ.taken "this" = true → (∀ l, d.runStructIn σ l = none) ∧ ∀ l, d.runEnumIn σ l = none) ∧
    (σ.taken "discriminant" = true ∨ σ.taken "value" = true → ∀ l, d.runEnumIn σ l = none) ∧
    (σ.taken "total_size" = true ∨ σ.taken "current_size" = true →
      ∀ variants, (SizedImpl.enum variants).runIn σ sizeOf = none) := by
  refine ⟨fun h => ?_, fun h l => ?_, fun h variants => ?_⟩
  · have hd : σ.accepts d.bindings = false :=
      accepts_false (s := "this") (by cases d <;> simp [DecodeImpl.bindings]) h
    refine ⟨fun l => ?_, fun l => ?_⟩
    · simp [DecodeImpl.runStructIn, hd]
    · cases d <;> simp [DecodeImpl.runEnumIn, hd]
  · cases d with
    | struct c => simp [DecodeImpl.runEnumIn]
    | enum repr arms =>
      have hd : σ.accepts (DecodeImpl.enum repr arms).bindings = false := by
        rcases h with h | h <;> exact accepts_false (by simp [DecodeImpl.bindings]) h
      simp [DecodeImpl.runEnumIn, hd]
  · have hd : σ.accepts (SizedImpl.enum variants).bindings = false := by
      rcases h with h | h <;> exact accepts_false (by simp [SizedImpl.bindings]) h
    rw [SizedImpl.runIn.eq_def, hd]
    rfl

example : (⟨true, fun _ => none, fun n => n == "this"⟩ : Scope).taken "this" = true := by decide

/-- C121. Where a type that is no integer (say, a type parameter) goes by the name of the
representation, nothing is derived for the enumeration; the constant is for one without variants, which
names no type. -/
theorem C121_false_other (σ : Scope) (sizeOf : Ty → Nat) (attrs : List Attr) (gs : List GenericParam)
    (vs : List SynVariant) (hr : LegalRepr attrs)
    (ht : σ.types (Repr.toStr (rustRepr attrs)) = some .other) :
    (∀ c, deriveEncode ⟨attrs, gs, .enum vs⟩ = some c → ∀ v, c.runEnumIn σ v = none) ∧
    (∀ c, deriveDecode ⟨attrs, gs, .enum vs⟩ = some c → ∀ l, c.runEnumIn σ l = none) ∧
    (∀ c, deriveSizedEncode ⟨attrs, gs, .enum vs⟩ = some c → vs ≠ [] → c.runIn σ sizeOf = none) := by
  have hn : σ.resolve (Repr.toStr (rustRepr attrs)) = none := by rw [Scope.resolve, ht]
  refine ⟨fun c h v => ?_, fun c h l => ?_, fun c h hv => ?_⟩
  · simp only [deriveEncode, Option.bind_eq_some_iff] at h
    obtain ⟨r0, h1, h2⟩ := h
    rw [get_legal hr h1] at h2
    simp only [encodeEnum, Option.bind_eq_bind, Option.bind_eq_some_iff] at h2
    obtain ⟨ls, _, hc⟩ := h2
    cases hc
    simp [EncodeImpl.runEnumIn, hn]
  · simp only [deriveDecode, Option.bind_eq_some_iff] at h
    obtain ⟨r0, h1, h2⟩ := h
    rw [get_legal hr h1] at h2
    simp only [decodeEnum, Option.bind_eq_bind, Option.bind_eq_some_iff] at h2
    obtain ⟨ls, _, hc⟩ := h2
    cases hc
    simp [DecodeImpl.runEnumIn, hn]
  · simp only [deriveSizedEncode, Option.map_eq_some_iff] at h
    obtain ⟨r0, h1, rfl⟩ := h
    rw [get_legal hr h1]
    cases vs with
    | nil => exact absurd rfl hv
    | cons w vs =>
      rw [SizedImpl.runIn.eq_def]
      split
      · have hm : ∀ decl : List (Sel × Ty), ((decl.map fun p => TyName.field p.2) ++
            [TyName.repr (Repr.toStr (rustRepr attrs))]).mapM (TyName.inScope σ) = none := by
          intro decl
          rw [List.mapM_append, mapM_fields]
          simp [TyName.inScope, hn]
        simp [sizedEncodeEnum, List.mapM_cons, hm]
      · rfl

/-- A place with a type parameter `u8`. -/
def parameter : Scope := ⟨true, fun n => if n = "u8" then some .other else none, fun _ => false⟩

example : parameter.types (Repr.toStr (rustRepr sampleAttrs)) = some .other := by
  rw [show Repr.toStr (rustRepr sampleAttrs) = "u8" by decide]; rfl

/-- C121. `SizedEncode` is not derived where `usize` is another type. -/
theorem C121_false_usize (σ : Scope) (h : σ.resolve "usize" ≠ some .usize) (z : SizedImpl)
    (sizeOf : Ty → Nat) : z.runIn σ sizeOf = none := by
  rw [SizedImpl.runIn.eq_def, if_neg (by simp [h])]

/-- A place with `type u8 = u16;`. -/
def aliased : Scope := ⟨true, fun n => if n = "u8" then some (.int (.int .u16)) else none, fun _ => false⟩

example : aliased.resolve (Repr.toStr (rustRepr sampleAttrs)) = some (.int .u16) := by decide

/-- C121. With `type u8 = u16;` in scope, an enumeration with `#[repr(u8)]`, which rustc takes for a
`u8`, is accepted, and is encoded with two octets of discriminant, where elsewhere it has one. -/
theorem C121_false_alias :
    ∃ c, deriveEncode ⟨[⟨"repr", [.path "u8"]⟩], [], .enum [⟨"A", .unit, none⟩]⟩ = some c ∧
      rustRepr [⟨"repr", [.path "u8"]⟩] = .int .u8 ∧
      (c.runEnumIn Scope.plain ⟨"A", []⟩).map (fun m => (m (Output.new [7, 7])).2.asSlice) = some [0] ∧
      (c.runEnumIn aliased ⟨"A", []⟩).map (fun m => (m (Output.new [7, 7])).2.asSlice) = some [0, 0] := by
  refine ⟨_, rfl, ?_, ?_, ?_⟩
  · decide
  · decide
  · decide

end Oct.Props
