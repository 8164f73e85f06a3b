import Verif.Proofs.MacrosExact
/-
C67, exactly: which values come back through the emitted impls.
-/
namespace Oct.Props
open Oct Spec Macro

/-- C67, exactly: of a structure that has been encoded by the emitted impl, the emitted `decode` gives the same
fields back, leaving what follows, just if it has no map or set in it and no sized slice that is neither full
nor of items without octets, and the format carries all of it. -/
theorem C67_struct_exactly (attrs : List Attr) (gs : List GenericParam) (fs : SynFields)
    (h : FieldsOk fs) (hw : (fieldsOf fs.decl).WF) (v : (fieldsOf fs.decl).Val) :
    ∃ ce cd m d,
      deriveEncode ⟨attrs, gs, .struct fs⟩ = some ce ∧
      deriveDecode ⟨attrs, gs, .struct fs⟩ = some cd ∧
      ce.runStruct (view fs.decl v) = some m ∧ cd.runStruct fs.decl = some d ∧
      ∀ (o o' : Output) (rest : List Byte), o.position ≤ o.capacity → m o = (.ok (), o') →
        (d ⟨o'.asSlice ++ rest, o.position⟩ =
            (.ok (view fs.decl v), ⟨o'.asSlice ++ rest, o'.position⟩) ↔
          Supported (.struct (fieldsOf fs.decl)) v ∧ carried (.struct (fieldsOf fs.decl)) v = v) :=
  ⟨_, _, _, _, rfl, rfl, encodeStruct_run h v, decodeStruct_run h, fun o o' rest ho hm =>
    back_exactly (.struct (fieldsOf fs.decl)) hw (view fs.decl) (view_inj fs.decl) v o o' ho hm rest⟩

/-- C67, exactly, of enumerations that rustc accepts and the macros take. -/
theorem C67_enum_exactly (attrs : List Attr) (gs : List GenericParam) (vs : List SynVariant)
    (hv : VariantsOk vs) (hr : LegalRepr attrs)
    (hd : LegalDiscs (rustRepr attrs) (vs.map (·.disc)))
    (hf : ∀ s ∈ vs, (fieldsOf s.fields.decl).WF)
    (ce : EncodeImpl) (cd : DecodeImpl)
    (he : deriveEncode ⟨attrs, gs, .enum vs⟩ = some ce)
    (hdec : deriveDecode ⟨attrs, gs, .enum vs⟩ = some cd)
    (v : (variantsOf vs).Val) :
    ∃ m d, ce.runEnum (viewEnum vs v) = some m ∧ cd.runEnum (declsOf vs) = some d ∧
      ∀ (o o' : Output) (rest : List Byte), o.position ≤ o.capacity → m o = (.ok (), o') →
        (d ⟨o'.asSlice ++ rest, o.position⟩ =
            (.ok (viewEnum vs v), ⟨o'.asSlice ++ rest, o'.position⟩) ↔
          Supported (.enum (rustRepr attrs) (variantsOf vs)) v ∧
            carried (.enum (rustRepr attrs) (variantsOf vs)) v = v) := by
  refine ⟨_, _, C62_encode attrs gs vs hv hr ce he v, C62_decode attrs gs vs hv hr cd hdec, ?_⟩
  have hl : ∃ ls, discriminants (vs.map (·.disc)) none = some ls := by
    simp only [deriveEncode, Option.bind_eq_some_iff] at he
    obtain ⟨r, _, h2⟩ := he
    have := encodeEnum_isSome vs r
    rw [h2] at this
    exact Option.isSome_iff_exists.1 this.symm
  obtain ⟨ls, hl⟩ := hl
  exact fun o o' rest ho hm => back_exactly (.enum (rustRepr attrs) (variantsOf vs))
    (enum_wf _ vs hd hf ls hl) (viewEnum vs) (viewEnum_inj vs hv.1) v o o' ho hm rest

example : LegalDiscs (rustRepr sampleAttrs) (sampleEnum.map (·.disc)) ∧
    ∀ s ∈ sampleEnum, (fieldsOf s.fields.decl).WF := by
  refine ⟨by unfold LegalDiscs; decide, ?_⟩
  intro s hs
  simp only [sampleEnum, List.mem_cons, List.not_mem_nil, or_false] at hs
  rcases hs with rfl | rfl | rfl
  · exact ⟨trivial, trivial⟩
  · exact trivial
  · exact ⟨trivial, trivial⟩
/-- Of `struct S(HashSet<u8>)`, nothing comes back; of `struct S(u8)`, everything. -/
example :
    (∀ v, ¬ Supported (.struct (fieldsOf (SynFields.unnamed [.hashSet (.num (.int .u8))]).decl)) v) ∧
    ∀ v, Supported (.struct (fieldsOf (SynFields.unnamed [.num (.int .u8)]).decl)) v :=
  ⟨fun _ h => h.1, fun _ => ⟨trivial, trivial⟩⟩

end Oct.Props
