import Verif.Proofs.Macro
import Verif.Props.Decoding
/-
C61-C67: the derive macros, from the syntax they read to what the emitted code does.
-/
namespace Oct.Props
open Oct Spec Macro
set_option linter.unusedVariables false

/-- C61. For every structure (unit, tuple or named, of distinct field names), the emitted `encode`
compiles and does, on every value and stream, what the model's `Ty.struct` does: it encodes the
fields in the order of the declaration. -/
theorem C61_encode (attrs : List Attr) (gs : List GenericParam) (fs : SynFields) (h : FieldsOk fs)
    (v : (fieldsOf fs.decl).Val) :
    ∃ c, deriveEncode ⟨attrs, gs, .struct fs⟩ = some c ∧
      c.runStruct (view fs.decl v) = some ((Ty.struct (fieldsOf fs.decl)).encode v) :=
  ⟨_, rfl, encodeStruct_run h v⟩

/-- C61. The emitted `decode` compiles and does what the model's `Ty.struct` does; in particular each
decoded value ends up in its own field. -/
theorem C61_decode (attrs : List Attr) (gs : List GenericParam) (fs : SynFields)
    (h : FieldsOk fs) :
    ∃ c, deriveDecode ⟨attrs, gs, .struct fs⟩ = some c ∧
      c.runStruct fs.decl = some (mapped (view fs.decl) (Ty.struct (fieldsOf fs.decl)).decode) :=
  ⟨_, rfl, decodeStruct_run h⟩

/-- C61. The presentation of values by named fields loses nothing. -/
theorem C61_view (decl : List (Sel × Ty)) (v w : (fieldsOf decl).Val)
    (h : view decl v = view decl w) : v = w := by
  induction decl with
  | nil => rfl
  | cons d ds ih =>
    simp only [view, List.cons.injEq, Prod.mk.injEq, true_and, Sigma.mk.injEq, heq_eq_eq] at h
    exact Prod.ext h.1 (ih _ _ h.2)

/-- A structure with named fields, declared out of alphabetical order. -/
def sampleFields : SynFields := .named [("b", .num (.int .u16)), ("a", .bool)]

example : FieldsOk sampleFields := by simp [FieldsOk, sampleFields]
example : ((encodeStruct sampleFields).runStruct
    (view sampleFields.decl ((0x0102#16, true, ()) : BitVec 16 × Bool × Unit))).map
      (fun m => (m ⟨[0, 0, 0, 0], 0⟩).2.buf) = some [2, 1, 1, 0] := by decide

/-- C62. For every enumeration with distinct names, whenever the macro emits an `encode`, it compiles
and does on every value what the model's `Ty.enum` does, with the representation and the
discriminants that Rust itself gives the enumeration. -/
theorem C62_encode (attrs : List Attr) (gs : List GenericParam) (vs : List SynVariant)
    (hv : VariantsOk vs) (hr : LegalRepr attrs) (c : EncodeImpl)
    (h : deriveEncode ⟨attrs, gs, .enum vs⟩ = some c) (v : (variantsOf vs).Val) :
    c.runEnum (viewEnum vs v) =
      some ((Ty.enum (rustRepr attrs) (variantsOf vs)).encode v) := by
  simp only [deriveEncode, Option.bind_eq_some_iff] at h
  obtain ⟨r, h1, h2⟩ := h
  rw [get_legal hr h1] at h2
  exact encodeEnum_run _ vs hv c h2 v

/-- C62. The same for the emitted `decode`. -/
theorem C62_decode (attrs : List Attr) (gs : List GenericParam) (vs : List SynVariant)
    (hv : VariantsOk vs) (hr : LegalRepr attrs) (c : DecodeImpl)
    (h : deriveDecode ⟨attrs, gs, .enum vs⟩ = some c) :
    c.runEnum (declsOf vs) =
      some (mapped (viewEnum vs) (Ty.enum (rustRepr attrs) (variantsOf vs)).decode) := by
  simp only [deriveDecode, Option.bind_eq_some_iff] at h
  obtain ⟨r, h1, h2⟩ := h
  rw [get_legal hr h1] at h2
  exact decodeEnum_run _ vs hv c h2

/-- C62. The presentation of values by named variants loses nothing. -/
theorem C62_view (vs : List SynVariant) (hv : VariantsOk vs) (v w : (variantsOf vs).Val)
    (h : viewEnum vs v = viewEnum vs w) : v = w := by
  induction vs with
  | nil => exact nomatch v
  | cons s vs ih =>
    obtain ⟨hn, hf⟩ := hv
    simp only [List.map_cons, List.nodup_cons] at hn
    have hv' : VariantsOk vs := ⟨hn.2, fun x hx => hf x (List.mem_cons_of_mem _ hx)⟩
    cases v with
    | inl v =>
      cases w with
      | inl w => exact congrArg Sum.inl (C61_view _ _ _ (congrArg Prod.snd h))
      | inr w =>
        have h : s.name = (viewEnum vs w).1 := congrArg Prod.fst h
        exact absurd (h ▸ viewEnum_mem vs w) hn.1
    | inr v =>
      cases w with
      | inl w =>
        have h : (viewEnum vs v).1 = s.name := congrArg Prod.fst h
        exact absurd (h ▸ viewEnum_mem vs v) hn.1
      | inr w => exact congrArg Sum.inr (ih hv' _ _ h)

/-- An enumeration: `#[repr(u8)] enum E { A(bool) = 0x10, B, C { x: u16 } = 3 }`. -/
def sampleEnum : List SynVariant :=
  [⟨"A", .unnamed [.bool], some (.int 16 [1, 0])⟩, ⟨"B", .unit, none⟩,
   ⟨"C", .named [("x", .num (.int .u16))], some (.int 10 [3])⟩]

/-- `#[repr(u8)]`. -/
def sampleAttrs : List Attr := [⟨"derive", []⟩, ⟨"repr", [.path "u8"]⟩]

example : VariantsOk sampleEnum := by
  constructor
  · decide
  · simp [sampleEnum, FieldsOk]
example : (deriveEncode ⟨sampleAttrs, [], .enum sampleEnum⟩).isSome := by decide
example : LegalRepr sampleAttrs := by
  refine ⟨?_, by decide⟩
  intro m hm
  simp only [sampleAttrs, reprItems] at hm
  simp at hm
  subst hm
  exact .inr (by decide)

/-- C63. Whenever the macros take the discriminants of an enumeration, the literals they emit are, in
order, the discriminants that Rust assigns to the variants. -/
theorem C63_sound (es : List (Option Expr)) (ls : List (List Char))
    (h : discriminants es none = some ls) :
    ls.map (fun l => (readLit l : Int)) = rustDiscs none es :=
  discriminants_eq es none ls h

/-- C63. The macros take the discriminants exactly if the explicit ones are integer literals and all
are below `2^128`. -/
theorem C63_exact (es : List (Option Expr)) :
    (∃ ls, discriminants es none = some ls) ↔
      (∀ e, some e ∈ es → IsLit e) ∧ ∀ d ∈ rustDiscs none es, d < 2 ^ 128 :=
  ⟨fun ⟨ls, h⟩ => discriminants_lit es none ls h, fun h => discriminants_some es none h.1 h.2⟩

/-- C63, as claimed for every enumeration that rustc accepts, holds for those whose explicit
discriminants are integer literals. Missing: every other expression, see `C63_false`. -/
theorem C63_taken_partial (r : Repr) (es : List (Option Expr)) (hr : LegalDiscs r es)
    (hu : ∀ d ∈ rustDiscs none es, d < 2 ^ 128)
    (hl : ∀ e, some e ∈ es → IsLit e) :
    ∃ ls, discriminants es none = some ls ∧
      ls.map (fun l => (readLit l : Int)) = rustDiscs none es := by
  obtain ⟨ls, h⟩ := discriminants_some es none hl hu
  exact ⟨ls, h, discriminants_eq es none ls h⟩

/-- C63 is false in general: `enum E { A = -1, B }`, which rustc accepts for every signed
representation, makes the macros panic; so do parentheses, constants and byte literals. -/
theorem C63_false :
    LegalDiscs (.int .i8) [some (.neg (.int 10 [1])), none] ∧
    discriminants [some (.neg (.int 10 [1])), none] none = none ∧
    LegalDiscs (.int .u8) [some (.paren (.int 10 [1]))] ∧
    discriminants [some (.paren (.int 10 [1]))] none = none ∧
    LegalDiscs (.int .u8) [some (.const 7)] ∧ discriminants [some (.const 7)] none = none ∧
    LegalDiscs (.int .u8) [some (.byte 97)] ∧ discriminants [some (.byte 97)] none = none := by
  unfold LegalDiscs
  decide

/-- C63. Underscores, base and leading zeros of a literal do not matter: only its value does. -/
theorem C63_literal (base base' : Nat) (ds ds' : List Nat)
    (h : exprValue (.int base ds) = exprValue (.int base' ds')) :
    explicitDisc (.int base ds) = explicitDisc (.int base' ds') := by
  cases h1 : explicitDisc (.int base ds) with
  | some n =>
    obtain ⟨_, h2, h3⟩ := explicitDisc_eq_some.1 h1
    exact ((explicitDisc_eq_some (e := .int base' ds')).2 ⟨True.intro, h ▸ h2, h3⟩).symm
  | none =>
    cases h4 : explicitDisc (.int base' ds') with
    | none => rfl
    | some n =>
      obtain ⟨_, h2, h3⟩ := explicitDisc_eq_some.1 h4
      rw [(explicitDisc_eq_some (e := .int base ds)).2 ⟨True.intro, h.trans h2, h3⟩] at h1
      cases h1

example : exprValue (.int 16 [15, 15]) = exprValue (.int 10 [0, 2, 5, 5]) := by decide
example : (discriminants (sampleEnum.map (·.disc)) none).map (·.map readLit) = some [16, 17, 3] := by
  decide
example : LegalDiscs (.int .u8) (sampleEnum.map (·.disc)) := by
  unfold LegalDiscs
  decide

/-- C64. On attributes that rustc accepts, whenever the macros find a representation it is the type
that Rust gives the discriminants. -/
theorem C64_sound (attrs : List Attr) (hl : LegalRepr attrs) (r : Repr)
    (h : Repr.get attrs = some r) : r = rustRepr attrs := get_legal hl h

/-- C64. A representation is found exactly if all items of all `repr` attributes name integer types;
other attributes do not matter. -/
theorem C64_exact (attrs : List Attr) :
    (∃ r, Repr.get attrs = some r) ↔
      ∀ m ∈ reprItems attrs, ∃ s r, m = .path s ∧ intTypes.lookup s = some r := by
  constructor
  · rintro ⟨r, h⟩ m hm
    have := ((get_eq attrs r).1 h).1 m hm
    cases m with
    | path s =>
      obtain ⟨r, hr⟩ := Option.isSome_iff_exists.1 this
      exact ⟨s, r, rfl, hr⟩
    | list s => exact this.elim
  · intro h
    refine ⟨_, (get_eq attrs _).2 ⟨?_, rfl⟩⟩
    intro m hm
    obtain ⟨s, r, rfl, hr⟩ := h m hm
    simp [Taken, hr]

/-- C64. The name with which the macros write the representation is read back as that type. -/
theorem C64_name (r : Repr) : resolve (Repr.toStr r) = some r := resolve_toStr r

/-- C64, as claimed for every enumeration that rustc accepts, holds if the attributes name integer
types only (or there is none). Missing: `C` and `align(..)`, see `C64_false`. -/
theorem C64_taken_partial (attrs : List Attr) (hl : LegalRepr attrs)
    (h : ∀ m ∈ reprItems attrs, m ≠ .path "C" ∧ m ≠ .list "align") :
    Repr.get attrs = some (rustRepr attrs) := by
  have : ∃ r, Repr.get attrs = some r := by
    refine (C64_exact attrs).2 fun m hm => ?_
    have h1 := hl.1 m hm
    have h2 := h m hm
    cases m with
    | path s =>
      rcases h1 with rfl | h1
      · exact absurd rfl h2.1
      · obtain ⟨r, hr⟩ := Option.isSome_iff_exists.1 h1
        exact ⟨s, r, rfl, hr⟩
    | list s =>
      cases h1
      exact absurd rfl h2.2
  obtain ⟨r, hr⟩ := this
  rw [hr, get_legal hl hr]

/-- C64 is false in general: `#[repr(C)]`, `#[repr(C, u8)]` and `#[repr(align(8))]` are legal on an
enumeration and make the macros panic. -/
theorem C64_false :
    (LegalRepr [⟨"repr", [.path "C"]⟩] ∧ Repr.get [⟨"repr", [.path "C"]⟩] = none) ∧
    (LegalRepr [⟨"repr", [.path "C", .path "u8"]⟩] ∧
      Repr.get [⟨"repr", [.path "C", .path "u8"]⟩] = none) ∧
    (LegalRepr [⟨"repr", [.list "align"]⟩] ∧ Repr.get [⟨"repr", [.list "align"]⟩] = none) := by
  refine ⟨⟨⟨?_, by decide⟩, by decide⟩, ⟨⟨?_, by decide⟩, by decide⟩, ⟨⟨?_, by decide⟩, by decide⟩⟩
  all_goals
    intro m hm
    simp only [reprItems, List.filter_cons, decide_true, List.filter_nil, if_true,
      List.flatMap_cons, List.flatMap_nil, List.append_nil, List.mem_cons, List.not_mem_nil,
      or_false] at hm
  · subst hm
    exact .inl rfl
  · rcases hm with rfl | rfl
    · exact .inl rfl
    · exact .inr (by decide)
  · subst hm
    rfl

example : Repr.get [⟨"derive", []⟩] = some .isize := by decide
example : Repr.get [⟨"repr", [.path "u16"]⟩] = some (.int .u16) := by decide

/-- C65. The emitted constant of a structure is the model's `MAX_ENCODED_SIZE`: the sum over the
fields. -/
theorem C65_struct (sizeOf : Ty → Nat) (attrs : List Attr) (gs : List GenericParam)
    (fs : SynFields) :
    ∃ c, deriveSizedEncode ⟨attrs, gs, .struct fs⟩ = some c ∧
      c.run sizeOf = some ((Ty.struct (fieldsOf fs.decl)).maxSize sizeOf) := by
  refine ⟨_, rfl, ?_⟩
  have := sumSizes_fields sizeOf fs.decl 0 []
  rw [List.append_nil] at this
  simp only [sizedEncodeStruct, SizedImpl.run, this, sumSizes, Nat.zero_add, Ty.maxSize]

/-- C65. The emitted constant of an enumeration is the model's: the maximum over the variants of the
discriminant and the sum over the fields. -/
theorem C65_enum (sizeOf : Ty → Nat) (attrs : List Attr) (gs : List GenericParam)
    (vs : List SynVariant) (hl : LegalRepr attrs) (c : SizedImpl)
    (h : deriveSizedEncode ⟨attrs, gs, .enum vs⟩ = some c) :
    c.run sizeOf = some ((Ty.enum (rustRepr attrs) (variantsOf vs)).maxSize sizeOf) := by
  simp only [deriveSizedEncode, Option.map_eq_some_iff] at h
  obtain ⟨r, h1, rfl⟩ := h
  rw [get_legal hl h1]
  simp only [sizedEncodeEnum, SizedImpl.run, maxSizes_eq, Ty.maxSize, Nat.zero_max]

example : ((deriveSizedEncode ⟨sampleAttrs, [], .enum sampleEnum⟩).bind (·.run fun _ => 0)) = some 3 := by
  decide

/-- C65. The derives agree on what they take: `Encode` and `Decode` take the same items, and whatever
they take, `SizedEncode` takes. -/
theorem C65_same (input : DeriveInput) :
    ((deriveEncode input).isSome ↔ (deriveDecode input).isSome) ∧
    ((deriveEncode input).isSome → (deriveSizedEncode input).isSome) := by
  obtain ⟨attrs, gs, data⟩ := input
  cases data with
  | struct fs => exact ⟨Iff.rfl, fun _ => rfl⟩
  | union => exact ⟨Iff.rfl, id⟩
  | enum vs =>
    simp only [deriveEncode, deriveDecode, deriveSizedEncode]
    cases Repr.get attrs with
    | none => simp
    | some r => simp [encodeEnum_isSome, decodeEnum_isSome]

/-- C65. Who gets an impl: every structure, no union, and the enumerations whose `repr` items all
name integer types and whose discriminants are literals below `2^128`. -/
theorem C65_exact (input : DeriveInput) :
    (deriveEncode input).isSome ↔
      match input.data with
      | .struct _ => True
      | .union => False
      | .enum vs =>
        (∀ m ∈ reprItems input.attrs, ∃ s r, m = .path s ∧ intTypes.lookup s = some r) ∧
        (∀ v ∈ vs, ∀ e, v.disc = some e → IsLit e) ∧
        ∀ d ∈ rustDiscs none (vs.map (·.disc)), d < 2 ^ 128 := by
  obtain ⟨attrs, gs, data⟩ := input
  cases data with
  | struct fs => simp [deriveEncode]
  | union => simp [deriveEncode]
  | enum vs =>
    have h1 := C64_exact attrs
    have h2 := C63_exact (vs.map (·.disc))
    have h3 : (∀ e, some e ∈ vs.map (·.disc) → IsLit e) ↔ ∀ v ∈ vs, ∀ e, v.disc = some e → IsLit e := by
      constructor
      · intro h v hv e he
        exact h e (he ▸ List.mem_map.2 ⟨v, hv, rfl⟩)
      · intro h e he
        obtain ⟨v, hv, he⟩ := List.mem_map.1 he
        exact h v hv e he
    rw [h3] at h2
    simp only [← h1, ← h2, deriveEncode]
    cases Repr.get attrs with
    | none => simp
    | some r => simp [encodeEnum_isSome, Option.isSome_iff_exists]

/-- C66. The generic arguments in the header of the emitted impl are the parameters of the item, in
order, each by its name and kind. -/
theorem C66_arguments (input : DeriveInput) :
    (implHeader input).params = input.generics ∧
    (implHeader input).args = input.generics.map argumentFor := by
  refine ⟨rfl, ?_⟩
  simp only [implHeader, GenericName.extractFrom]
  apply List.map_congr_left
  intro p _
  cases p <;> rfl

/-- C66, as claimed for every item, holds for the items whose parameters have no defaults. Missing:
parameters with defaults, see `C66_false`. -/
theorem C66_legal_partial (input : DeriveInput) (h : ∀ p ∈ input.generics, LegalImplParam p) :
    ∀ p ∈ (implHeader input).params, LegalImplParam p := h

/-- C66 is false in general: for `struct S<T = u8>(T)` the macros emit `impl<T = u8> .. for S<T>`,
which rustc rejects. -/
theorem C66_false :
    ∃ input : DeriveInput, ∃ p ∈ (implHeader input).params, ¬ LegalImplParam p :=
  ⟨⟨[], [.ty "T" true], .struct (.unnamed [.bool])⟩, .ty "T" true, by simp [implHeader], by
    simp [LegalImplParam]⟩

example : (implHeader ⟨[], [.lifetime "'a", .ty "T" false, .const "N" false], .union⟩).args =
    [.lifetime "'a", .ty "T", .const "N"] := by decide

/-- C67. For a structure, what the emitted `encode` has written, the emitted `decode` reads back
field for field, leaving what follows. Missing: values with parts that the format does not carry or
that are not supported (see C09). -/
theorem C67_struct_partial (attrs : List Attr) (gs : List GenericParam) (fs : SynFields)
    (h : FieldsOk fs) (hw : (fieldsOf fs.decl).WF) (v : (fieldsOf fs.decl).Val)
    (hs : Supported (.struct (fieldsOf fs.decl)) v)
    (hc : carried (.struct (fieldsOf fs.decl)) v = v) :
    ∃ ce cd m d,
      deriveEncode ⟨attrs, gs, .struct fs⟩ = some ce ∧
      deriveDecode ⟨attrs, gs, .struct fs⟩ = some cd ∧
      ce.runStruct (view fs.decl v) = some m ∧ cd.runStruct fs.decl = some d ∧
      ∀ (o o' : Output) (rest : List Byte), o.position ≤ o.capacity → m o = (.ok (), o') →
        d ⟨o'.asSlice ++ rest, o.position⟩ =
          (.ok (view fs.decl v), ⟨o'.asSlice ++ rest, o'.position⟩) := by
  refine ⟨_, _, _, _, rfl, rfl, encodeStruct_run h v, decodeStruct_run h, ?_⟩
  intro o o' rest ho hm
  unfold mapped
  rw [C09_round_trip_exact_partial (.struct (fieldsOf fs.decl)) hw v hs hc o o' ho hm rest]
  rfl

/-- C67. For an enumeration that rustc accepts and the macros take, what the emitted `encode` has
written, the emitted `decode` reads back as the same variant with the same fields, leaving what
follows. Missing: as in `C67_struct_partial`. -/
theorem C67_enum_partial (attrs : List Attr) (gs : List GenericParam) (vs : List SynVariant)
    (hv : VariantsOk vs) (hr : LegalRepr attrs)
    (hd : LegalDiscs (rustRepr attrs) (vs.map (·.disc)))
    (hf : ∀ s ∈ vs, (fieldsOf s.fields.decl).WF)
    (ce : EncodeImpl) (cd : DecodeImpl)
    (he : deriveEncode ⟨attrs, gs, .enum vs⟩ = some ce)
    (hdec : deriveDecode ⟨attrs, gs, .enum vs⟩ = some cd)
    (v : (variantsOf vs).Val) (hs : Supported (.enum (rustRepr attrs) (variantsOf vs)) v)
    (hc : carried (.enum (rustRepr attrs) (variantsOf vs)) v = v) :
    ∃ m d, ce.runEnum (viewEnum vs v) = some m ∧ cd.runEnum (declsOf vs) = some d ∧
      ∀ (o o' : Output) (rest : List Byte), o.position ≤ o.capacity → m o = (.ok (), o') →
        d ⟨o'.asSlice ++ rest, o.position⟩ =
          (.ok (viewEnum vs v), ⟨o'.asSlice ++ rest, o'.position⟩) := by
  refine ⟨_, _, C62_encode attrs gs vs hv hr ce he v, C62_decode attrs gs vs hv hr cd hdec, ?_⟩
  have hl : ∃ ls, discriminants (vs.map (·.disc)) none = some ls := by
    simp only [deriveEncode, Option.bind_eq_some_iff] at he
    obtain ⟨r, _, h2⟩ := he
    have := encodeEnum_isSome vs r
    rw [h2] at this
    exact Option.isSome_iff_exists.1 this.symm
  obtain ⟨ls, hl⟩ := hl
  intro o o' rest ho hm
  unfold mapped
  rw [C09_round_trip_exact_partial _ (enum_wf _ vs hd hf ls hl) v hs hc o o' ho hm rest]
  rfl

example : (fieldsOf sampleFields.decl).WF ∧
    carried (.struct (fieldsOf sampleFields.decl)) ((0x0102#16, true, ()) : BitVec 16 × Bool × Unit)
      = ((0x0102#16, true, ()) : BitVec 16 × Bool × Unit) :=
  ⟨⟨trivial, trivial, trivial⟩, rfl⟩
example : LegalDiscs (rustRepr sampleAttrs) (sampleEnum.map (·.disc)) ∧
    ∀ s ∈ sampleEnum, (fieldsOf s.fields.decl).WF := by
  refine ⟨by unfold LegalDiscs; decide, ?_⟩
  intro s hs
  simp only [sampleEnum, List.mem_cons, List.not_mem_nil, or_false] at hs
  rcases hs with rfl | rfl | rfl
  · exact ⟨trivial, trivial⟩
  · exact trivial
  · exact ⟨trivial, trivial⟩

end Oct.Props
