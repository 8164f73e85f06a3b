import Verif.Proofs.ErrorMessages
import Verif.Props.Language
import Verif.Props.Refusals
/-
C86 to C90: the error types, their conversions, sources and messages.
-/
namespace Oct.Props
open Oct Oct.Spec

/-- C86. The error of an encoding is a value of the impl's associated `Error` type. -/
theorem C86_encode (t : Ty) (v : t.Val) (o o' : Output) (ho : o.position ≤ o.capacity) (e : EncErr)
    (E : EncTy) (hE : t.encErr = some E) (h : t.encode v o = (.err e, o')) : EncHas E e := by
  obtain ⟨bs, hR, _⟩ := (C60_refused t v o o' ho e).mp h
  exact refuses_has t v bs e E hE hR

/-- An array of `usize`: `CollectionEncodeError<Infallible, ItemEncodeError<usize, ..>>`. -/
example : EncHas (.coll .infallible (.item .usize)) (.badItem (.item 2 (.usize 65536))) :=
  C86_encode (.array .usize 3) ⟨[(1 : Nat), (2 : Nat), (65536 : Nat)], rfl⟩
    (Output.new [9, 9, 9, 9, 9]) _ (by decide) _ _ rfl
    (by decide +kernel : _ = (_, Output.mk [1, 0, 2, 0, 9] 4))

/-- C86. The error of a decoding is a value of the impl's associated `Error` type. -/
theorem C86_decode (t : Ty) (ht : t.WF) (i i' : Input) (e : DecErr) (E : DecTy)
    (hE : t.decErr = some E) (h : t.decode i = (.err e, i')) : DecHas E e := by
  obtain ⟨bs, rest, _, hR, _⟩ := (C53_rejected t ht i i' e).mp h
  exact rejects_has t false bs e E hE hR

/-- A vector of non-zero octets. -/
example : DecHas (.coll .infallible (.item .nonZero)) (.badItem (.item 1 .nonZero)) :=
  C86_decode (.seq .vec (.nonZero (.int .u8))) trivial (Input.new [2, 0, 7, 0]) _ _ _ rfl
    (by decide +kernel : _ = (_, Input.mk [2, 0, 7, 0] 4))

/-- C86. `Cow<B>` has the `Decode` impl and the error type of `B::Owned`. -/
theorem C86_cow (t : Ty) (ht : ∀ w u, t ≠ .wrap w u) :
    (Ty.wrap .cow t).decErr = (toOwned t).decErr ∧
    (∀ u, (Ty.wrap .cow (.seq .slice u)).decErr = (Ty.seq .vec u).decErr) ∧
    (Ty.wrap .cow (.str .str)).decErr = (Ty.str .string).decErr ∧
    (Ty.wrap .cow (.cStr .cStr)).decErr = (Ty.cStr .cString).decErr := by
  refine ⟨?_, fun _ => rfl, rfl, rfl⟩
  cases t with
  | wrap w u => exact absurd rfl (ht w u)
  | seq k u => cases k <;> rfl
  | str k => cases k <;> rfl
  | cStr k => cases k <;> rfl
  | _ => rfl

/-- `Cow<str>` may be decoded, but `str` may not. -/
example : (Ty.wrap .cow (.str .str)).decErr = some (.coll .infallible .utf8) ∧
    (Ty.str .str).decErr = none := ⟨rfl, rfl⟩

/-- C86. A type whose encode `Error` has no values never gives an error. -/
theorem C86_never_encode (t : Ty) (v : t.Val) (o o' : Output) (ho : o.position ≤ o.capacity)
    (e : EncErr) (E : EncTy) (hE : t.encErr = some E) (hn : ∀ e, ¬ EncHas E e) :
    t.encode v o ≠ (.err e, o') :=
  fun h => hn e (C86_encode t v o o' ho e E hE h)

/-- `IpAddr` has the error type `EnumEncodeError<u8, Infallible>`, which has no values. -/
example (v : IpAddrVal) (o o' : Output) (ho : o.position ≤ o.capacity) (e : EncErr) :
    Ty.ipAddr.encode v o ≠ (.err e, o') :=
  C86_never_encode .ipAddr v o o' ho e _ rfl (by
    rintro e (⟨_, h, _⟩ | ⟨_, h, _⟩ | ⟨_, _, h⟩)
    · cases h
    · cases h
    · exact h)

/-- C86. A type whose decode `Error` has no values never gives an error. -/
theorem C86_never_decode (t : Ty) (ht : t.WF) (i i' : Input) (e : DecErr) (E : DecTy)
    (hE : t.decErr = some E) (hn : ∀ e, ¬ DecHas E e) : t.decode i ≠ (.err e, i') :=
  fun h => hn e (C86_decode t ht i i' e E hE h)

/-- An array of numbers. -/
example (i i' : Input) (e : DecErr) : (Ty.array (.num (.int .u8)) 4).decode i ≠ (.err e, i') :=
  C86_never_decode (.array (.num (.int .u8)) 4) trivial i i' e _ rfl (by
    rintro e (⟨_, _, h⟩ | ⟨_, _, _, _, _, h⟩) <;> exact h)

/-- C87. An encode error type that converts to `Infallible` has no values, so the conversion
(`unreachable!()`) is never run. -/
theorem C87_encode (E : EncTy) (h : E.intoInfallible = true) (e : EncErr) : ¬ EncHas E e :=
  encHas_intoInfallible E e h

/-- `CollectionEncodeError<Infallible, ItemEncodeError<usize, Infallible>>`, that of `[u8; N]`. -/
example (e : EncErr) : ¬ EncHas (.coll .infallible (.item .infallible)) e := C87_encode _ rfl e

/-- C87 is false for decode error types: a vector of non-zero octets gives an error that converts to
`Infallible`, as there is no bound on the error of `ItemDecodeError`. -/
theorem C87_false_item : ∃ E, (Ty.seq .vec (.nonZero (.int .u8))).decErr = some E ∧
    E.intoInfallible = true ∧ DecHas E (.badItem (.item 0 .nonZero)) ∧
    (Ty.seq .vec (.nonZero (.int .u8))).decode (Input.new [1, 0, 0])
      = (.err (.badItem (.item 0 .nonZero)), ⟨[1, 0, 0], 3⟩) :=
  ⟨.coll .infallible (.item .nonZero), rfl, rfl, .inr ⟨_, rfl, _, _, rfl, rfl⟩, by decide +kernel⟩

/-- C87 is false for decode error types: an `IpAddr` with an unassigned discriminant gives an error
that converts to `Infallible`. -/
theorem C87_false_enum : ∃ E, Ty.ipAddr.decErr = some E ∧ E.intoInfallible = true ∧
    DecHas E (.unassigned 5) ∧
    Ty.ipAddr.decode (Input.new [5]) = (.err (.unassigned 5), ⟨[5], 1⟩) :=
  ⟨.enum (some (.int .u8)) .infallible, rfl, rfl, .inl ⟨_, _, rfl, by decide +kernel, rfl⟩,
    by decide +kernel⟩

/-- C87, what remains for decode error types: those made of `Infallible` by collections only. The
types with `ItemDecodeError` and `EnumDecodeError` are missing. -/
theorem C87_decode_partial (E : DecTy) (h : OnlyCollections E) (e : DecErr) :
    E.intoInfallible = true ∧ ¬ DecHas E e := by
  induction E generalizing e with
  | infallible => exact ⟨rfl, id⟩
  | coll l i ihl ihi =>
    refine ⟨by simp [DecTy.intoInfallible, (ihl h.1 e).1, (ihi h.2 e).1], ?_⟩
    rintro (⟨e', _, h'⟩ | ⟨e', _, h'⟩)
    · exact (ihl h.1 e').2 h'
    · exact (ihi h.2 e').2 h'
  | _ => exact h.elim

example (e : DecErr) : ¬ DecHas (.coll .infallible .infallible) e :=
  (C87_decode_partial (.coll .infallible .infallible) ⟨trivial, trivial⟩ e).2

/-- C88. The chain of sources of an encode error has exactly one end, and that is an error with a
reason of its own. -/
theorem C88_encode_root (E : EncTy) (e : EncErr) (hE : E.isError = true) (h : EncHas E e) :
    ∃ r, (Root (.enc e) r ∧ OwnReason r) ∧ ∀ r', Root (.enc e) r' → r' = r := by
  obtain ⟨r, h1, h2⟩ := enc_root E e hE h
  exact ⟨r, ⟨h1, h2⟩, fun r' h' => leads_unique h' h1⟩

example : Root (.enc (.badItem (.item 2 (.usize 65536)))) (.enc (.usize 65536)) :=
  ⟨.step rfl (.step rfl (.refl _)), rfl⟩

/-- C88. The chain of sources of a decode error has exactly one end, and that is an error with a
reason of its own. -/
theorem C88_decode_root (e : DecErr) :
    ∃ r, (Root (.dec e) r ∧ OwnReason r) ∧ ∀ r', Root (.dec e) r' → r' = r := by
  obtain ⟨r, h1, h2⟩ := dec_root e
  exact ⟨r, ⟨h1, h2⟩, fun r' h' => leads_unique h' h1⟩

example : Root (.dec (.badField (.gBadString 0xFF 3))) (.dec (.utf8 0xFF 3)) :=
  ⟨.step rfl (.step rfl (.refl _)), rfl⟩

/-- C88. The conversion to `GenericEncodeError` keeps the end of the chain. -/
theorem C88_encode_generic (E : EncTy) (e : EncErr) (hE : E.intoGeneric = true) (h : EncHas E e)
    (r : Cause) : Root (.enc e) r ↔ Root (.enc e.toGeneric) r := by
  refine ⟨enc_root_generic E e hE h r, fun h' => ?_⟩
  obtain ⟨r0, h1, _⟩ := enc_root E e (intoGeneric_isError E hE) h
  exact leads_unique h' (enc_root_generic E e hE h r0 h1) ▸ h1

example : Root (.enc (EncErr.badItem (.item 2 (.usize 65536))).toGeneric) (.enc (.usize 65536)) :=
  (C88_encode_generic (.coll .usize (.item .usize)) _ rfl (.inr ⟨_, rfl, _, _, rfl, _, rfl⟩) _).mp
    ⟨.step rfl (.step rfl (.refl _)), rfl⟩

/-- C88. The conversion to `GenericDecodeError` keeps the end of the chain, but for an unassigned
discriminant, which becomes the one of the generic error. -/
theorem C88_decode_generic (e : DecErr) (r : Cause) (h : Root (.dec e) r) :
    Root (.dec e.toGeneric) r ∨
      ∃ v, r = .dec (.unassigned v) ∧ Root (.dec e.toGeneric) (.dec (.gUnassigned (toU128 v))) := by
  have := dec_root_generic e r h
  split at this
  · exact .inr ⟨_, rfl, this⟩
  · exact .inl this

example : Root (.dec (DecErr.badItem (.utf8 0xFF 3)).toGeneric) (.dec (.utf8 0xFF 3)) :=
  (C88_decode_generic (.badItem (.utf8 0xFF 3)) _ ⟨.step rfl (.refl _), rfl⟩).resolve_right
    (by rintro ⟨v, h, _⟩; cases h)

/-- C88. The encode error type of a type is an `Error` exactly if there is no `LinkedList` in the
type. -/
theorem C88_encode_error_iff (t : Ty) (E : EncTy) (hE : t.encErr = some E) :
    E.isError = true ↔ ¬ Within IsLinkedList t :=
  encProp_within encProp_isError t E hE

example : EncTy.isError (.refCell (.coll .usize (.item .usize))) = true :=
  (C88_encode_error_iff (.refCell (.seq .vec .usize)) _ rfl).mpr
    (by simp [Within, IsLinkedList])

/-- C88 is false for encode errors as a whole: the error of a `LinkedList` is no `Error`. -/
theorem C88_false_list : ∃ (t : Ty) (E : EncTy), t.encErr = some E ∧ E.isError = false :=
  ⟨.seq .linkedList (.num (.int .u8)), _, rfl, rfl⟩

/-- C88. Every decode error type is an `Error`. -/
theorem C88_decode_error (t : Ty) (E : DecTy) (_ : t.decErr = some E) : E.isError = true :=
  decTy_isError E

example : DecTy.isError (.enum none (.coll .infallible .utf8)) = true :=
  C88_decode_error (.result (.str .string) (.str .string)) _ rfl

/-- C89. A structure with derived `Encode` compiles exactly if each field type is encodable and
neither a `LinkedList` nor a `RefCell` occurs in it. -/
theorem C89_encode_struct (fs : Fields) : (Ty.struct fs).encErr ≠ none ↔
    ∀ t ∈ fieldTys fs, t.encErr ≠ none ∧ ¬ Within IsLinkedListOrRefCell t := by
  have : (Ty.struct fs).encErr ≠ none ↔ fs.encInto = true := by
    simp only [Ty.encErr]
    split <;> simp [*]
  rw [this, fields_encInto_iff]
  exact forall_congr' fun t => forall_congr' fun _ => encField_iff t

/-- C89. So does an enumeration. -/
theorem C89_encode_enum (r : Repr) (vs : Variants) : (Ty.enum r vs).encErr ≠ none ↔
    ∀ t ∈ variantTys vs, t.encErr ≠ none ∧ ¬ Within IsLinkedListOrRefCell t := by
  have : (Ty.enum r vs).encErr ≠ none ↔ vs.encInto = true := by
    simp only [Ty.encErr]
    split <;> simp [*]
  rw [this, variants_encInto_iff]
  exact forall_congr' fun t => forall_congr' fun _ => encField_iff t

/-- C89. A structure with derived `Decode` compiles exactly if each field type is decodable and
neither `char` nor a `Result` occurs in it. -/
theorem C89_decode_struct (fs : Fields) : (Ty.struct fs).decErr ≠ none ↔
    ∀ t ∈ fieldTys fs, t.decErr ≠ none ∧ ¬ Within IsCharOrResult t := by
  have : (Ty.struct fs).decErr ≠ none ↔ fs.decInto = true := by
    simp only [Ty.decErr, Ty.decErrOf]
    split <;> simp [*]
  rw [this, fields_decInto_iff]
  exact forall_congr' fun t => forall_congr' fun _ => decField_iff t

/-- C89. So does an enumeration. -/
theorem C89_decode_enum (r : Repr) (vs : Variants) : (Ty.enum r vs).decErr ≠ none ↔
    ∀ t ∈ variantTys vs, t.decErr ≠ none ∧ ¬ Within IsCharOrResult t := by
  have : (Ty.enum r vs).decErr ≠ none ↔ vs.decInto = true := by
    simp only [Ty.decErr, Ty.decErrOf]
    split <;> simp [*]
  rw [this, variants_decInto_iff]
  exact forall_congr' fun t => forall_congr' fun _ => decField_iff t

/-- A structure with a `String` and a number. -/
example : (Ty.struct (.cons (.str .string) (.cons (.num (.int .u32)) .nil))).encErr ≠ none ∧
    (Ty.struct (.cons (.str .string) (.cons (.num (.int .u32)) .nil))).decErr ≠ none :=
  ⟨(C89_encode_struct _).mpr (by
      simp [fieldTys, Ty.encErr, Within, IsLinkedListOrRefCell]),
    (C89_decode_struct _).mpr (by
      simp [fieldTys, Ty.decErr, Ty.decErrOf, Within, IsCharOrResult])⟩

/-- C89 is false: a `RefCell` is encodable and cannot be a field, nor can a `LinkedList`. -/
theorem C89_false_encode : ∃ t u : Ty, t.encErr ≠ none ∧ (Ty.struct (.cons t .nil)).encErr = none ∧
    u.encErr ≠ none ∧ (Ty.struct (.cons u .nil)).encErr = none ∧ t = .refCell (.num (.int .u8)) ∧
    u = .seq .linkedList (.num (.int .u8)) :=
  ⟨_, _, by decide, by decide, by decide, by decide, rfl, rfl⟩

/-- C89 is false: `char` is decodable and cannot be a field, nor can a `Result`. -/
theorem C89_false_decode : ∃ t u : Ty, t.decErr ≠ none ∧ (Ty.struct (.cons t .nil)).decErr = none ∧
    u.decErr ≠ none ∧ (Ty.struct (.cons u .nil)).decErr = none ∧ t = .char ∧
    u = .result (.num (.int .u8)) (.num (.int .u8)) :=
  ⟨_, _, by decide, by decide, by decide, by decide, rfl, rfl⟩

/-- C89 is false of tuples and maps: `(u8, usize)` and `HashMap<u8, usize>` are decodable and not
encodable, `(String, Vec<u8>)` and `HashMap<String, Vec<u8>>` encodable and not decodable. -/
theorem C89_false_tuple :
    (Ty.tuple (.cons (.num (.int .u8)) (.cons .usize .nil))).encErr = none ∧
    (Ty.tuple (.cons (.num (.int .u8)) (.cons .usize .nil))).decErr ≠ none ∧
    (Ty.hashMap (.num (.int .u8)) .usize).encErr = none ∧
    (Ty.hashMap (.num (.int .u8)) .usize).decErr ≠ none ∧
    (Ty.tuple (.cons (.str .string) (.cons (.seq .vec (.num (.int .u8))) .nil))).encErr ≠ none ∧
    (Ty.tuple (.cons (.str .string) (.cons (.seq .vec (.num (.int .u8))) .nil))).decErr = none ∧
    (Ty.hashMap (.str .string) (.seq .vec (.num (.int .u8)))).encErr ≠ none ∧
    (Ty.hashMap (.str .string) (.seq .vec (.num (.int .u8)))).decErr = none := by
  decide

/-- C89. Tuples: exactly those of two to twelve members all of which have the same error. -/
theorem C89_tuple (fs : Fields) :
    ((Ty.tuple fs).encErr ≠ none ↔ 2 ≤ (fieldTys fs).length ∧ (fieldTys fs).length ≤ 12 ∧
      ∃ E, ∀ t ∈ fieldTys fs, t.encErr = some E) ∧
    ((Ty.tuple fs).decErr ≠ none ↔ 2 ≤ (fieldTys fs).length ∧ (fieldTys fs).length ≤ 12 ∧
      ∃ E, ∀ t ∈ fieldTys fs, t.decErr = some E) := by
  have hc : ∀ fs : Fields, fs.count = (fieldTys fs).length := fieldTys_length
  have he : ∀ (fs : Fields) (E : EncTy), fs.encErr = some E ↔
      fieldTys fs ≠ [] ∧ ∀ t ∈ fieldTys fs, t.encErr = some E := fields_encErr_iff
  have hd : ∀ (fs : Fields) (E : DecTy), fs.decErr = some E ↔
      fieldTys fs ≠ [] ∧ ∀ t ∈ fieldTys fs, t.decErr = some E := fields_decErr_iff
  constructor
  · rw [Ty.encErr, hc]
    split
    · next h =>
      rw [Option.ne_none_iff_exists']
      refine ⟨fun ⟨E, hE⟩ => ⟨h.1, h.2, E, ((he fs E).mp hE).2⟩, fun ⟨_, _, E, hE⟩ => ⟨E, (he fs E).mpr ⟨?_, hE⟩⟩⟩
      intro e
      rw [e] at h
      exact absurd h.1 (by decide)
    · next h => exact ⟨fun h => absurd rfl h, fun h' => absurd ⟨h'.1, h'.2.1⟩ h⟩
  · rw [Ty.decErr, Ty.decErrOf, hc]
    split
    · next h =>
      rw [Option.ne_none_iff_exists']
      refine ⟨fun ⟨E, hE⟩ => ⟨h.1, h.2, E, ((hd fs E).mp hE).2⟩, fun ⟨_, _, E, hE⟩ => ⟨E, (hd fs E).mpr ⟨?_, hE⟩⟩⟩
      intro e
      rw [e] at h
      exact absurd h.1 (by decide)
    · next h => exact ⟨fun h => absurd rfl h, fun h' => absurd ⟨h'.1, h'.2.1⟩ h⟩

example : (Ty.tuple (.cons .bool (.cons .char .nil))).encErr ≠ none ∧
    (Ty.tuple (.cons .bool (.cons .char .nil))).decErr = none ∧ (Ty.tuple (.cons .bool .nil)).encErr = none := by
  decide

/-- C89. Hash maps: exactly those whose keys and values have the same error. Hash sets: all whose keys are
encodable or decodable. -/
theorem C89_map (k v : Ty) :
    ((Ty.hashMap k v).encErr ≠ none ↔ ∃ E, k.encErr = some E ∧ v.encErr = some E) ∧
    ((Ty.hashMap k v).decErr ≠ none ↔ ∃ E, k.decErr = some E ∧ v.decErr = some E) ∧
    ((Ty.hashSet k).encErr ≠ none ↔ k.encErr ≠ none) ∧ ((Ty.hashSet k).decErr ≠ none ↔ k.decErr ≠ none) := by
  simp only [Ty.encErr, Ty.decErr, Ty.decErrOf]
  refine ⟨?_, ?_, by simp⟩
  · split
    · next h => rw [Option.ne_none_iff_exists', ← h]; simp
    · next h => exact ⟨fun h => absurd rfl h, fun ⟨E, h1, h2⟩ => absurd (h1.trans h2.symm) h⟩
  · split
    · next h => rw [Ne, Option.map_eq_none_iff, ← Ne, Option.ne_none_iff_exists', ← h]; simp
    · next h => exact ⟨fun h => absurd rfl h, fun ⟨E, h1, h2⟩ => absurd (h1.trans h2.symm) h⟩

/-- C89. Results: decodable exactly if both sides have the same error, encodable exactly if the error of the second
converts into that of the first: it is the same, or the first is `Infallible` and the second converts into that, or the
first is that of derived types and the second converts into that. -/
theorem C89_result (t u : Ty) :
    ((Ty.result t u).encErr ≠ none ↔ ∃ E F, t.encErr = some E ∧ u.encErr = some F ∧
      (F = E ∨ E = .infallible ∧ F.intoInfallible = true ∨ E = .generic ∧ F.intoGeneric = true)) ∧
    ((Ty.result t u).decErr ≠ none ↔ ∃ E, t.decErr = some E ∧ u.decErr = some E) := by
  simp only [Ty.encErr, Ty.decErr, Ty.decErrOf]
  constructor
  · cases t.encErr with
    | none => simp
    | some a =>
      cases u.encErr with
      | none => simp
      | some b =>
        have : ∀ b : Bool, (if b = true then some a else none) ≠ none ↔ b = true := by
          intro b; cases b <;> simp
        rw [this]
        simp only [EncTy.into, Bool.or_eq_true, Bool.and_eq_true, beq_iff_eq, or_assoc]
        exact ⟨fun h => ⟨a, b, rfl, rfl, h⟩, fun ⟨_, _, h1, h2, h⟩ => by cases h1; cases h2; exact h⟩
  · split
    · next h => rw [Ne, Option.map_eq_none_iff, ← Ne, Option.ne_none_iff_exists', ← h]; simp
    · next h => exact ⟨fun h => absurd rfl h, fun ⟨E, h1, h2⟩ => absurd (h1.trans h2.symm) h⟩

example : (Ty.result .bool (.array .bool 2)).encErr ≠ none ∧ (Ty.result .bool .usize).encErr = none ∧
    (Ty.result .usize .bool).encErr = none ∧ (Ty.result .usize .usize).decErr ≠ none ∧
    (Ty.hashMap .bool .bool).encErr ≠ none ∧ (Ty.hashMap .bool .char).decErr = none := by
  decide

/-- C90. Encode errors of one type have different messages. -/
theorem C90_encode_messages (E : EncTy) (hE : E.isError = true) (e e' : EncErr) (h : EncHas E e)
    (h' : EncHas E e') (hm : e.message = e'.message) : e = e' :=
  encMessage_inj E e e' hE h h' hm

example : (EncErr.item 1 (.usize 65536)).message ≠ (EncErr.item 16 (.usize 65536)).message :=
  fun h => absurd (C90_encode_messages (.item .usize) rfl _ _ ⟨_, _, rfl, _, rfl⟩
    ⟨_, _, rfl, _, rfl⟩ h) (by decide)

/-- C90. Decode errors of one type have different messages. -/
theorem C90_decode_messages (E : DecTy) (e e' : DecErr) (h : DecHas E e) (h' : DecHas E e')
    (hm : e.message = e'.message) : e = e' :=
  decMessage_inj E e e' h h' hm

example : (DecErr.utf8 5 12).message ≠ (DecErr.utf8 0x51 2).message :=
  fun h => absurd (C90_decode_messages .utf8 _ _ ⟨_, _, rfl⟩ ⟨_, _, rfl⟩ h) (by decide)

/-- C90. What encodings of the same type report differs exactly if the messages differ. -/
theorem C90_encode_reports (t : Ty) (v v' : t.Val) (o o' p p' : Output) (ho : o.position ≤ o.capacity)
    (hp : p.position ≤ p.capacity) (e e' : EncErr) (ht : t.encErr ≠ none)
    (hl : ¬ Within IsLinkedList t) (h : t.encode v o = (.err e, o'))
    (h' : t.encode v' p = (.err e', p')) : e.message = e'.message ↔ e = e' := by
  obtain ⟨E, hE⟩ := Option.ne_none_iff_exists'.mp ht
  exact ⟨C90_encode_messages E ((C88_encode_error_iff t E hE).mpr hl) e e'
    (C86_encode t v o o' ho e E hE h) (C86_encode t v' p p' hp e' E hE h'), congrArg _⟩

/-- C90. What decodings of the same type report differs exactly if the messages differ. -/
theorem C90_decode_reports (t : Ty) (ht : t.WF) (hd : t.decErr ≠ none) (i i' j j' : Input)
    (e e' : DecErr) (h : t.decode i = (.err e, i')) (h' : t.decode j = (.err e', j')) :
    e.message = e'.message ↔ e = e' := by
  obtain ⟨E, hE⟩ := Option.ne_none_iff_exists'.mp hd
  exact ⟨C90_decode_messages E e e' (C86_decode t ht i i' e E hE h)
    (C86_decode t ht j j' e' E hE h'), congrArg _⟩

example : (DecErr.unassigned 5).message ≠ (DecErr.unassigned 7).message := fun h =>
  absurd ((C90_decode_reports .ipAddr trivial (by decide) (Input.new [5]) ⟨[5], 1⟩ (Input.new [7])
    ⟨[7], 1⟩ _ _ (by decide +kernel) (by decide +kernel)).mp h) (by decide)

/-- C90. The message of an error ends with that of each error in its chain of sources. -/
theorem C90_ends_with_cause (c r : Cause) (h : Leads c r) :
    ∃ pre, causeMessage c = pre ++ causeMessage r :=
  message_leads h

example : ∃ pre, (EncErr.badItem (.item 2 (.usize 65536))).message =
    pre ++ (EncErr.usize 65536).message :=
  C90_ends_with_cause (.enc (.badItem (.item 2 (.usize 65536)))) (.enc (.usize 65536))
    (.step rfl (.step rfl (.refl _)))

/-- C90. The message of an `InputError` tells all its fields. -/
theorem C90_input (a b c a' b' c' : Nat) (h : inputMessage a b c = inputMessage a' b' c') :
    a = a' ∧ b = b' ∧ c = c' :=
  inputMessage_inj h

/-- C90. The message of an `OutputError` tells all its fields. -/
theorem C90_output (a b c a' b' c' : Nat) (h : outputMessage a b c = outputMessage a' b' c') :
    a = a' ∧ b = b' ∧ c = c' :=
  outputMessage_inj h

example : inputMessage 8 6 4 =
      text "cannot read (4) bytes at (6) from input stream with capacity of (8)" ∧
    outputMessage 8 6 4 =
      text "cannot write (4) bytes at (6) to output stream with capacity of (8)" := by
  unfold inputMessage outputMessage text
  decide +kernel

example : (DecErr.char 0xD800).message = text "code point U+D800 is not defined" ∧
    (DecErr.utf8 5 12).message = text "found invalid utf-8 octet 0x5 at offset (12)" ∧
    (DecErr.unassigned (-3)).message =
      text "`-3` is not an assigned discriminant for the given enumeration" ∧
    (DecErr.gUnassigned 171).message = text "discriminant value `0xAB has not been assigned" := by
  simp only [DecErr.message]
  unfold text
  decide +kernel

/-- C90. A code point is written as Unicode writes it: in hexadecimal, with four digits if it has not
more, else without zeros before it. -/
theorem C90_code_point (c : Nat) : ∃ ds, (DecErr.char c).message
      = text "code point U+" ++ ds ++ text " is not defined" ∧
    numVal 16 ds = c ∧ (∀ x ∈ ds, IsDigit x) ∧ (c < 16 ^ 4 → ds.length = 4) ∧
    ∀ k, 4 ≤ k → 16 ^ k ≤ c → c < 16 ^ (k + 1) → ds.length = k + 1 :=
  ⟨showHex 4 c, rfl, showHex_val 4 c, showHex_isDigit 4 c,
    fun h => showHex_length 4 c 3 (by decide) h (.inl rfl),
    fun k hk h1 h2 => showHex_length 4 c k (by omega) h2 (.inr h1)⟩

/-- C90. An octet that is not UTF-8 is written in hexadecimal, but with one digit if that suffices: the prefix
counts as two of the two characters that `{:#02X}` asks for. -/
theorem C90_octet (v : UInt8) (i : Nat) : ∃ ds, (DecErr.utf8 v i).message
      = text "found invalid utf-8 octet " ++ ('0' :: 'x' :: ds) ++ text " at offset (" ++ showNat i ++ text ")" ∧
    numVal 16 ds = v.toNat ∧ (∀ x ∈ ds, IsDigit x) ∧ (v.toNat < 16 → ds.length = 1) ∧
    (16 ≤ v.toNat → ds.length = 2) :=
  ⟨showHex 0 v.toNat, rfl, showHex_val 0 _, showHex_isDigit 0 _,
    fun h => by
      rcases Nat.eq_zero_or_pos v.toNat with h0 | h0
      · rw [h0]
        rfl
      · exact showHex_length 0 _ 0 (by omega) (by omega) (.inr (by omega)),
    fun h => showHex_length 0 _ 1 (by omega) (by have := v.toNat_lt; omega) (.inr (by omega))⟩

/-- C89. Wrappers: all that the crate encodes are encodable if their contents are; references and lazy
cells are not decodable, all others are (for `Cow` see C86). -/
theorem C89_wrappers (w : Wrap) (t : Ty) (hc : w ≠ .cow) :
    (Ty.wrap w t).encErr = t.encErr ∧
    (Ty.wrap w t).decErr = if w ∈ [.ref, .refMut, .lazyCell, .lazyLock] then none else t.decErr := by
  constructor
  · rfl
  · cases w <;> first | exact absurd rfl hc | rfl

example : (Ty.wrap .lazyCell .bool).decErr = none ∧ (Ty.wrap .rc .bool).decErr ≠ none := by decide

end Oct.Props
