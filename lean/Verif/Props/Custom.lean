import Verif.Proofs.CustomCalls
import Verif.Props.Samples
/-
C107-C111: types with impls by others, inside the crate's containers and derives.
-/
namespace Oct.Props
open Oct Spec
set_option linter.unusedVariables false

/-- The documented `Foo` with the impls written by hand. -/
def fooImpl : Impl where
  Val := Foo
  encode := Foo.encode
  decode := do
    let bar ← decNum 2
    let baz ← decNum 4
    pure ⟨BitVec.ofNat 16 bar, BitVec.ofNat 32 baz⟩
  maxSize := 6
  encInto := EncErr.toGeneric
  decInto := DecErr.toGeneric

/-- The octets of a `Foo`. -/
def fooWire (f : Foo) : List Byte := leBytes 2 f.bar.toNat ++ leBytes 4 f.baz.toNat

open Classical in
/-- A promise that is about `fooImpl`: all values are encoded, as two octets and four, and come back. -/
noncomputable def fooPromise : Promise where
  ok _ _ := True
  wire T v := if h : T = fooImpl then fooWire (cast (congrArg Impl.Val h) v) else []
  back _ v := v

theorem fooPromise_wire (v : fooImpl.Val) : fooPromise.wire fooImpl v = fooWire v :=
  dif_pos rfl

theorem fooPromise_encode : fooPromise.KeptEnc fooImpl := by
  intro v
  refine ⟨fun _ => ?_, fun h => absurd trivial h⟩
  rw [fooPromise_wire]
  change Foo at v
  have h := Writes.bind (f := fun _ => encNum 4 v.baz.toNat >>= fun _ => Enc.pure ())
    (encNum_writes 2 v.bar.toNat) (Writes.bind (encNum_writes 4 v.baz.toNat) Writes.pure)
  rw [List.append_nil] at h
  exact h

theorem fooPromise_decode : fooPromise.KeptDec fooImpl := by
  intro v _
  rw [fooPromise_wire]
  change Foo at v
  refine (decNum_decodes 2 _ (bv_num 16 2 0 v.bar rfl)).bind ?_
  refine (decNum_decodes 4 _ (bv_num 32 4 0 v.baz rfl)).map ?_
  cases v
  simp
  rfl

theorem fooPromise_max : fooPromise.KeptMax fooImpl := by
  intro v _
  rw [fooPromise_wire]
  unfold fooWire
  rw [List.length_append, leBytes_length, leBytes_length]
  exact Nat.le_refl _

/-- `Foo { bar: 1, baz: 2 }` (the `f32` by its bits). -/
def foo12 : fooImpl.Val := (⟨1, 2⟩ : Foo)

/-- `Vec<Option<Foo>>`. -/
def foosTy : Open := .seq .vec (.option (.impl fooImpl))

/-- C107. If the impls by others write what they promise and fail when they promise nothing, then so do
all containers and derived types around them: an encodable value is written as its parts are, in
the format of the crate, and any other is never encoded successfully. -/
theorem C107_encode (P : Promise) (t : Open) (h : Authors P.KeptEnc t) (v : t.Val) :
    (OpenEncodable P t v → Writes (t.encode v) (openWire P t v)) ∧
    (¬ OpenEncodable P t v → Never (t.encode v)) :=
  Open.encode_keeps P t h v

example : Authors fooPromise.KeptEnc foosTy ∧
    OpenEncodable fooPromise foosTy [none, some foo12] ∧
    openWire fooPromise foosTy [none, some foo12] = [2, 0, 0, 1, 1, 0, 2, 0, 0, 0] := by
  refine ⟨fooPromise_encode, ⟨by decide, fun x _ => by cases x <;> exact trivial⟩, ?_⟩
  show leBytes 2 2 ++ ([0] ++ ((1 :: fooPromise.wire fooImpl foo12) ++ [])) = _
  rw [fooPromise_wire]
  decide

/-- C107, the documentation of `Encode`: the impl written by hand there does what the derived one does,
for every value and stream. -/
theorem C107_by_hand (f : Foo) :
    f.encode = (Ty.struct (.cons (.num (.int .u16)) (.cons (.num .f32) .nil))).encode
      (f.bar, f.baz, ()) := by
  funext o
  have h : ∀ (n x : Nat) (k : Unit → Enc Unit) (g : EncErr → EncErr) (o : Output),
      (encNum n x >>= k) o = ((encNum n x).mapErr g >>= k) o := by
    intro n x k g o
    show Enc.bind _ _ o = Enc.bind _ _ o
    unfold Enc.bind Enc.mapErr encNum Enc.write
    generalize o.write (toLe n x) = y
    obtain ⟨r, o'⟩ := y
    cases r <;> rfl
  refine (h 2 f.bar.toNat _ EncErr.toGeneric o).trans ?_
  show Enc.bind _ _ o = Enc.bind _ _ o
  congr 1
  funext u o
  exact h 4 f.baz.toNat _ EncErr.toGeneric o

example : (Foo.encode ⟨1, 2⟩ (Output.new [9, 9, 9, 9, 9, 9, 9])).2
    = ⟨[1, 0, 2, 0, 0, 0, 9], 6⟩ := by decide

/-- C108. If decoding by others' impls reads back what they promise to write, then so it is for all
containers and derived types around them, whatever is before and after. Missing: sized slices that are
not full (C09), and hash maps and sets (C134). -/
theorem C108_round_trip_partial (P : Promise) (t : Open) (h : Authors P.KeptDec t) (hw : t.WF)
    (v : t.Val) (hf : Full t v) (he : OpenEncodable P t v) :
    Reads t.decode (openWire P t v) (openCarried P t v) :=
  Open.decode_decodes P t h hw v hf he

/-- C108. Then, too, no encoding is the beginning of another, save those of values that decode to the
same. -/
theorem C108_prefix_free_partial (P : Promise) (t : Open) (h : Authors P.KeptDec t) (hw : t.WF)
    (v v' : t.Val) (hf : Full t v) (hf' : Full t v') (he : OpenEncodable P t v)
    (he' : OpenEncodable P t v') (hp : openWire P t v <+: openWire P t v') :
    openCarried P t v = openCarried P t v' ∧ openWire P t v = openWire P t v' := by
  obtain ⟨rest, hr⟩ := hp
  have h1 := Open.decode_decodes P t h hw v hf he [] rest
  have h2 := Open.decode_decodes P t h hw v' hf' he' [] []
  rw [List.append_nil, ← hr] at h2
  rw [h1] at h2
  have h3 := Prod.mk.inj h2
  refine ⟨Res.ok.inj h3.1, ?_⟩
  have h4 := congrArg Input.pos h3.2
  simp only [List.length_nil, List.length_append] at h4
  rw [← hr]
  have : rest = [] := List.eq_nil_of_length_eq_zero (by omega)
  rw [this, List.append_nil]

example : Authors fooPromise.KeptDec foosTy ∧ foosTy.WF ∧ Full foosTy [none, some foo12] ∧
    OpenEncodable fooPromise foosTy [none, some foo12] :=
  ⟨fooPromise_decode, trivial, fun x _ => by cases x <;> exact trivial,
    by decide, fun x _ => by cases x <;> exact trivial⟩

/-- C109. If the bounds of others' types hold, then so do those of the containers and derived types
around them, and whatever is encodable fits in a buffer of `MAX_ENCODED_SIZE` octets. Missing: `Result`
and `SizedSlice`, whose bounds are wrong (C18). -/
theorem C109_bound_partial (P : Promise) (sizeOf : Open → Nat) (t : Open) (h : Authors P.KeptMax t)
    (hz : t.HasSized) (hb : OpenBounded t) (v : t.Val) (he : OpenEncodable P t v) :
    (openWire P t v).length ≤ t.maxSize sizeOf ∧
    (Authors P.KeptEnc t → ∀ buf : List Byte, t.maxSize sizeOf ≤ buf.length →
      t.encode v (Output.new buf) = (.ok (), ⟨openWire P t v ++ buf.drop (openWire P t v).length,
        (openWire P t v).length⟩)) := by
  have hl := openWire_length P sizeOf t h hz hb v he
  refine ⟨hl, fun ha buf hbuf => ?_⟩
  have := (Open.encode_keeps P t ha v).1 he (Output.new buf)
    (by show 0 + _ ≤ buf.length; omega)
  rw [this]
  show (_, (⟨buf.take 0 ++ _ ++ buf.drop (0 + _), 0 + _⟩ : Output)) = _
  simp

example (sizeOf : Open → Nat) : Authors fooPromise.KeptMax (.array (.option (.impl fooImpl)) 3) ∧
    Open.HasSized (.array (.option (.impl fooImpl)) 3) ∧ OpenBounded (.array (.option (.impl fooImpl)) 3) ∧
    Open.maxSize sizeOf (.array (.option (.impl fooImpl)) 3) = 21 :=
  ⟨fooPromise_max, trivial, trivial, rfl⟩

/-- C109 is false of `Result`, even of a type whose own bound is right: a `Foo` takes six octets, and
the bound of `Result<Foo, Foo>` is one more than the size of `Foo` in memory, which need not be six. -/
theorem C109_false_result (sizeOf : Open → Nat) (h : sizeOf (.impl fooImpl) < 6) :
    ∃ (P : Promise) (t : Open) (v : t.Val), Authors P.KeptMax t ∧ Authors P.KeptEnc t ∧ t.HasSized ∧
      OpenEncodable P t v ∧ t.maxSize sizeOf < (openWire P t v).length := by
  refine ⟨fooPromise, .result (.impl fooImpl) (.impl fooImpl) id, .ok foo12,
    ⟨fooPromise_max, fooPromise_max⟩, ⟨fooPromise_encode, fooPromise_encode⟩, ⟨trivial, trivial⟩,
    trivial, ?_⟩
  show 1 + (if _ > _ then _ else _) < (0 :: fooPromise.wire fooImpl foo12).length
  rw [fooPromise_wire]
  simp only [fooWire, List.length_cons, List.length_append, leBytes_length]
  split <;> omega

example : ∃ sizeOf : Open → Nat, sizeOf (.impl fooImpl) < 6 := ⟨fun _ => 0, by decide⟩

/-- C109 is false of `SizedSlice`, whose bound leaves out the length. -/
theorem C109_false_sized_slice (sizeOf : Open → Nat) :
    ∃ (P : Promise) (t : Open) (v : t.Val), Authors P.KeptMax t ∧ Authors P.KeptEnc t ∧ t.HasSized ∧
      OpenEncodable P t v ∧ t.maxSize sizeOf < (openWire P t v).length := by
  refine ⟨fooPromise, .sizedSlice (.impl fooImpl) 1, ⟨[foo12], Nat.le_refl _⟩,
    fooPromise_max, fooPromise_encode, trivial, ⟨by decide, fun _ _ => trivial⟩, ?_⟩
  show 6 * 1 < (leBytes 2 1 ++ (fooPromise.wire fooImpl foo12 ++ [])).length
  rw [fooPromise_wire]
  simp [fooWire, leBytes_length]

/-- C110. Whatever the item type's `encode` does: a collection calls it for the items in order, up to
the first that does not succeed; this one's outcome is that of the whole, an error with the index
around it, and the stream is as this call left it. So for arrays, slices and vectors, and linked
lists. -/
theorem C110_items {α : Type} (enc : α → Enc Unit) (wrap : Nat → EncErr → EncErr) (l : List α)
    (o : Output) :
    (∃ o', Calls enc l o o' ∧ encItems enc wrap 0 l o = (.ok (), o')) ∨
    ∃ before x after o1 r o2, l = before ++ x :: after ∧ Calls enc before o o1 ∧
      enc x o1 = (r, o2) ∧ ∃ r', reported (wrap before.length) r = some r' ∧
        encItems enc wrap 0 l o = (r', o2) := by
  have := encItems_calls enc wrap l 0 o
  simpa using this

/-- An encoder of numbers that refuses seven, and panics at eight. -/
def pickyEnc (n : Nat) : Enc Unit :=
  if n = 7 then Enc.fail (.usize 7) else if n = 8 then Enc.panic .assertion else encU8 n

example : encArray pickyEnc [1, 7, 8] (Output.new [0, 0, 0])
    = (.err (.badItem (.item 1 (.usize 7))), ⟨[1, 0, 0], 1⟩) := by decide
example : encLinkedList pickyEnc [1, 2, 8, 7] (Output.new [0, 0, 0, 0, 0])
    = (.panic .assertion, ⟨[4, 0, 1, 2, 0], 4⟩) := by decide

/-- C110, decoding: the items are decoded in order, up to the first that is not, which is reported
with its index. -/
theorem C110_decoded {α : Type} (dec : Dec α) (n : Nat) (i : Input) :
    (∃ l i', l.val.length = n ∧ Gets dec l.val i i' ∧ decItems dec n 0 i = (.ok l, i')) ∨
    ∃ before i1 r i2, before.length < n ∧ Gets dec before i i1 ∧ dec i1 = (r, i2) ∧
      ∃ r', reported (fun e => .badItem (.item before.length e)) r = some r' ∧
        decItems dec n 0 i = (r', i2) := by
  have := decItems_gets dec n 0 i
  simpa using this

/-- A decoder of numbers that refuses seven. -/
def pickyDec : Dec Nat := do
  let n ← decU8
  if n = 7 then Dec.fail .nonZero else pure n

example : decArray pickyDec 3 (Input.new [1, 7, 8]) = (.err (.badItem (.item 1 .nonZero)), ⟨[1, 7, 8], 2⟩) := by
  decide

/-- C110, fields: they are encoded in order, up to the first that is not, and the stream is as this
field left it. Its error is converted as its type says (`Into<GenericEncodeError>`). -/
theorem C110_struct (fs : OpenFields) (v : fs.Val) (o : Output) :
    (∃ o', Calls (fun c : Enc Unit × (EncErr → EncErr) => c.1) (fieldCalls fs v) o o' ∧
      (Open.struct fs).encode v o = (.ok (), o')) ∨
    ∃ before c after o1 r o2, fieldCalls fs v = before ++ c :: after ∧
      Calls (fun c : Enc Unit × (EncErr → EncErr) => c.1) before o o1 ∧
      c.1 o1 = (r, o2) ∧ ∃ r', reported c.2 r = some r' ∧ (Open.struct fs).encode v o = (r', o2) :=
  fields_calls (fun conv e => conv e) fs v o

/-- A field that refuses seven, with a conversion of its own. -/
def pickyImpl : Impl where
  Val := Nat
  encode := pickyEnc
  decode := pickyDec
  maxSize := 1
  encInto := fun _ => .gLargeIsize 3
  decInto := fun _ => .gNullString 4

example : (Open.struct (.cons (.impl pickyImpl) (.cons (.impl pickyImpl) .nil))).encode
    ((1 : Nat), (7 : Nat), ()) (Output.new [0, 0]) = (.err (.gLargeIsize 3), ⟨[1, 0], 1⟩) := by
  decide

/-- C110, whose conversion: where the error type of a container is that of its item (or that of the
first member), an error of such a field is converted as the author of the item says, however deep the
item is; elsewhere the error is one of the crate's and is converted as the crate says. -/
theorem C110_conversions (t e : Open) (fs : OpenFields) (w : Wrap) (k : LockKind) (s : SeqKind) (n : Nat)
    (K : KeyImpl) (conv : EncErr → EncErr) (x : EncErr) (y : DecErr) :
    (∀ c ∈ [Open.option t, .range t, .rangeInclusive t, .result t e conv, .tuple (.cons t fs), .wrap w t,
        .lock k t], c.encInto x = t.encInto x) ∧
    (∀ c ∈ [Open.hashMap K t, .hashSet K], c.encInto x = K.encInto x) ∧
    (∀ c ∈ [Open.option t, .range t, .rangeInclusive t, .refCell t, .tuple (.cons t fs), .wrap w t,
        .lock k t], c.decInto y = t.decInto y) ∧
    (∀ c ∈ [Open.array t n, .seq s t, .bound t, .refCell t,
        .sizedSlice t n, .struct fs], c.encInto x = x.toGeneric) ∧
    (∀ c ∈ [Open.array t n, .seq s t, .hashMap K t, .hashSet K, .bound t,
        .result t e conv, .sizedSlice t n, .struct fs], c.decInto y = y.toGeneric) := by
  simp [Open.encInto, Open.decInto, OpenFields.encInto, OpenFields.decInto]

example : (Open.struct (.cons (.option (.impl pickyImpl)) .nil)).encode (some (7 : Nat), ())
    (Output.new [0, 0]) = (.err (.gLargeIsize 3), ⟨[1, 0], 1⟩) := by decide

/-- C110, one item behind a tag: after the tag, what the item's `encode` does is what the whole does,
with an error as it is (`Option`, `Ok`), converted (`Err`), or as a bad field (`Bound`); and behind a
cell that is not borrowed, as a bad value. -/
theorem C110_one (t e : Open) (conv : EncErr → EncErr) (v : t.Val) (w : e.Val) (o o1 : Output) :
    (encBool true o = (.ok (), o1) → (Open.option t).encode (some v) o = t.encode v o1) ∧
    (encBool false o = (.ok (), o1) → (Open.result t e conv).encode (.ok v) o = t.encode v o1) ∧
    (encBool true o = (.ok (), o1) → (Open.result t e conv).encode (.err w) o
      = ((e.encode w o1).1.mapErr conv, (e.encode w o1).2)) ∧
    (encU8 0 o = (.ok (), o1) → (Open.bound t).encode (.included v) o
      = ((t.encode v o1).1.mapErr .badField, (t.encode v o1).2)) ∧
    (encU8 1 o = (.ok (), o1) → (Open.bound t).encode (.excluded v) o
      = ((t.encode v o1).1.mapErr .badField, (t.encode v o1).2)) ∧
    (Open.refCell t).encode ⟨false, v⟩ o = ((t.encode v o).1.mapErr .badValue, (t.encode v o).2) ∧
    (Open.refCell t).encode ⟨true, v⟩ o = (.err .badBorrow, o) := by
  have h : ∀ {m : Enc Unit} {f : Unit → Enc Unit}, m o = (.ok (), o1) → (m >>= f) o = f () o1 := by
    intro m f h
    show Enc.bind _ _ o = _
    unfold Enc.bind
    rw [h]
  exact ⟨fun h1 => h h1, fun h1 => h h1, fun h1 => h h1, fun h1 => h h1, fun h1 => h h1, rfl, rfl⟩

example : (Open.result (.impl pickyImpl) (.impl pickyImpl) (fun _ => .badBorrow)).encode (.err (7 : Nat))
    (Output.new [0, 0]) = (.err .badBorrow, ⟨[1, 0], 1⟩) ∧ encBool true (Output.new [0, 0])
    = (.ok (), ⟨[1, 0], 1⟩) := by decide

/-- C110, tuples: the same, and the error is as it is. -/
theorem C110_tuple (fs : OpenFields) (v : fs.Val) (o : Output) :
    (∃ o', Calls (fun c : Enc Unit × (EncErr → EncErr) => c.1) (fieldCalls fs v) o o' ∧
      (Open.tuple fs).encode v o = (.ok (), o')) ∨
    ∃ before c after o1 r o2, fieldCalls fs v = before ++ c :: after ∧
      Calls (fun c : Enc Unit × (EncErr → EncErr) => c.1) before o o1 ∧
      c.1 o1 = (r, o2) ∧ ∃ r', reported id r = some r' ∧ (Open.tuple fs).encode v o = (r', o2) :=
  fields_calls (fun _ e => e) fs v o

example : (Open.tuple (.cons (.impl pickyImpl) (.cons (.impl pickyImpl) .nil))).encode
    ((1 : Nat), (7 : Nat), ()) (Output.new [0, 0]) = (.err (.usize 7), ⟨[1, 0], 1⟩) := by
  decide

/-- C110, decoding structures: the first field that is not decoded is reported, converted as its type
says, with the input where it left it; after a field that is, the others are decoded from there. -/
theorem C110_struct_decoded (t : Open) (fs : OpenFields) (i i1 : Input) :
    (∀ (r : Res DecErr t.Val) (r' : Res DecErr (t.Val × fs.Val)), t.decode i = (r, i1) →
      reported t.decInto r = some r' → (Open.struct (.cons t fs)).decode i = (r', i1)) ∧
    (∀ a : t.Val, t.decode i = (.ok a, i1) → (Open.struct (.cons t fs)).decode i
      = (((Open.struct fs).decode i1).1.map (fun vs => (a, vs)), ((Open.struct fs).decode i1).2)) :=
  ⟨fun r r' h hr => fields_decode_stop (fun conv e => conv e) t fs i i1 r h r' hr,
    fun a h => fields_decode_next (fun conv e => conv e) t fs i i1 a h⟩

example : (Open.struct (.cons (.impl pickyImpl) (.cons (.impl pickyImpl) .nil))).decode
    (Input.new [1, 7, 8]) = (.err (.gNullString 4), ⟨[1, 7, 8], 2⟩) := rfl

/-- C110, enumerations: the fields of a variant after its discriminant are encoded as those of a
structure, and an error of one is `BadField` of the converted error. -/
theorem C110_enum (r : Repr) (d : Option Nat) (fs : OpenFields) (vs : OpenVariants) (v : fs.Val)
    (o o0 : Output) (h : encRepr r (d.getD 0 : Nat) o = (.ok (), o0)) :
    (∃ o', Calls (fun c : Enc Unit × (EncErr → EncErr) => c.1) (fieldCalls fs v) o0 o' ∧
      (Open.enum r (.cons d fs vs)).encode (.inl v) o = (.ok (), o')) ∨
    ∃ before c after o1 x o2, fieldCalls fs v = before ++ c :: after ∧
      Calls (fun c : Enc Unit × (EncErr → EncErr) => c.1) before o0 o1 ∧
      c.1 o1 = (x, o2) ∧ ∃ x', reported (fun e => .badField (c.2 e)) x = some x' ∧
        (Open.enum r (.cons d fs vs)).encode (.inl v) o = (x', o2) := by
  have hd : nextDisc none d = d.getD 0 := by cases d <;> rfl
  have e : (Open.enum r (.cons d fs vs)).encode (.inl v) o
      = fs.encode (fun conv e => .badField (conv e)) v o0 := by
    rw [← hd] at h
    exact bind_ok_of (f := fun _ => fs.encode (fun conv e => .badField (conv e)) v) .badDiscriminant h
  rw [e]
  exact fields_calls (fun conv e => .badField (conv e)) fs v o0

example : (Open.enum (.int .u8) (.cons (some 5) (.cons (.impl pickyImpl) .nil) .nil)).encode
    (.inl ((7 : Nat), ())) (Output.new [0, 0]) = (.err (.badField (.gLargeIsize 3)), ⟨[5, 0], 1⟩) := by
  decide

/-- C110, decoding tuples: the same, and the error is as it is. -/
theorem C110_tuple_decoded (t : Open) (fs : OpenFields) (i i1 : Input) :
    (∀ (r : Res DecErr t.Val) (r' : Res DecErr (t.Val × fs.Val)), t.decode i = (r, i1) →
      reported id r = some r' → (Open.tuple (.cons t fs)).decode i = (r', i1)) ∧
    (∀ a : t.Val, t.decode i = (.ok a, i1) → (Open.tuple (.cons t fs)).decode i
      = (((Open.tuple fs).decode i1).1.map (fun vs => (a, vs)), ((Open.tuple fs).decode i1).2)) :=
  ⟨fun r r' h hr => fields_decode_stop (fun _ e => e) t fs i i1 r h r' hr,
    fun a h => fields_decode_next (fun _ e => e) t fs i i1 a h⟩

/-- C110, decoding enumerations: if the discriminant is that of the variant, the first of its fields
that is not decoded is reported, converted, as a bad field; a discriminant of no variant is reported
as unassigned, with the input behind it; else the other variants are tried. -/
theorem C110_enum_decoded (r : Repr) (d : Option Nat) (fs : OpenFields) (vs : OpenVariants)
    (t : Open) (i i0 i1 : Input) (x : Int) (h : decRepr r i = (.ok x, i0)) :
    (x = (d.getD 0 : Nat) → ∀ (y : Res DecErr t.Val) (y' : Res DecErr _), t.decode i0 = (y, i1) →
      reported (fun e => .badField (t.decInto e)) y = some y' →
      (Open.enum r (.cons d (.cons t fs) vs)).decode i = (y', i1)) ∧
    (x = (d.getD 0 : Nat) → (Open.enum r (.cons d .nil vs)).decode i = (.ok (.inl ()), i0)) ∧
    ((∀ d' ∈ vs.discs none, x ≠ (d' : Int)) → (Open.enum r vs).decode i = (.err (.unassigned x), i0)) := by
  have hd : nextDisc none d = d.getD 0 := by cases d <;> rfl
  have hb : ∀ {β : Type} (f : Int → Dec β), (decRepr r >>= f) i = f x i0 := by
    intro β f
    show Dec.bind _ _ i = _
    unfold Dec.bind
    rw [h]
  refine ⟨fun hx y y' hy hr => ?_, fun hx => ?_, fun hn => ?_⟩
  · refine (hb _).trans ?_
    unfold OpenVariants.decode
    rw [if_pos (by rw [hd]; exact hx)]
    cases y with
    | ok a => exact nomatch hr
    | err e =>
      have := fields_decode_stop (fun conv e => .badField (conv e)) t fs i0 i1 _ hy (.err (.badField (t.decInto e))) rfl
      show Dec.bind _ _ i0 = _
      unfold Dec.bind
      rw [this]
      cases hr
      rfl
    | panic p =>
      have := fields_decode_stop (fun conv e => .badField (conv e)) t fs i0 i1 _ hy (.panic p) rfl
      show Dec.bind _ _ i0 = _
      unfold Dec.bind
      rw [this]
      cases hr
      rfl
    | ub u =>
      have := fields_decode_stop (fun conv e => .badField (conv e)) t fs i0 i1 _ hy (.ub u) rfl
      show Dec.bind _ _ i0 = _
      unfold Dec.bind
      rw [this]
      cases hr
      rfl
  · refine (hb _).trans ?_
    unfold OpenVariants.decode
    rw [if_pos (by rw [hd]; exact hx)]
    rfl
  · refine (hb _).trans ?_
    exact variants_decode_none vs none x i0 hn

example : (Open.enum (.int .u8) (.cons (some 5) (.cons (.impl pickyImpl) .nil) .nil)).decode
    (Input.new [5, 7]) = (.err (.badField (.gNullString 4)), ⟨[5, 7], 2⟩) := rfl
example : (Open.enum (.int .u8) (.cons (some 5) (.cons (.impl pickyImpl) .nil) .nil)).decode
    (Input.new [6, 7]) = (.err (.unassigned 6), ⟨[6, 7], 1⟩) := rfl

/-- C111. Whatever others' impls of `Encode` do with the streams that `Slot::write` hands them (write,
panic, fail, even put another stream in place of the given one), and whatever else is done with the
slot: its capacity stays, its length stays within the capacity, and so `as_slice` is always defined. -/
theorem C111_slot_invariant (cap : Nat) (ops : List AnyOp) :
    (ops.foldl AnyOp.step (Slot.withCapacity cap)).capacity = cap ∧
    (ops.foldl AnyOp.step (Slot.withCapacity cap)).len ≤ cap ∧
    ∃ l, (ops.foldl AnyOp.step (Slot.withCapacity cap)).asSlice = .ok l :=
  AnyOp.invariant cap ops

/-- An impl that puts a stream of nine octets in place of the given one, and writes these. -/
def swapping (n : Nat) : Foreign := ⟨fun buf => (.ok (), buf, n), fun _ => rfl⟩

example : ((swapping 9).run [1, 2]).2.2 = 9 ∧
    ((Slot.withCapacity 2).writeAny (swapping 9)).1 = .panic .assertion ∧
    ((Slot.withCapacity 2).writeAny (swapping 9)).2.len = 0 := ⟨rfl, by decide, by decide⟩

/-- C111. What `Slot::write` reports: what `encode` did, or a panic if the position is not one of the
slot's buffer. -/
theorem C111_reported (s : Slot) (f : Foreign) :
    ((s.writeAny f).1 = .ok () ↔ (f.run s.buf).1 = .ok () ∧ (f.run s.buf).2.2 ≤ s.capacity) ∧
    (∀ e, (s.writeAny f).1 = .err e ↔ (f.run s.buf).1 = .err e) ∧
    ((f.run s.buf).1 = .ok () → s.capacity < (f.run s.buf).2.2 → (s.writeAny f).1 = .panic .assertion) :=
  Slot.writeAny_reported s f

/-- C111. With an impl that leaves the given stream in its place, a successful write leaves in the slot
what the stream got. Missing: impls that do not. -/
theorem C111_contents_partial (s : Slot) (f : Foreign) (m : Enc Unit) (hf : f.Decent m)
    (w : List Byte) (hm : Writes m w) (hl : w.length ≤ s.capacity) :
    (s.writeAny f).1 = .ok () ∧ (s.writeAny f).2.asSlice = .ok w :=
  Slot.writeAny_decent s f m hf w hm hl

example : (⟨fun buf => ((encU8 5 (Output.new buf)).1, (encU8 5 (Output.new buf)).2.buf,
      (encU8 5 (Output.new buf)).2.pos), by
        intro buf
        cases buf <;> simp [encU8, encNum, Enc.write, Output.write, Output.new, Output.put, toLe]⟩
        : Foreign).Decent (encU8 5) ∧ Writes (encU8 5) [5] ∧ [5].length ≤ (Slot.withCapacity 2).capacity :=
  ⟨fun _ => rfl, encU8_writes 5, by decide⟩

/-- C111 is false of contents: with an impl that puts another stream in its place, `Slot::write`
succeeds, and the slot has the length of what was written elsewhere and the octets that it had. -/
theorem C111_false_swapped (cap n : Nat) (h : n ≤ cap) :
    ∃ f : Foreign, ((Slot.withCapacity cap).writeAny f).1 = .ok () ∧
      ((Slot.withCapacity cap).writeAny f).2.asSlice = .ok (List.replicate n 0) := by
  refine ⟨swapping n, ?_⟩
  unfold Slot.writeAny swapping Slot.setLen Slot.withCapacity Slot.capacity Slot.asSlice
  simp only [List.length_replicate, if_pos h]
  rw [if_neg (by omega)]
  simp [Nat.min_eq_left h]

example : (3 : Nat) ≤ 4 := by decide

end Oct.Props
