import Verif.Model.Slot
/-
Types with impls written by the user of the crate, inside the crate's containers and derives. The
traits: `Encode` oct/src/encode/encode/mod.rs:93-147, `Decode` oct/src/decode/decode/mod.rs:100-112,
`SizedEncode` oct/src/encode/sized_encode/mod.rs:60-83. Line numbers without a file are those of
oct/src/encode/encode/mod.rs.
-/
namespace Oct

/-- The impls of a type by its author, which may do anything with the stream (`Enc` and `Dec` are
arbitrary functions here). `encInto` and `decInto` are `Into<GenericEncodeError>` and
`Into<GenericDecodeError>` for the error types, which the derive macros need. SIMPLIFICATION: the
author's error values are among those of the crate. -/
structure Impl where
  Val : Type
  encode : Val → Enc Unit
  decode : Dec Val
  maxSize : Nat
  encInto : EncErr → EncErr
  decInto : DecErr → DecErr

/-- The impls of one of the crate's own types. -/
def Ty.impl (sizeOf : Ty → Nat) (t : Ty) : Impl where
  Val := t.Val
  encode := t.encode
  decode := t.decode
  maxSize := t.maxSize sizeOf
  encInto := EncErr.toGeneric
  decInto := DecErr.toGeneric

/-- The impls of a type that is used as the key of a hash map or set. `same a b` is whether the table
takes the key `b` in it for `a`: they have the same hash, and `a == b` by the author's `Eq`. Neither is
taken to be lawful. -/
structure KeyImpl extends Impl where
  same : Val → Val → Bool

/-- No key was in the table already when it was inserted. -/
def Distinct {α : Type} (same : α → α → Bool) (l : List α) : Prop :=
  l.Pairwise fun a b => same b a = false

/-- The entries of a hash map, in the order of iteration. -/
abbrev TableVal (α β : Type) (same : α → α → Bool) := {l : List (α × β) // Distinct same (l.map Prod.fst)}

/-- The entries of a hash set, in the order of iteration. -/
abbrev TableSet (α : Type) (same : α → α → Bool) := {l : List α // Distinct same l}

/-- `HashMap::insert` (std): if the key is in the table already, the value is replaced and the key in the
table stays, else the entry is added. SIMPLIFICATION: it is added at the end of the iteration order. -/
def tableInsert {α β : Type} (same : α → α → Bool) (k : α) (v : β) : List (α × β) → List (α × β)
  | [] => [(k, v)]
  | (k', v') :: l => if same k k' then (k', v) :: l else (k', v') :: tableInsert same k v l

theorem tableInsert_keys {α β : Type} (same : α → α → Bool) (k : α) (v : β) (l : List (α × β)) :
    (tableInsert same k v l).map Prod.fst = l.map Prod.fst ∨
    ((tableInsert same k v l).map Prod.fst = l.map Prod.fst ++ [k] ∧
      ∀ a ∈ l.map Prod.fst, same k a = false) := by
  induction l with
  | nil => exact .inr ⟨rfl, by simp⟩
  | cons p l ih =>
    obtain ⟨k', v'⟩ := p
    unfold tableInsert
    by_cases h : same k k' = true
    · rw [if_pos h]; exact .inl rfl
    · rw [if_neg h]
      have h' : same k k' = false := by simpa using h
      rcases ih with h1 | ⟨h1, h2⟩
      · exact .inl (by simp [h1])
      · refine .inr ⟨by simp [h1], ?_⟩
        intro a ha
        rcases List.mem_cons.1 ha with rfl | ha
        · exact h'
        · exact h2 a ha

theorem Distinct.snoc {α : Type} {same : α → α → Bool} {l : List α} {k : α} (h : Distinct same l)
    (hk : ∀ a ∈ l, same k a = false) : Distinct same (l ++ [k]) :=
  List.pairwise_append.2 ⟨h, List.pairwise_singleton _ _, fun a ha b hb => by
    rw [List.mem_singleton.1 hb]; exact hk a ha⟩

theorem tableInsert_distinct {α β : Type} (same : α → α → Bool) (k : α) (v : β) (l : List (α × β))
    (h : Distinct same (l.map Prod.fst)) : Distinct same ((tableInsert same k v l).map Prod.fst) := by
  rcases tableInsert_keys same k v l with h1 | ⟨h1, h2⟩
  · rw [h1]; exact h
  · rw [h1]; exact h.snoc h2

/-- `HashSet::insert` (std): a key that is in the table already is dropped. SIMPLIFICATION: as for
`tableInsert`. -/
def tableAdd {α : Type} (same : α → α → Bool) (k : α) (l : List α) : List α :=
  if l.any (same k) then l else l ++ [k]

theorem tableAdd_distinct {α : Type} (same : α → α → Bool) (k : α) (l : List α)
    (h : Distinct same l) : Distinct same (tableAdd same k l) := by
  unfold tableAdd
  split
  · exact h
  · rename_i hk
    exact h.snoc (by simpa using hk)

/-- The loop of `HashMap::decode`: oct/src/decode/decode/mod.rs:336-344. -/
def decTableLoop {α β : Type} (same : α → α → Bool) (decK : Dec α) (decV : Dec β) :
    (n : Nat) → (i : Nat) → TableVal α β same → Dec (TableVal α β same)
  | 0, _, m => pure m
  | n + 1, i, m => do
    let k ← decK.mapErr (fun e => .badItem (.item i e))
    let v ← decV.mapErr (fun e => .badItem (.item i e))
    decTableLoop same decK decV n (i + 1)
      ⟨tableInsert same k v m.val, tableInsert_distinct same k v m.val m.property⟩

/-- `HashMap::decode`: oct/src/decode/decode/mod.rs:322-348. -/
def decTable {α β : Type} (same : α → α → Bool) (decK : Dec α) (decV : Dec β) :
    Dec (TableVal α β same) := do
  let len ← decUsize
  decTableLoop same decK decV len 0 ⟨[], List.Pairwise.nil⟩

/-- The loop of `HashSet::decode`: oct/src/decode/decode/mod.rs:365-370. -/
def decTableSetLoop {α : Type} (same : α → α → Bool) (decK : Dec α) :
    (n : Nat) → (i : Nat) → TableSet α same → Dec (TableSet α same)
  | 0, _, s => pure s
  | n + 1, i, s => do
    let k ← decK.mapErr (fun e => .badItem (.item i e))
    decTableSetLoop same decK n (i + 1) ⟨tableAdd same k s.val, tableAdd_distinct same k s.val s.property⟩

/-- `HashSet::decode`: oct/src/decode/decode/mod.rs:352-374. -/
def decTableSet {α : Type} (same : α → α → Bool) (decK : Dec α) : Dec (TableSet α same) := do
  let len ← decUsize
  decTableSetLoop same decK len 0 ⟨[], List.Pairwise.nil⟩

mutual

/-- Types made of types with impls by the crate, by the derive macros, and by others. The keys of hash
maps and sets are taken whole (any of these types has impls, and so is an `Impl`, too). -/
inductive Open : Type 1 where
  | impl (T : Impl)
  | wrap (w : Wrap) (t : Open)
  | array (t : Open) (n : Nat)
  | seq (k : SeqKind) (t : Open)
  | hashMap (K : KeyImpl) (t : Open)
  | hashSet (K : KeyImpl)
  | option (t : Open)
  /-- `conv` is the conversion of the error type of `e` to that of `t` (645). -/
  | result (t e : Open) (conv : EncErr → EncErr)
  | bound (t : Open)
  | range (t : Open)
  | rangeInclusive (t : Open)
  | lock (k : LockKind) (t : Open)
  | refCell (t : Open)
  | sizedSlice (t : Open) (n : Nat)
  | tuple (fs : OpenFields)
  | struct (fs : OpenFields)
  | enum (r : Repr) (vs : OpenVariants)

/-- The fields of a structure, tuple or variant, in order. -/
inductive OpenFields : Type 1 where
  | nil
  | cons (t : Open) (fs : OpenFields)

/-- The variants of an enumeration, in order. -/
inductive OpenVariants : Type 1 where
  | nil
  | cons (disc : Option Nat) (fs : OpenFields) (vs : OpenVariants)

end

mutual

/-- Values. -/
def Open.Val : Open → Type
  | .impl T => T.Val
  | .wrap _ t => t.Val
  | .array t n => Items t.Val n
  | .seq _ t => List t.Val
  | .hashMap K t => TableVal K.Val t.Val K.same
  | .hashSet K => TableSet K.Val K.same
  | .option t => Option t.Val
  | .result t e _ => ResultVal t.Val e.Val
  | .bound t => BoundVal t.Val
  | .range t => RangeVal t.Val
  | .rangeInclusive t => RangeInclusiveVal t.Val
  | .lock _ t => LockVal t.Val
  | .refCell t => RefCellVal t.Val
  | .sizedSlice t n => {l : List t.Val // l.length ≤ n}
  | .tuple fs => fs.Val
  | .struct fs => fs.Val
  | .enum _ vs => vs.Val

/-- Values of a list of fields. -/
def OpenFields.Val : OpenFields → Type
  | .nil => Unit
  | .cons t fs => t.Val × fs.Val

/-- Values of an enumeration. -/
def OpenVariants.Val : OpenVariants → Type
  | .nil => Empty
  | .cons _ fs vs => fs.Val ⊕ vs.Val

end

mutual

/-- `Into<GenericEncodeError>` for the error type: the author's where the error type is that of a
component (149-176, 340-376, 509-535, 555-613, 642-688, 869-878), else the crate's
(oct/src/error/generic_encode_error.rs:85-154). -/
def Open.encInto : Open → EncErr → EncErr
  | .impl T => T.encInto
  | .wrap _ t => t.encInto
  | .hashMap K _ => K.encInto
  | .hashSet K => K.encInto
  | .option t => t.encInto
  | .result t _ _ => t.encInto
  | .range t => t.encInto
  | .rangeInclusive t => t.encInto
  | .lock _ t => t.encInto
  | .tuple fs => fs.encInto
  | _ => EncErr.toGeneric

/-- The error type of a tuple is the common error type of its members. -/
def OpenFields.encInto : OpenFields → EncErr → EncErr
  | .nil => EncErr.toGeneric
  | .cons t _ => t.encInto

end

mutual

/-- `Into<GenericDecodeError>` for the error type: oct/src/error/generic_decode_error.rs:125-214, or
the author's where the error type is that of a component (oct/src/decode/decode/mod.rs:116-124,
475-599, 631-641, 840-848). -/
def Open.decInto : Open → DecErr → DecErr
  | .impl T => T.decInto
  | .wrap _ t => t.decInto
  | .option t => t.decInto
  | .range t => t.decInto
  | .rangeInclusive t => t.decInto
  | .lock _ t => t.decInto
  | .refCell t => t.decInto
  | .tuple fs => fs.decInto
  | _ => DecErr.toGeneric

/-- The error type of a tuple is the common error type of its members. -/
def OpenFields.decInto : OpenFields → DecErr → DecErr
  | .nil => DecErr.toGeneric
  | .cons t _ => t.decInto

end

/-- All discriminants of an enumeration: oct-macros/src/impls/encode_enum.rs:30. -/
def OpenVariants.discs : OpenVariants → (prev : Option Nat) → List Nat
  | .nil, _ => []
  | .cons d _ vs, prev => nextDisc prev d :: vs.discs (some (nextDisc prev d))

mutual

/-- `encode`. The containers are those of `Model/Encode.lean`, which are generic in the item's
`encode`, as the impls are generic in `T: Encode`. -/
def Open.encode : (t : Open) → t.Val → Enc Unit
  | .impl T, v => T.encode v
  | .wrap _ t, v => t.encode v
  | .array t _, v => encArray t.encode v.val
  | .seq .slice t, v => encSlice t.encode v
  | .seq .vec t, v => encSlice t.encode v
  | .seq .linkedList t, v => encLinkedList t.encode v
  | .hashMap K t, v => encHashMap K.encode t.encode v.val
  | .hashSet K, v => encHashSet K.encode v.val
  | .option t, v => encOption t.encode v
  | .result t e conv, v => encResult t.encode e.encode conv v
  | .bound t, v => encBound t.encode v
  | .range t, v => encRange t.encode v
  | .rangeInclusive t, v => encRangeInclusive t.encode v
  | .lock _ t, v => encLock t.encode v
  | .refCell t, v => encRefCell t.encode v
  | .sizedSlice t _, v => encSlice t.encode v.val
  | .tuple fs, v => fs.encode (fun _ e => e) v
  | .struct fs, v => fs.encode (fun conv e => conv e) v
  | .enum r vs, v => vs.encode r none v

/-- Encodes fields in order (869-891, oct-macros/src/impls/encode_struct.rs:57-60,
oct-macros/src/impls/encode_enum.rs:80-84). `g` tells what becomes of an error of a field, given the
conversion of its type. -/
def OpenFields.encode : (fs : OpenFields) → (g : (EncErr → EncErr) → EncErr → EncErr) → fs.Val →
    Enc Unit
  | .nil, _, _ => Enc.pure ()
  | .cons t fs, g, v => do
    (t.encode v.1).mapErr (g t.encInto)
    fs.encode g v.2

/-- The discriminant of the variant, then its fields: oct-macros/src/impls/encode_enum.rs:74-89. -/
def OpenVariants.encode : (vs : OpenVariants) → (r : Repr) → (prev : Option Nat) → vs.Val → Enc Unit
  | .nil, _, _, v => nomatch v
  | .cons d fs vs, r, prev, v =>
    match v with
    | .inl v => do
      (encRepr r (nextDisc prev d)).mapErr .badDiscriminant
      fs.encode (fun conv e => .badField (conv e)) v
    | .inr v => vs.encode r (some (nextDisc prev d)) v

end

mutual

/-- `decode`, with the containers of `Model/Decode.lean`. For `&T`, `[T]` and the like it is that of
the owned form, as for `Ty.decode`. -/
def Open.decode : (t : Open) → Dec t.Val
  | .impl T => T.decode
  | .wrap _ t => t.decode
  | .array t n => decArray t.decode n
  | .seq _ t => decSeq t.decode
  | .hashMap K t => decTable K.same K.decode t.decode
  | .hashSet K => decTableSet K.same K.decode
  | .option t => decOption t.decode
  | .result t e _ => decResult t.decode e.decode
  | .bound t => decBound t.decode
  | .range t => decRange t.decode
  | .rangeInclusive t => decRangeInclusive t.decode
  | .lock _ t => decLock t.decode
  | .refCell t => decRefCell t.decode
  | .sizedSlice t n => decSizedSlice t.decode n
  | .tuple fs => fs.decode (fun _ e => e)
  | .struct fs => fs.decode (fun conv e => conv e)
  | .enum r vs => do
    let discriminant ← decRepr r
    vs.decode none discriminant

/-- Decodes fields in order: oct/src/decode/decode/mod.rs:848-854,
oct-macros/src/impls/decode_struct.rs:29-50, oct-macros/src/impls/decode_enum.rs:39-60. -/
def OpenFields.decode : (fs : OpenFields) → (g : (DecErr → DecErr) → DecErr → DecErr) → Dec fs.Val
  | .nil, _ => pure ()
  | .cons t fs, g => do
    let v ← t.decode.mapErr (g t.decInto)
    let vs ← fs.decode g
    pure (v, vs)

/-- The `match discriminant` of oct-macros/src/impls/decode_enum.rs:73-77. -/
def OpenVariants.decode : (vs : OpenVariants) → (prev : Option Nat) → (discriminant : Int) →
    Dec vs.Val
  | .nil, _, x => Dec.fail (.unassigned x)
  | .cons d fs vs, prev, x =>
    if x = (nextDisc prev d : Int) then do
      let v ← fs.decode (fun conv e => .badField (conv e))
      pure (.inl v)
    else do
      let v ← vs.decode (some (nextDisc prev d)) x
      pure (.inr v)

end

mutual

/-- Whether the type implements `SizedEncode`, if all the author's types do. -/
def Open.HasSized : Open → Prop
  | .impl _ => True
  | .wrap _ t => t.HasSized
  | .array t _ => t.HasSized
  | .seq _ _ => False
  | .hashMap _ _ => False
  | .hashSet _ => False
  | .option t => t.HasSized
  | .result t e _ => t.HasSized ∧ e.HasSized
  | .bound t => t.HasSized
  | .range t => t.HasSized
  | .rangeInclusive t => t.HasSized
  | .lock _ t => t.HasSized
  | .refCell t => t.HasSized
  | .sizedSlice t _ => t.HasSized
  | .tuple fs => fs.HasSized
  | .struct fs => fs.HasSized
  | .enum _ vs => vs.HasSized

/-- See `Open.HasSized`. -/
def OpenFields.HasSized : OpenFields → Prop
  | .nil => True
  | .cons t fs => t.HasSized ∧ fs.HasSized

/-- See `Open.HasSized`. -/
def OpenVariants.HasSized : OpenVariants → Prop
  | .nil => True
  | .cons _ fs vs => fs.HasSized ∧ vs.HasSized

end

mutual

/-- `MAX_ENCODED_SIZE`, as in `Model/SizedEncode.lean` (which has the lines). `sizeOf` is
`core::mem::size_of`. -/
def Open.maxSize (sizeOf : Open → Nat) : Open → Nat
  | .impl T => T.maxSize
  | .wrap _ t => t.maxSize sizeOf
  | .array t n => t.maxSize sizeOf * n
  | .seq _ _ => 0
  | .hashMap _ _ => 0
  | .hashSet _ => 0
  | .option t => 1 + t.maxSize sizeOf
  | .result t e _ => 1 + (if sizeOf t > sizeOf e then sizeOf t else sizeOf e)
  | .bound t => 1 + t.maxSize sizeOf
  | .range t => t.maxSize sizeOf * 2
  | .rangeInclusive t => t.maxSize sizeOf * 2
  | .lock _ t => t.maxSize sizeOf
  | .refCell t => t.maxSize sizeOf
  | .sizedSlice t n => t.maxSize sizeOf * n
  | .tuple fs => fs.maxSize sizeOf
  | .struct fs => fs.maxSize sizeOf
  | .enum r vs => vs.maxSize sizeOf r

/-- Sum over the fields. -/
def OpenFields.maxSize (sizeOf : Open → Nat) : OpenFields → Nat
  | .nil => 0
  | .cons t fs => t.maxSize sizeOf + fs.maxSize sizeOf

/-- Maximum over the variants. -/
def OpenVariants.maxSize (sizeOf : Open → Nat) : OpenVariants → Repr → Nat
  | .nil, _ => 0
  | .cons _ fs vs, r => max (fs.maxSize sizeOf + r.bytes) (vs.maxSize sizeOf r)

end

mutual

/-- What rustc demands of the enumerations in a type (see `Ty.WF`). -/
def Open.WF : Open → Prop
  | .impl _ => True
  | .wrap _ t => t.WF
  | .array t _ => t.WF
  | .seq _ t => t.WF
  | .hashMap _ t => t.WF
  | .hashSet _ => True
  | .option t => t.WF
  | .result t e _ => t.WF ∧ e.WF
  | .bound t => t.WF
  | .range t => t.WF
  | .rangeInclusive t => t.WF
  | .lock _ t => t.WF
  | .refCell t => t.WF
  | .sizedSlice t _ => t.WF
  | .tuple fs => fs.WF
  | .struct fs => fs.WF
  | .enum r vs =>
    (vs.discs none).Nodup ∧ (∀ d ∈ vs.discs none, r.InRange d ∧ d < 2 ^ 128) ∧ vs.WF

/-- See `Open.WF`. -/
def OpenFields.WF : OpenFields → Prop
  | .nil => True
  | .cons t fs => t.WF ∧ fs.WF

/-- See `Open.WF`. -/
def OpenVariants.WF : OpenVariants → Prop
  | .nil => True
  | .cons _ fs vs => fs.WF ∧ vs.WF

end

/-- `Foo { bar: u16, baz: f32 }`, which the documentation of `Encode` implements by hand:
oct/src/encode/encode/mod.rs:103-135 (the `f32` as its bit pattern). -/
structure Foo where
  bar : BitVec 16
  baz : BitVec 32

/-- `Foo::encode`: oct/src/encode/encode/mod.rs:123-130. -/
def Foo.encode (f : Foo) : Enc Unit := do
  encNum 2 f.bar.toNat
  encNum 4 f.baz.toNat
  Enc.pure ()

/-- What an impl of `Encode` may do when called by `Slot::write` with the buffer of the slot: besides
writing to the stream, it may put another stream in its place (`*output = Output::new(..)`), so the
position afterwards can be any. The buffer stays where it is, and as long as it is. -/
structure Foreign where
  run : List Byte → Res EncErr Unit × List Byte × Nat
  length_eq : ∀ buf, (run buf).2.1.length = buf.length

/-- An impl that leaves the stream where it is. -/
def Foreign.Decent (f : Foreign) (m : Enc Unit) : Prop :=
  ∀ buf, f.run buf = ((m (Output.new buf)).1, (m (Output.new buf)).2.buf, (m (Output.new buf)).2.pos)

/-- `Slot::write` with such an impl: oct/src/slot/mod.rs:270-279. -/
def Slot.writeAny (s : Slot) (f : Foreign) : Res EncErr Unit × Slot :=
  match f.run s.buf with
  | (.ok (), buf, pos) =>
    match ({ s with buf := buf } : Slot).setLen pos with
    | (.ok (), s') => (.ok (), s')
    | (_, s') => (.panic .assertion, s')
  | (.err e, buf, _) => (.err e, { s with buf := buf })
  | (.panic p, buf, _) => (.panic p, { s with buf := buf })
  | (.ub u, buf, _) => (.ub u, { s with buf := buf })

/-- What is done with a slot, other than reading. -/
inductive AnyOp where
  | write (f : Foreign)
  | copy (data : List Byte)
  | setLen (len : Nat)
  | setByte (i : Nat) (b : Byte)

/-- The slot afterwards (also after a panic that is caught). -/
def AnyOp.step (s : Slot) : AnyOp → Slot
  | .write f => (s.writeAny f).2
  | .copy d => (s.copyFromSlice d).2
  | .setLen n => (s.setLen n).2
  | .setByte i b => (s.setByte i b).2

end Oct
