import Verif.Model.Custom
/-
The model of types with impls by others (Model/Custom) and that of the crate's own types (Model/Encode,
Model/Decode) are one where they overlap.
-/
namespace Oct

/-- One of the crate's types as that of keys. -/
def Ty.keyImpl (sizeOf : Ty → Nat) (t : Ty) : KeyImpl where
  toImpl := t.impl sizeOf
  same := fun a b => @decide (a = b) (t.decEq a b)

mutual

/-- One of the crate's types, taken apart as far as `Open` goes. -/
def Ty.toOpen (sizeOf : Ty → Nat) : Ty → Open
  | .wrap w t => .wrap w (t.toOpen sizeOf)
  | .array t n => .array (t.toOpen sizeOf) n
  | .seq k t => .seq k (t.toOpen sizeOf)
  | .hashMap k v => .hashMap (k.keyImpl sizeOf) (v.toOpen sizeOf)
  | .hashSet k => .hashSet (k.keyImpl sizeOf)
  | .option t => .option (t.toOpen sizeOf)
  | .result t e =>
    .result (t.toOpen sizeOf) (e.toOpen sizeOf) (if t.encErrGeneric then EncErr.toGeneric else id)
  | .bound t => .bound (t.toOpen sizeOf)
  | .range t => .range (t.toOpen sizeOf)
  | .rangeInclusive t => .rangeInclusive (t.toOpen sizeOf)
  | .lock k t => .lock k (t.toOpen sizeOf)
  | .refCell t => .refCell (t.toOpen sizeOf)
  | .sizedSlice t n => .sizedSlice (t.toOpen sizeOf) n
  | .tuple fs => .tuple (fs.toOpen sizeOf)
  | .struct fs => .struct (fs.toOpen sizeOf)
  | .enum r vs => .enum r (vs.toOpen sizeOf)
  | t => .impl (t.impl sizeOf)

/-- See `Ty.toOpen`. -/
def Fields.toOpen (sizeOf : Ty → Nat) : Fields → OpenFields
  | .nil => .nil
  | .cons t fs => .cons (t.toOpen sizeOf) (fs.toOpen sizeOf)

/-- See `Ty.toOpen`. -/
def Variants.toOpen (sizeOf : Ty → Nat) : Variants → OpenVariants
  | .nil => .nil
  | .cons d fs vs => .cons d (fs.toOpen sizeOf) (vs.toOpen sizeOf)

end

/-- The impls of a type. -/
structure Codec where
  Val : Type
  encode : Val → Enc Unit
  decode : Dec Val

/-- What is done with the fields. -/
structure FieldsCodec where
  Val : Type
  encode : ((EncErr → EncErr) → EncErr → EncErr) → Val → Enc Unit
  decode : ((DecErr → DecErr) → DecErr → DecErr) → Dec Val

/-- What is done with the variants. -/
structure VariantsCodec where
  Val : Type
  encode : Repr → Option Nat → Val → Enc Unit
  decode : Option Nat → Int → Dec Val

def Open.codec (t : Open) : Codec := ⟨t.Val, t.encode, t.decode⟩
def Ty.codec (t : Ty) : Codec := ⟨t.Val, t.encode, t.decode⟩
def OpenFields.codec (fs : OpenFields) : FieldsCodec := ⟨fs.Val, fs.encode, fs.decode⟩
def Fields.codec (fs : Fields) : FieldsCodec :=
  ⟨fs.Val, fun g => fs.encode (g EncErr.toGeneric), fun g => fs.decode (g DecErr.toGeneric)⟩
def OpenVariants.codec (vs : OpenVariants) : VariantsCodec := ⟨vs.Val, vs.encode, vs.decode⟩
def Variants.codec (vs : Variants) : VariantsCodec := ⟨vs.Val, vs.encode, vs.decode⟩

mutual

theorem Ty.toOpen_encInto (sizeOf : Ty → Nat) : (t : Ty) → (t.toOpen sizeOf).encInto = EncErr.toGeneric
  | .wrap _ t => by rw [Ty.toOpen, Open.encInto]; exact t.toOpen_encInto sizeOf
  | .option t => by rw [Ty.toOpen, Open.encInto]; exact t.toOpen_encInto sizeOf
  | .result t _ => by rw [Ty.toOpen, Open.encInto]; exact t.toOpen_encInto sizeOf
  | .range t => by rw [Ty.toOpen, Open.encInto]; exact t.toOpen_encInto sizeOf
  | .rangeInclusive t => by rw [Ty.toOpen, Open.encInto]; exact t.toOpen_encInto sizeOf
  | .lock _ t => by rw [Ty.toOpen, Open.encInto]; exact t.toOpen_encInto sizeOf
  | .tuple fs => by rw [Ty.toOpen, Open.encInto]; exact fs.toOpen_encInto sizeOf
  | .array _ _ | .seq _ _ | .bound _ | .refCell _ | .sizedSlice _ _ | .struct _ | .enum _ _
  | .num _ | .bool | .char | .usize | .isize | .nonZero _ | .unit _ | .infallible | .hashMap _ _
  | .hashSet _ | .duration | .systemTime _ | .ipv4 | .ipv6 | .ipAddr | .socketAddrV4 | .socketAddrV6
  | .socketAddr | .str _ | .cStr _ | .sizedStr _ => by rw [Ty.toOpen, Open.encInto] <;> first | rfl | simp

theorem Fields.toOpen_encInto (sizeOf : Ty → Nat) :
    (fs : Fields) → (fs.toOpen sizeOf).encInto = EncErr.toGeneric
  | .nil => by rw [Fields.toOpen, OpenFields.encInto]
  | .cons t _ => by rw [Fields.toOpen, OpenFields.encInto]; exact t.toOpen_encInto sizeOf

end

mutual

theorem Ty.toOpen_decInto (sizeOf : Ty → Nat) : (t : Ty) → (t.toOpen sizeOf).decInto = DecErr.toGeneric
  | .wrap _ t => by rw [Ty.toOpen, Open.decInto]; exact t.toOpen_decInto sizeOf
  | .option t => by rw [Ty.toOpen, Open.decInto]; exact t.toOpen_decInto sizeOf
  | .range t => by rw [Ty.toOpen, Open.decInto]; exact t.toOpen_decInto sizeOf
  | .rangeInclusive t => by rw [Ty.toOpen, Open.decInto]; exact t.toOpen_decInto sizeOf
  | .lock _ t => by rw [Ty.toOpen, Open.decInto]; exact t.toOpen_decInto sizeOf
  | .refCell t => by rw [Ty.toOpen, Open.decInto]; exact t.toOpen_decInto sizeOf
  | .tuple fs => by rw [Ty.toOpen, Open.decInto]; exact fs.toOpen_decInto sizeOf
  | .array _ _ | .seq _ _ | .bound _ | .result _ _ | .sizedSlice _ _ | .struct _ | .enum _ _
  | .num _ | .bool | .char | .usize | .isize | .nonZero _ | .unit _ | .infallible | .hashMap _ _
  | .hashSet _ | .duration | .systemTime _ | .ipv4 | .ipv6 | .ipAddr | .socketAddrV4 | .socketAddrV6
  | .socketAddr | .str _ | .cStr _ | .sizedStr _ => by rw [Ty.toOpen, Open.decInto] <;> first | rfl | simp

theorem Fields.toOpen_decInto (sizeOf : Ty → Nat) :
    (fs : Fields) → (fs.toOpen sizeOf).decInto = DecErr.toGeneric
  | .nil => by rw [Fields.toOpen, OpenFields.decInto]
  | .cons t _ => by rw [Fields.toOpen, OpenFields.decInto]; exact t.toOpen_decInto sizeOf

end

theorem both {α β γ : Type _} (f : α → β → γ) {a a' : α} {b b' : β} (h1 : a = a') (h2 : b = b') :
    f a b = f a' b' := by cases h1; cases h2; rfl

theorem four {α β γ δ ε : Type _} (f : α → β → γ → δ → ε) {a a' : α} {b b' : β} {c c' : γ} {d d' : δ}
    (h1 : a = a') (h2 : b = b') (h3 : c = c') (h4 : d = d') : f a b c d = f a' b' c' d' := by
  cases h1; cases h2; cases h3; cases h4; rfl

/-- One more variant. -/
def consCodec (d : Option Nat) (p : FieldsCodec) (q : VariantsCodec) : VariantsCodec where
  Val := p.Val ⊕ q.Val
  encode r prev v := match v with
    | .inl v => do
      (encRepr r (nextDisc prev d)).mapErr .badDiscriminant
      p.encode (fun conv e => .badField (conv e)) v
    | .inr v => q.encode r (some (nextDisc prev d)) v
  decode prev x :=
    if x = (nextDisc prev d : Int) then do
      let v ← p.decode (fun conv e => .badField (conv e))
      pure (.inl v)
    else do
      let v ← q.decode (some (nextDisc prev d)) x
      pure (.inr v)

theorem VariantsCodec.ext_encode {V : Type} {e e' : Repr → Option Nat → V → Enc Unit}
    {d : Option Nat → Int → Dec V} (h : ∀ r p v, e r p v = e' r p v) :
    (⟨V, e, d⟩ : VariantsCodec) = ⟨V, e', d⟩ := by
  rw [show e = e' from funext fun r => funext fun p => funext fun v => h r p v]

theorem OpenVariants.codec_cons (d : Option Nat) (fs : OpenFields) (vs : OpenVariants) :
    (OpenVariants.cons d fs vs).codec = consCodec d fs.codec vs.codec :=
  VariantsCodec.ext_encode fun _ _ v => by cases v <;> rfl

theorem Variants.codec_cons (d : Option Nat) (fs : Fields) (vs : Variants) :
    (Variants.cons d fs vs).codec = consCodec d fs.codec vs.codec :=
  VariantsCodec.ext_encode fun _ _ v => by cases v <;> rfl

theorem sub_codec {L : Type} {P Q : L → Prop} (h : P = Q) (e : L → Enc Unit) (d : Dec {l // P l})
    (d' : Dec {l // Q l})
    (hd : ∀ i, ((d i).1.map Subtype.val, (d i).2) = ((d' i).1.map Subtype.val, (d' i).2)) :
    (⟨{l // P l}, fun v => e v.val, d⟩ : Codec) = ⟨{l // Q l}, fun v => e v.val, d'⟩ := by
  subst h
  have : d = d' := by
    funext i
    have h1 := hd i
    generalize d i = x at h1 ⊢
    generalize d' i = y at h1 ⊢
    obtain ⟨r, i1⟩ := x
    obtain ⟨r', i2⟩ := y
    obtain ⟨h2, h3⟩ := Prod.mk.inj h1
    cases h3
    cases r <;> cases r' <;> simp only [Res.map] at h2 <;> first | (rw [Subtype.ext (Res.ok.inj h2)]) |
      (cases h2 <;> rfl)
  rw [this]

theorem distinct_eq {α : Type} [DecidableEq α] (l : List α) :
    Distinct (fun a b => decide (a = b)) l ↔ l.Nodup := by
  unfold Distinct List.Nodup
  constructor
  · exact fun h => h.imp fun {a b} h e => by simp [e] at h
  · exact fun h => h.imp fun {a b} h => by simpa using Ne.symm h

theorem tableInsert_eq {α β : Type} [DecidableEq α] (k : α) (v : β) (l : List (α × β)) :
    tableInsert (fun a b => decide (a = b)) k v l = mapInsert k v l := by
  induction l with
  | nil => rfl
  | cons p l ih =>
    unfold tableInsert mapInsert
    by_cases h : p.1 = k
    · simp [h]
    · simp [h, Ne.symm h, ih]

theorem tableAdd_eq {α : Type} [DecidableEq α] (k : α) (l : List α) :
    tableAdd (fun a b => decide (a = b)) k l = setInsert k l := by
  unfold tableAdd setInsert
  have : (l.any fun b => decide (k = b)) = true ↔ k ∈ l := by simp
  by_cases h : k ∈ l
  · rw [if_pos h, if_pos (this.2 h)]
  · rw [if_neg h, if_neg fun e => h (this.1 e)]

theorem decTableLoop_eq {α β : Type} [DecidableEq α] (decK : Dec α) (decV : Dec β) (n j : Nat)
    (m : TableVal α β fun a b => decide (a = b)) (m' : MapVal α β) (h : m.val = m'.val) (i : Input) :
    ((decTableLoop _ decK decV n j m i).1.map Subtype.val, (decTableLoop _ decK decV n j m i).2)
      = ((decMapLoop decK decV n j m' i).1.map Subtype.val, (decMapLoop decK decV n j m' i).2) := by
  induction n generalizing j m m' i with
  | zero =>
    show (Res.ok m.val, i) = (Res.ok m'.val, i)
    rw [h]
  | succ n ih =>
    unfold decTableLoop decMapLoop
    show ((Dec.bind _ _ i).1.map _, (Dec.bind _ _ i).2) = ((Dec.bind _ _ i).1.map _, (Dec.bind _ _ i).2)
    unfold Dec.bind
    generalize (decK.mapErr fun e => .badItem (.item j e)) i = x
    obtain ⟨r, i1⟩ := x
    cases r with
    | ok k =>
      show ((Dec.bind _ _ i1).1.map _, (Dec.bind _ _ i1).2)
        = ((Dec.bind _ _ i1).1.map _, (Dec.bind _ _ i1).2)
      unfold Dec.bind
      generalize (decV.mapErr fun e => .badItem (.item j e)) i1 = x
      obtain ⟨r, i2⟩ := x
      cases r with
      | ok v => exact ih (j + 1) _ _ (by dsimp only; rw [tableInsert_eq, h]) i2
      | _ => rfl
    | _ => rfl

theorem decTableSetLoop_eq {α : Type} [DecidableEq α] (decK : Dec α) (n j : Nat)
    (m : TableSet α fun a b => decide (a = b)) (m' : SetVal α) (h : m.val = m'.val) (i : Input) :
    ((decTableSetLoop _ decK n j m i).1.map Subtype.val, (decTableSetLoop _ decK n j m i).2)
      = ((decSetLoop decK n j m' i).1.map Subtype.val, (decSetLoop decK n j m' i).2) := by
  induction n generalizing j m m' i with
  | zero =>
    show (Res.ok m.val, i) = (Res.ok m'.val, i)
    rw [h]
  | succ n ih =>
    unfold decTableSetLoop decSetLoop
    show ((Dec.bind _ _ i).1.map _, (Dec.bind _ _ i).2) = ((Dec.bind _ _ i).1.map _, (Dec.bind _ _ i).2)
    unfold Dec.bind
    generalize (decK.mapErr fun e => .badItem (.item j e)) i = x
    obtain ⟨r, i1⟩ := x
    cases r with
    | ok k => exact ih (j + 1) _ _ (by dsimp only; rw [tableAdd_eq, h]) i1
    | _ => rfl

theorem table_codec {α β : Type} [DecidableEq α] (encK : α → Enc Unit) (encV : β → Enc Unit)
    (decK : Dec α) (decV : Dec β) :
    (⟨TableVal α β fun a b => decide (a = b), fun v => encHashMap encK encV v.val,
      decTable _ decK decV⟩ : Codec)
      = ⟨MapVal α β, fun v => encHashMap encK encV v.val, decHashMap decK decV⟩ := by
  refine sub_codec (funext fun l => propext (distinct_eq _)) (encHashMap encK encV) _ _ fun i => ?_
  unfold decTable decHashMap
  show ((Dec.bind _ _ i).1.map _, (Dec.bind _ _ i).2) = ((Dec.bind _ _ i).1.map _, (Dec.bind _ _ i).2)
  unfold Dec.bind
  generalize decUsize i = x
  obtain ⟨r, i1⟩ := x
  cases r with
  | ok n => exact decTableLoop_eq decK decV n 0 _ _ rfl i1
  | _ => rfl

theorem tableSet_codec {α : Type} [DecidableEq α] (encK : α → Enc Unit) (decK : Dec α) :
    (⟨TableSet α fun a b => decide (a = b), fun v => encHashSet encK v.val, decTableSet _ decK⟩ : Codec)
      = ⟨SetVal α, fun v => encHashSet encK v.val, decHashSet decK⟩ := by
  refine sub_codec (funext fun l => propext (distinct_eq _)) (encHashSet encK) _ _ fun i => ?_
  unfold decTableSet decHashSet
  show ((Dec.bind _ _ i).1.map _, (Dec.bind _ _ i).2) = ((Dec.bind _ _ i).1.map _, (Dec.bind _ _ i).2)
  unfold Dec.bind
  generalize decUsize i = x
  obtain ⟨r, i1⟩ := x
  cases r with
  | ok n => exact decTableSetLoop_eq decK n 0 _ _ rfl i1
  | _ => rfl

mutual

theorem Ty.toOpen_codec (sizeOf : Ty → Nat) : (t : Ty) → (t.toOpen sizeOf).codec = t.codec
  | .wrap _ t => t.toOpen_codec sizeOf
  | .array t n => by
    have h := congrArg (fun p : Codec => (⟨Items p.Val n, fun v => encArray p.encode v.val, decArray p.decode n⟩ : Codec)) (t.toOpen_codec sizeOf)
    simp only [Ty.toOpen]
    exact h
  | .seq .slice t => by
    have h := congrArg (fun p : Codec => (⟨List p.Val, encSlice p.encode, decSeq p.decode⟩ : Codec)) (t.toOpen_codec sizeOf)
    simp only [Ty.toOpen]
    exact h
  | .seq .vec t => by
    have h := congrArg (fun p : Codec => (⟨List p.Val, encSlice p.encode, decSeq p.decode⟩ : Codec)) (t.toOpen_codec sizeOf)
    simp only [Ty.toOpen]
    exact h
  | .seq .linkedList t => by
    have h := congrArg (fun p : Codec => (⟨List p.Val, encLinkedList p.encode, decSeq p.decode⟩ : Codec)) (t.toOpen_codec sizeOf)
    simp only [Ty.toOpen]
    exact h
  | .hashMap k v => by
    have h := congrArg (fun p : Codec => (⟨TableVal k.Val p.Val fun a b => @decide (a = b) (k.decEq a b),
      fun v => encHashMap k.encode p.encode v.val, decTable _ k.decode p.decode⟩ : Codec))
      (v.toOpen_codec sizeOf)
    simp only [Ty.toOpen]
    exact h.trans (@table_codec _ _ k.decEq k.encode v.encode k.decode v.decode)
  | .hashSet k => by
    simp only [Ty.toOpen]
    exact @tableSet_codec _ k.decEq k.encode k.decode
  | .option t => by
    have h := congrArg (fun p : Codec => (⟨Option p.Val, encOption p.encode, decOption p.decode⟩ : Codec)) (t.toOpen_codec sizeOf)
    simp only [Ty.toOpen]
    exact h
  | .bound t => by
    have h := congrArg (fun p : Codec => (⟨BoundVal p.Val, encBound p.encode, decBound p.decode⟩ : Codec)) (t.toOpen_codec sizeOf)
    simp only [Ty.toOpen]
    exact h
  | .range t => by
    have h := congrArg (fun p : Codec => (⟨RangeVal p.Val, encRange p.encode, decRange p.decode⟩ : Codec)) (t.toOpen_codec sizeOf)
    simp only [Ty.toOpen]
    exact h
  | .rangeInclusive t => by
    have h := congrArg (fun p : Codec => (⟨RangeInclusiveVal p.Val, encRangeInclusive p.encode, decRangeInclusive p.decode⟩ : Codec)) (t.toOpen_codec sizeOf)
    simp only [Ty.toOpen]
    exact h
  | .lock _ t => by
    have h := congrArg (fun p : Codec => (⟨LockVal p.Val, encLock p.encode, decLock p.decode⟩ : Codec)) (t.toOpen_codec sizeOf)
    simp only [Ty.toOpen]
    exact h
  | .refCell t => by
    have h := congrArg (fun p : Codec => (⟨RefCellVal p.Val, encRefCell p.encode, decRefCell p.decode⟩ : Codec)) (t.toOpen_codec sizeOf)
    simp only [Ty.toOpen]
    exact h
  | .sizedSlice t n => by
    have h := congrArg (fun p : Codec => (⟨{l : List p.Val // l.length ≤ n}, fun v => encSlice p.encode v.val, decSizedSlice p.decode n⟩ : Codec)) (t.toOpen_codec sizeOf)
    simp only [Ty.toOpen]
    exact h
  | .result t e => by
    have h := both (fun p q : Codec => (⟨ResultVal p.Val q.Val,
        encResult p.encode q.encode (if t.encErrGeneric then EncErr.toGeneric else id),
        decResult p.decode q.decode⟩ : Codec)) (t.toOpen_codec sizeOf) (e.toOpen_codec sizeOf)
    simp only [Ty.toOpen]
    exact h
  | .tuple fs => by
    have h := congrArg (fun p : FieldsCodec => (⟨p.Val, p.encode (fun _ e => e),
      p.decode (fun _ e => e)⟩ : Codec)) (fs.toOpen_codec sizeOf)
    simp only [Ty.toOpen]
    exact h
  | .struct fs => by
    have h := congrArg (fun p : FieldsCodec => (⟨p.Val, p.encode (fun conv e => conv e),
      p.decode (fun conv e => conv e)⟩ : Codec)) (fs.toOpen_codec sizeOf)
    simp only [Ty.toOpen]
    exact h
  | .enum r vs => by
    have h := congrArg (fun p : VariantsCodec => (⟨p.Val, p.encode r none,
      (do let discriminant ← decRepr r; p.decode none discriminant)⟩ : Codec)) (vs.toOpen_codec sizeOf)
    simp only [Ty.toOpen]
    exact h
  | .num _ | .bool | .char | .usize | .isize | .nonZero _ | .unit _ | .infallible
  | .duration | .systemTime _ | .ipv4 | .ipv6 | .ipAddr | .socketAddrV4 | .socketAddrV6
  | .socketAddr | .str _ | .cStr _ | .sizedStr _ => rfl

theorem Fields.toOpen_codec (sizeOf : Ty → Nat) : (fs : Fields) → (fs.toOpen sizeOf).codec = fs.codec
  | .nil => rfl
  | .cons t fs => by
    have h := four (fun (p : Codec) (q : FieldsCodec) (a : EncErr → EncErr) (b : DecErr → DecErr) =>
        (⟨p.Val × q.Val,
          fun g v => (do (p.encode v.1).mapErr (g a); q.encode g v.2 : Enc Unit),
          fun g => (do let v ← p.decode.mapErr (g b); let vs ← q.decode g; pure (v, vs))⟩ : FieldsCodec))
          (t.toOpen_codec sizeOf) (fs.toOpen_codec sizeOf) (t.toOpen_encInto sizeOf)
          (t.toOpen_decInto sizeOf)
    exact h

theorem Variants.toOpen_codec (sizeOf : Ty → Nat) :
    (vs : Variants) → (vs.toOpen sizeOf).codec = vs.codec
  | .nil => rfl
  | .cons d fs vs => by
    have h := both (consCodec d) (fs.toOpen_codec sizeOf) (vs.toOpen_codec sizeOf)
    exact (OpenVariants.codec_cons d _ _).trans (h.trans (Variants.codec_cons d fs vs).symm)

end

mutual

theorem Ty.toOpen_maxSize (sizeOf : Ty → Nat) (sz : Open → Nat)
    (h : ∀ t, sz (Ty.toOpen sizeOf t) = sizeOf t) :
    (t : Ty) → (t.toOpen sizeOf).maxSize sz = t.maxSize sizeOf
  | .wrap _ t => by simp only [Ty.toOpen, Open.maxSize, Ty.maxSize, t.toOpen_maxSize sizeOf sz h]
  | .array t _ => by simp only [Ty.toOpen, Open.maxSize, Ty.maxSize, t.toOpen_maxSize sizeOf sz h]
  | .option t => by simp only [Ty.toOpen, Open.maxSize, Ty.maxSize, t.toOpen_maxSize sizeOf sz h]
  | .bound t => by simp only [Ty.toOpen, Open.maxSize, Ty.maxSize, t.toOpen_maxSize sizeOf sz h]
  | .range t => by simp only [Ty.toOpen, Open.maxSize, Ty.maxSize, t.toOpen_maxSize sizeOf sz h]
  | .rangeInclusive t => by simp only [Ty.toOpen, Open.maxSize, Ty.maxSize, t.toOpen_maxSize sizeOf sz h]
  | .lock _ t => by simp only [Ty.toOpen, Open.maxSize, Ty.maxSize, t.toOpen_maxSize sizeOf sz h]
  | .refCell t => by simp only [Ty.toOpen, Open.maxSize, Ty.maxSize, t.toOpen_maxSize sizeOf sz h]
  | .sizedSlice t _ => by simp only [Ty.toOpen, Open.maxSize, Ty.maxSize, t.toOpen_maxSize sizeOf sz h]
  | .seq _ _ => by simp only [Ty.toOpen, Open.maxSize, Ty.maxSize]
  | .result t e => by simp only [Ty.toOpen, Open.maxSize, Ty.maxSize, h]
  | .tuple fs => by simp only [Ty.toOpen, Open.maxSize, Ty.maxSize, fs.toOpen_maxSize sizeOf sz h]
  | .struct fs => by simp only [Ty.toOpen, Open.maxSize, Ty.maxSize, fs.toOpen_maxSize sizeOf sz h]
  | .enum r vs => by simp only [Ty.toOpen, Open.maxSize, Ty.maxSize, vs.toOpen_maxSize sizeOf sz h]
  | .num _ | .bool | .char | .usize | .isize | .nonZero _ | .unit _ | .infallible | .hashMap _ _
  | .hashSet _ | .duration | .systemTime _ | .ipv4 | .ipv6 | .ipAddr | .socketAddrV4 | .socketAddrV6
  | .socketAddr | .str _ | .cStr _ | .sizedStr _ => rfl

theorem Fields.toOpen_maxSize (sizeOf : Ty → Nat) (sz : Open → Nat)
    (h : ∀ t, sz (Ty.toOpen sizeOf t) = sizeOf t) :
    (fs : Fields) → (fs.toOpen sizeOf).maxSize sz = fs.maxSize sizeOf
  | .nil => rfl
  | .cons t fs => by
    simp only [Fields.toOpen, OpenFields.maxSize, Fields.maxSize, t.toOpen_maxSize sizeOf sz h,
      fs.toOpen_maxSize sizeOf sz h]

theorem Variants.toOpen_maxSize (sizeOf : Ty → Nat) (sz : Open → Nat)
    (h : ∀ t, sz (Ty.toOpen sizeOf t) = sizeOf t) :
    (vs : Variants) → ∀ r, (vs.toOpen sizeOf).maxSize sz r = vs.maxSize sizeOf r
  | .nil, _ => rfl
  | .cons _ fs vs, r => by
    simp only [Variants.toOpen, OpenVariants.maxSize, Variants.maxSize, fs.toOpen_maxSize sizeOf sz h,
      vs.toOpen_maxSize sizeOf sz h r]

end

theorem Codec.encode_eq {c c' : Codec} (h : c = c') :
    ∃ e : c'.Val = c.Val, ∀ v, c.encode (cast e v) = c'.encode v := by
  cases h
  exact ⟨rfl, fun _ => rfl⟩

theorem Codec.decode_eq {c c' : Codec} (h : c = c') :
    ∃ e : c'.Val = c.Val, ∀ i, c.decode i = ((c'.decode i).1.map (cast e), (c'.decode i).2) := by
  cases h
  refine ⟨rfl, fun i => Prod.ext ?_ rfl⟩
  show (c.decode i).1 = _
  cases (c.decode i).1 <;> rfl

end Oct
