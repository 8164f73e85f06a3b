import Verif.Spec.Custom
import Verif.Proofs.RoundTrip
/- Containers and derives around impls that keep their promises keep theirs. -/
namespace Oct
open Spec
set_option linter.unusedVariables false

/-- As promised: `m` writes `w` if `E`, and else never succeeds. -/
def Keeps (m : Enc Unit) (w : List Byte) (E : Prop) : Prop :=
  (E → Writes m w) ∧ (¬ E → Never m)

theorem Writes.pure : Writes (Enc.pure ()) [] := by
  intro o h
  show (Res.ok (), o) = _
  congr 1
  have := Output.put_nil (o := o) (by unfold Output.WF; simp at h; omega)
  exact this.symm

theorem Writes.write (d : List Byte) : Writes (Enc.write d) d := by
  intro o h
  unfold Enc.write Output.write
  rw [if_neg (by omega)]
  rfl

theorem Writes.bind {m : Enc Unit} {f : Unit → Enc Unit} {w w' : List Byte} (hm : Writes m w)
    (hf : Writes (f ()) w') : Writes (m >>= f) (w ++ w') := by
  intro o h
  rw [List.length_append] at h
  have hwf : o.WF := by unfold Output.WF; omega
  have hr : w.length ≤ o.remaining := by
    show w.length ≤ o.buf.length - o.pos
    omega
  show Enc.bind m f o = _
  unfold Enc.bind
  rw [hm o (by omega)]
  have hc := Output.capacity_put hwf hr
  have h2 := hf (o.put w) (by rw [hc]; show o.pos + w.length + w'.length ≤ _; omega)
  exact h2.trans (congrArg (Prod.mk _) (Output.put_put hwf hr))

theorem Writes.mapErr {m : Enc Unit} {w : List Byte} (g : EncErr → EncErr) (hm : Writes m w) :
    Writes (m.mapErr g) w := by
  intro o h
  unfold Enc.mapErr
  rw [hm o h]
  rfl

theorem Never.fail (e : EncErr) : Never (Enc.fail e) := fun o h => nomatch h

theorem Never.mapErr {m : Enc Unit} (g : EncErr → EncErr) (h : Never m) : Never (m.mapErr g) := by
  intro o e
  have := h o
  unfold Enc.mapErr at e
  generalize m o = x at e this
  obtain ⟨r, o'⟩ := x
  cases r <;> first | exact this rfl | exact nomatch e

theorem Never.first {m : Enc Unit} (f : Unit → Enc Unit) (h : Never m) : Never (m >>= f) := by
  intro o e
  have := h o
  change (Enc.bind m f o).1 = _ at e
  unfold Enc.bind at e
  generalize m o = x at e this
  obtain ⟨r, o'⟩ := x
  cases r <;> first | exact this rfl | exact nomatch e

theorem Never.second (m : Enc Unit) {f : Unit → Enc Unit} (h : Never (f ())) : Never (m >>= f) := by
  intro o e
  change (Enc.bind m f o).1 = _ at e
  unfold Enc.bind at e
  generalize m o = x at e
  obtain ⟨r, o'⟩ := x
  cases r <;> first | exact h o' e | exact nomatch e

namespace Keeps

theorem pure {E : Prop} (hE : E) : Keeps (Enc.pure ()) [] E :=
  ⟨fun _ => Writes.pure, fun h => absurd hE h⟩

theorem of {m : Enc Unit} {w : List Byte} {E : Prop} (h : Writes m w) (hE : E) : Keeps m w E :=
  ⟨fun _ => h, fun h => absurd hE h⟩

theorem bind {m : Enc Unit} {f : Unit → Enc Unit} {w w' : List Byte} {E E' : Prop}
    (hm : Keeps m w E) (hf : Keeps (f ()) w' E') : Keeps (m >>= f) (w ++ w') (E ∧ E') := by
  refine ⟨fun h => Writes.bind (hm.1 h.1) (hf.1 h.2), fun h => ?_⟩
  by_cases he : E
  · exact Never.second m (hf.2 fun h' => h ⟨he, h'⟩)
  · exact Never.first f (hm.2 he)

theorem after {m : Enc Unit} {f : Unit → Enc Unit} {w w' : List Byte} {E : Prop}
    (hm : Writes m w) (hf : Keeps (f ()) w' E) : Keeps (m >>= f) (w ++ w') E :=
  ⟨fun h => Writes.bind hm (hf.1 h), fun h => Never.second m (hf.2 h)⟩

theorem mapErr {m : Enc Unit} {w : List Byte} {E : Prop} (g : EncErr → EncErr) (h : Keeps m w E) :
    Keeps (m.mapErr g) w E :=
  ⟨fun e => Writes.mapErr g (h.1 e), fun e => Never.mapErr g (h.2 e)⟩

theorem congr {m : Enc Unit} {w : List Byte} {E E' : Prop} (h : Keeps m w E) (hE : E ↔ E') :
    Keeps m w E' := by rwa [← hE]

end Keeps

theorem encNum_writes (n x : Nat) : Writes (encNum n x) (leBytes n x) := by
  rw [← toLe_eq_leBytes]; exact Writes.write _

theorem encU8_writes (x : Nat) : Writes (encU8 x) [UInt8.ofNat (x % 256)] := by
  rw [← leBytes_one]; exact encNum_writes 1 x

theorem encBool_writes (b : Bool) : Writes (encBool b) [if b = true then 1 else 0] := by
  have h := encU8_writes (if b = true then 1 else 0)
  cases b <;> exact h

theorem encUsize_keeps (n : Nat) : Keeps (encUsize n) (leBytes 2 n) (n ≤ 65535) := by
  unfold encUsize
  constructor
  · intro h; rw [if_pos h]; exact encNum_writes 2 n
  · intro h; rw [if_neg h]; exact Never.fail _

theorem encRepr_keeps (r : Repr) (n : Nat) :
    Keeps (encRepr r n) (reprWire r n) (ReprEncodable r n) := by
  cases r with
  | int k => exact .of (encNum_writes _ _) trivial
  | usize =>
    have h := encUsize_keeps n
    refine ⟨fun e => ?_, fun e => ?_⟩
    · have e' : n ≤ 65535 := by have : (n : Int) ≤ 65535 := e; omega
      have hw : reprWire .usize n = leBytes 2 n := by
        show leBytes 2 ((n : Int) % (2 : Int) ^ (8 * 2)).toNat = _
        congr 1
        omega
      rw [hw]
      exact h.1 e'
    · exact h.2 fun e' => e (by show (n : Int) ≤ 65535; omega)
  | isize =>
    show Keeps (encIsize n) _ _
    unfold encIsize
    refine ⟨fun e => ?_, fun e => ?_⟩
    · rw [if_pos (show -32768 ≤ (n : Int) ∧ (n : Int) ≤ 32767 from e)]
      exact encNum_writes 2 _
    · rw [if_neg (show ¬ (-32768 ≤ (n : Int) ∧ (n : Int) ≤ 32767) from e)]
      exact Never.fail _

theorem encItems_keeps {α : Type} {enc : α → Enc Unit} {w : α → List Byte} {E : α → Prop}
    (h : ∀ a, Keeps (enc a) (w a) (E a)) (wrap : Nat → EncErr → EncErr) (l : List α) (i : Nat) :
    Keeps (encItems enc wrap i l) (l.flatMap w) (∀ x ∈ l, E x) := by
  induction l generalizing i with
  | nil => exact .pure (by simp)
  | cons a l ih =>
    exact (((h a).mapErr (wrap i)).bind (ih (i + 1))).congr (by simp)

theorem encSlice_keeps {α : Type} {enc : α → Enc Unit} {w : α → List Byte} {E : α → Prop}
    (h : ∀ a, Keeps (enc a) (w a) (E a)) (l : List α) :
    Keeps (encSlice enc l) (leBytes 2 l.length ++ l.flatMap w) (l.length ≤ 65535 ∧ ∀ x ∈ l, E x) :=
  ((encUsize_keeps l.length).mapErr .badLength).bind (encItems_keeps h _ l 0)

theorem encLinkedList_keeps {α : Type} {enc : α → Enc Unit} {w : α → List Byte} {E : α → Prop}
    (h : ∀ a, Keeps (enc a) (w a) (E a)) (l : List α) :
    Keeps (encLinkedList enc l) (leBytes 2 l.length ++ l.flatMap w)
      (l.length ≤ 65535 ∧ ∀ x ∈ l, E x) :=
  ((encUsize_keeps l.length).mapErr .badLength).bind (encItems_keeps h _ l 0)

theorem encHashMap_keeps {α β : Type} {encK : α → Enc Unit} {encV : β → Enc Unit}
    {w : α → List Byte} {w' : β → List Byte} {E : α → Prop} {E' : β → Prop}
    (h : ∀ a, Keeps (encK a) (w a) (E a)) (h' : ∀ b, Keeps (encV b) (w' b) (E' b)) :
    (l : List (α × β)) → Keeps (encHashMap encK encV l) (l.flatMap fun p => w p.1 ++ w' p.2)
      (∀ p ∈ l, E p.1 ∧ E' p.2)
  | [] => .pure (by simp)
  | (k, v) :: l => by
    have := (h k).bind (f := fun _ => (encV v >>= fun _ => encHashMap encK encV l))
      ((h' v).bind (f := fun _ => encHashMap encK encV l) (encHashMap_keeps h h' l))
    rw [← List.append_assoc] at this
    exact this.congr (by simp [and_assoc])

theorem encHashSet_keeps {α : Type} {encK : α → Enc Unit} {w : α → List Byte} {E : α → Prop}
    (h : ∀ a, Keeps (encK a) (w a) (E a)) :
    (l : List α) → Keeps (encHashSet encK l) (l.flatMap w) (∀ k ∈ l, E k)
  | [] => .pure (by simp)
  | k :: l =>
    ((h k).bind (f := fun _ => encHashSet encK l) (encHashSet_keeps h l)).congr (by simp)

mutual

theorem Open.encode_keeps (P : Promise) : (t : Open) → Authors P.KeptEnc t → (v : t.Val) →
    Keeps (t.encode v) (openWire P t v) (OpenEncodable P t v)
  | .impl T, h, v => h v
  | .wrap _ t, h, v => Open.encode_keeps P t h v
  | .array t _, h, v => encItems_keeps (Open.encode_keeps P t h) _ v.val 0
  | .seq .slice t, h, v => encSlice_keeps (Open.encode_keeps P t h) v
  | .seq .vec t, h, v => encSlice_keeps (Open.encode_keeps P t h) v
  | .seq .linkedList t, h, v => encLinkedList_keeps (Open.encode_keeps P t h) v
  | .hashMap K t, h, v => encHashMap_keeps h.1 (Open.encode_keeps P t h.2) v.val
  | .hashSet K, h, v => encHashSet_keeps h v.val
  | .option t, h, none => .of (encBool_writes false) trivial
  | .option t, h, some v => .after (encBool_writes true) (Open.encode_keeps P t h v)
  | .result t e _, h, .ok v => .after (encBool_writes false) (Open.encode_keeps P t h.1 v)
  | .result t e _, h, .err v =>
    .after (encBool_writes true) ((Open.encode_keeps P e h.2 v).mapErr _)
  | .bound t, h, .included v => .after (encU8_writes 0) ((Open.encode_keeps P t h v).mapErr _)
  | .bound t, h, .excluded v => .after (encU8_writes 1) ((Open.encode_keeps P t h v).mapErr _)
  | .bound t, h, .unbounded => .of (encU8_writes 2) trivial
  | .range t, h, v => (Open.encode_keeps P t h v.start).bind (Open.encode_keeps P t h v.stop)
  | .rangeInclusive t, h, v =>
    (Open.encode_keeps P t h v.start).bind (Open.encode_keeps P t h v.stop)
  | .lock _ t, h, v => Open.encode_keeps P t h v.val
  | .refCell t, h, ⟨true, v⟩ => ⟨fun e => (nomatch e.1), fun _ => Never.fail _⟩
  | .refCell t, h, ⟨false, v⟩ =>
    ((Open.encode_keeps P t h v).mapErr .badValue).congr ⟨fun e => ⟨rfl, e⟩, fun e => e.2⟩
  | .sizedSlice t _, h, v => encSlice_keeps (Open.encode_keeps P t h) v.val
  | .tuple fs, h, v => OpenFields.encode_keeps P fs _ h v
  | .struct fs, h, v => OpenFields.encode_keeps P fs _ h v
  | .enum r vs, h, v => OpenVariants.encode_keeps P vs r none (openDiscs vs) 0 rfl rfl h v

theorem OpenFields.encode_keeps (P : Promise) : (fs : OpenFields) →
    (g : (EncErr → EncErr) → EncErr → EncErr) → AuthorsFields P.KeptEnc fs → (v : fs.Val) →
    Keeps (fs.encode g v) (openWireFields P fs v) (OpenEncodableFields P fs v)
  | .nil, _, _, _ => .pure trivial
  | .cons t fs, g, h, v =>
    ((Open.encode_keeps P t h.1 v.1).mapErr _).bind (OpenFields.encode_keeps P fs g h.2 v.2)

theorem OpenVariants.encode_keeps (P : Promise) : (vs : OpenVariants) → (r : Repr) →
    (prev : Option Nat) → (explicit : List (Option Nat)) → (j : Nat) →
    (explicit.drop j = openDiscs vs) →
    (prev = if j = 0 then none else some (discOf explicit (j - 1))) →
    AuthorsVariants P.KeptEnc vs → (v : vs.Val) →
    Keeps (vs.encode r prev v) (openWireVariants P r explicit vs j v)
      (OpenEncodableVariants P r explicit vs j v)
  | .nil, _, _, _, _, _, _, _, v => nomatch v
  | .cons d fs vs, r, prev, explicit, j, h, hp, ha, .inl v => by
    have hd : discOf explicit j = nextDisc prev d := by
      rw [hp]
      apply discOf_step
      have := congrArg (·[0]?) h
      simpa [openDiscs] using this
    show Keeps _ (reprWire r (discOf explicit j) ++ openWireFields P fs v)
      (ReprEncodable r (discOf explicit j) ∧ OpenEncodableFields P fs v)
    rw [hd]
    exact ((encRepr_keeps r (nextDisc prev d)).mapErr .badDiscriminant).bind
      (OpenFields.encode_keeps P fs _ ha.1 v)
  | .cons d fs vs, r, prev, explicit, j, h, hp, ha, .inr v => by
    have hd : discOf explicit j = nextDisc prev d := by
      rw [hp]
      apply discOf_step
      have := congrArg (·[0]?) h
      simpa [openDiscs] using this
    have hdrop : explicit.drop (j + 1) = openDiscs vs := by
      have := congrArg List.tail h
      simpa [openDiscs] using this
    exact OpenVariants.encode_keeps P vs r (some (nextDisc prev d)) explicit (j + 1) hdrop
      (by simp [hd]) ha.2 v

end

mutual

theorem Open.decode_decodes (P : Promise) : (t : Open) → Authors P.KeptDec t → t.WF → (v : t.Val) →
    Full t v → OpenEncodable P t v → Decodes t.decode (openWire P t v) (openCarried P t v)
  | .impl T, h, _, v, _, he => h v he
  | .wrap _ t, h, hw, v, hs, he => Open.decode_decodes P t h hw v hs he
  | .array t n, h, hw, v, hs, he =>
    decItems_decodes n v.val v.property
      (fun x hx => Open.decode_decodes P t h hw x (hs x hx) (he x hx)) 0
  | .seq _ t, h, hw, v, hs, he =>
    decSeq_decodes v he.1 (fun x hx => Open.decode_decodes P t h hw x (hs x hx) (he.2 x hx))
  | .hashMap _ _, _, _, _, hs, _ => hs.elim
  | .hashSet _, _, _, _, hs, _ => hs.elim
  | .option t, h, hw, none, hs, he => (decBool_decodes false).map rfl
  | .option t, h, hw, some v, hs, he =>
    (decBool_decodes true).bind ((Open.decode_decodes P t h hw v hs he).map rfl)
  | .result t e _, h, hw, .ok v, hs, he =>
    (decBool_decodes false).bind (((Open.decode_decodes P t h.1 hw.1 v hs he).mapErr _).map rfl)
  | .result t e _, h, hw, .err v, hs, he =>
    (decBool_decodes true).bind (((Open.decode_decodes P e h.2 hw.2 v hs he).mapErr _).map rfl)
  | .bound t, h, hw, .included v, hs, he =>
    (decU8_decodes 0 (by omega)).bind (((Open.decode_decodes P t h hw v hs he).mapErr _).map rfl)
  | .bound t, h, hw, .excluded v, hs, he =>
    (decU8_decodes 1 (by omega)).bind (((Open.decode_decodes P t h hw v hs he).mapErr _).map rfl)
  | .bound t, h, hw, .unbounded, hs, he => (decU8_decodes 2 (by omega)).map rfl
  | .range t, h, hw, v, hs, he =>
    (Open.decode_decodes P t h hw v.start hs.1 he.1).bind
      ((Open.decode_decodes P t h hw v.stop hs.2 he.2).map rfl)
  | .rangeInclusive t, h, hw, v, hs, he =>
    (Open.decode_decodes P t h hw v.start hs.1 he.1).bind
      ((Open.decode_decodes P t h hw v.stop hs.2 he.2).map rfl)
  | .lock _ t, h, hw, v, hs, he => (Open.decode_decodes P t h hw v.val hs he).map rfl
  | .refCell t, h, hw, v, hs, he => (Open.decode_decodes P t h hw v.val hs he.2).map rfl
  | .sizedSlice t n, h, hw, v, hs, he =>
    decSizedSlice_decodes n v.val v.property (.inl hs.1) he.1
      (fun x hx => Open.decode_decodes P t h hw x (hs.2 x hx) (he.2 x hx))
  | .tuple fs, h, hw, v, hs, he => OpenFields.decode_decodes P fs _ h hw v hs he
  | .struct fs, h, hw, v, hs, he => OpenFields.decode_decodes P fs _ h hw v hs he
  | .enum r vs, h, hw, v, hs, he => by
    obtain ⟨d, fw, h1, h2, h3, h4⟩ := OpenVariants.decode_decodes P vs r none (openDiscs vs) 0
      rfl rfl h hw.1 hw.2.2 v hs he
    show Decodes _ (openWireVariants P r (openDiscs vs) vs 0 v) _
    rw [h1]
    exact (decRepr_decodes r d (hw.2.1 d h2).1 h3).bind h4

theorem OpenFields.decode_decodes (P : Promise) : (fs : OpenFields) →
    (g : (DecErr → DecErr) → DecErr → DecErr) → AuthorsFields P.KeptDec fs → fs.WF → (v : fs.Val) →
    FullFields fs v → OpenEncodableFields P fs v →
    Decodes (fs.decode g) (openWireFields P fs v) (openCarriedFields P fs v)
  | .nil, _, _, _, _, _, _ => Decodes.pure _
  | .cons t fs, g, h, hw, v, hs, he =>
    ((Open.decode_decodes P t h.1 hw.1 v.1 hs.1 he.1).mapErr _).bind
      ((OpenFields.decode_decodes P fs g h.2 hw.2 v.2 hs.2 he.2).map rfl)

theorem OpenVariants.decode_decodes (P : Promise) : (vs : OpenVariants) → (r : Repr) →
    (prev : Option Nat) → (explicit : List (Option Nat)) → (j : Nat) →
    (explicit.drop j = openDiscs vs) →
    (prev = if j = 0 then none else some (discOf explicit (j - 1))) →
    AuthorsVariants P.KeptDec vs → (vs.discs prev).Nodup → vs.WF → (v : vs.Val) →
    FullVariants vs v → OpenEncodableVariants P r explicit vs j v →
    ∃ (d : Nat) (fw : List Byte), openWireVariants P r explicit vs j v = reprWire r d ++ fw ∧
      d ∈ vs.discs prev ∧ ReprEncodable r d ∧
      Decodes (vs.decode prev d) fw (openCarriedVariants P vs v)
  | .nil, _, _, _, _, _, _, _, _, _, v, _, _ => nomatch v
  | .cons d fs vs, r, prev, explicit, j, h, hp, ha, hn, hw, .inl v, hs, he => by
    have hd : discOf explicit j = nextDisc prev d := by
      rw [hp]
      apply discOf_step
      have := congrArg (·[0]?) h
      simpa [openDiscs] using this
    refine ⟨nextDisc prev d, openWireFields P fs v, ?_, by simp [OpenVariants.discs], ?_, ?_⟩
    · show reprWire r (discOf explicit j) ++ openWireFields P fs v = _
      rw [hd]
    · rw [← hd]; exact he.1
    · show Decodes (if _ then _ else _) _ _
      rw [if_pos rfl]
      exact (OpenFields.decode_decodes P fs _ ha.1 hw.1 v hs he.2).map rfl
  | .cons d fs vs, r, prev, explicit, j, h, hp, ha, hn, hw, .inr v, hs, he => by
    have hd : discOf explicit j = nextDisc prev d := by
      rw [hp]
      apply discOf_step
      have := congrArg (·[0]?) h
      simpa [openDiscs] using this
    have hdrop : explicit.drop (j + 1) = openDiscs vs := by
      have := congrArg List.tail h
      simpa [openDiscs] using this
    simp only [OpenVariants.discs, List.nodup_cons] at hn
    obtain ⟨x, fw, h1, h2, h3, h4⟩ := OpenVariants.decode_decodes P vs r (some (nextDisc prev d))
      explicit (j + 1) hdrop (by simp [hd]) ha.2 hn.2 hw.2 v hs he
    refine ⟨x, fw, h1, by simp [OpenVariants.discs, h2], h3, ?_⟩
    show Decodes (if _ then _ else _) _ _
    rw [if_neg (by intro e; have : x = nextDisc prev d := by omega
                   exact hn.1 (this ▸ h2))]
    exact h4.map rfl

end

theorem flatMap_length_le {α : Type} (w : α → List Byte) (k : Nat) (l : List α)
    (h : ∀ x ∈ l, (w x).length ≤ k) : (l.flatMap w).length ≤ k * l.length := by
  induction l with
  | nil => simp
  | cons a l ih =>
    have h1 := h a (by simp)
    have h2 := ih fun x hx => h x (by simp [hx])
    simp only [List.flatMap_cons, List.length_append, List.length_cons, Nat.mul_add, Nat.mul_one]
    omega

theorem reprWire_length (r : Repr) (x : Int) : (reprWire r x).length = r.bytes := leBytes_length _ _

mutual

theorem openWire_length (P : Promise) (sizeOf : Open → Nat) : (t : Open) → Authors P.KeptMax t →
    t.HasSized → OpenBounded t → (v : t.Val) → OpenEncodable P t v →
    (openWire P t v).length ≤ t.maxSize sizeOf
  | .impl T, h, _, _, v, he => h v he
  | .wrap _ t, h, hz, hb, v, he => openWire_length P sizeOf t h hz hb v he
  | .array t n, h, hz, hb, v, he => by
    have := flatMap_length_le _ _ v.val fun x hx => openWire_length P sizeOf t h hz hb x (he x hx)
    rw [v.property] at this
    exact this
  | .seq _ _, _, hz, _, _, _ => hz.elim
  | .hashMap _ _, _, hz, _, _, _ => hz.elim
  | .hashSet _, _, hz, _, _, _ => hz.elim
  | .option t, h, hz, hb, none, he => by
    show 1 ≤ 1 + _
    omega
  | .option t, h, hz, hb, some v, he => by
    have := openWire_length P sizeOf t h hz hb v he
    show (openWire P t v).length + 1 ≤ 1 + _
    omega
  | .result _ _ _, _, _, hb, _, _ => hb.elim
  | .bound t, h, hz, hb, .included v, he => by
    have := openWire_length P sizeOf t h hz hb v he
    show (openWire P t v).length + 1 ≤ 1 + _
    omega
  | .bound t, h, hz, hb, .excluded v, he => by
    have := openWire_length P sizeOf t h hz hb v he
    show (openWire P t v).length + 1 ≤ 1 + _
    omega
  | .bound t, h, hz, hb, .unbounded, he => by
    show 1 ≤ 1 + _
    omega
  | .range t, h, hz, hb, v, he => by
    have h1 := openWire_length P sizeOf t h hz hb v.start he.1
    have h2 := openWire_length P sizeOf t h hz hb v.stop he.2
    show (openWire P t v.start ++ openWire P t v.stop).length ≤ t.maxSize sizeOf * 2
    rw [List.length_append]
    omega
  | .rangeInclusive t, h, hz, hb, v, he => by
    have h1 := openWire_length P sizeOf t h hz hb v.start he.1
    have h2 := openWire_length P sizeOf t h hz hb v.stop he.2
    show (openWire P t v.start ++ openWire P t v.stop).length ≤ t.maxSize sizeOf * 2
    rw [List.length_append]
    omega
  | .lock _ t, h, hz, hb, v, he => openWire_length P sizeOf t h hz hb v.val he
  | .refCell t, h, hz, hb, v, he => openWire_length P sizeOf t h hz hb v.val he.2
  | .sizedSlice _ _, _, _, hb, _, _ => hb.elim
  | .tuple fs, h, hz, hb, v, he => openWireFields_length P sizeOf fs h hz hb v he
  | .struct fs, h, hz, hb, v, he => openWireFields_length P sizeOf fs h hz hb v he
  | .enum r vs, h, hz, hb, v, he => openWireVariants_length P sizeOf r (openDiscs vs) vs 0 h hz hb v he

theorem openWireFields_length (P : Promise) (sizeOf : Open → Nat) : (fs : OpenFields) →
    AuthorsFields P.KeptMax fs → fs.HasSized → OpenBoundedFields fs → (v : fs.Val) →
    OpenEncodableFields P fs v → (openWireFields P fs v).length ≤ fs.maxSize sizeOf
  | .nil, _, _, _, _, _ => Nat.le_refl _
  | .cons t fs, h, hz, hb, v, he => by
    have h1 := openWire_length P sizeOf t h.1 hz.1 hb.1 v.1 he.1
    have h2 := openWireFields_length P sizeOf fs h.2 hz.2 hb.2 v.2 he.2
    show (openWire P t v.1 ++ openWireFields P fs v.2).length ≤ t.maxSize sizeOf + fs.maxSize sizeOf
    rw [List.length_append]
    omega

theorem openWireVariants_length (P : Promise) (sizeOf : Open → Nat) (r : Repr)
    (explicit : List (Option Nat)) : (vs : OpenVariants) → (j : Nat) →
    AuthorsVariants P.KeptMax vs → vs.HasSized → OpenBoundedVariants vs → (v : vs.Val) →
    OpenEncodableVariants P r explicit vs j v →
    (openWireVariants P r explicit vs j v).length ≤ vs.maxSize sizeOf r
  | .nil, _, _, _, _, v, _ => nomatch v
  | .cons _ fs vs, j, h, hz, hb, .inl v, he => by
    have h1 := openWireFields_length P sizeOf fs h.1 hz.1 hb.1 v he.2
    show (reprWire r (discOf explicit j) ++ openWireFields P fs v).length
      ≤ max (fs.maxSize sizeOf + r.bytes) (vs.maxSize sizeOf r)
    rw [List.length_append, reprWire_length]
    omega
  | .cons _ fs vs, j, h, hz, hb, .inr v, he => by
    have h1 := openWireVariants_length P sizeOf r explicit vs (j + 1) h.2 hz.2 hb.2 v he
    show (openWireVariants P r explicit vs (j + 1) v).length
      ≤ max (fs.maxSize sizeOf + r.bytes) (vs.maxSize sizeOf r)
    omega

end

end Oct
