import Verif.Proofs.Encode
import Verif.Spec.Refuses
/- `Ty.encode` fails exactly as `Spec.Refuses` tells. -/
namespace Oct
open Spec
set_option linter.unusedVariables false

theorem Output.put_inj {o : Output} {w w' : List Byte} (h : o.put w = o.put w') : w = w' := by
  unfold Output.put at h
  have h1 := congrArg Output.pos h
  have h2 := congrArg Output.buf h
  have hl : w.length = w'.length := by simpa using h1
  dsimp only at h2
  rw [List.append_assoc, List.append_assoc] at h2
  exact (List.append_inj (List.append_cancel_left h2) hl).1

theorem Emits.unique {m : Enc Unit} {w w' : List Byte} {r r' : Res EncErr Unit} (h : Emits m w r)
    (h' : Emits m w' r') : w = w' ∧ r = r' := by
  let o : Output := ⟨List.replicate (w.length + w'.length) 0, 0⟩
  have ho : o.WF := Nat.zero_le _
  have hr : o.remaining = w.length + w'.length := by
    simp [o, Output.remaining, Output.capacity, Output.position]
  have h1 := (h o ho).1 (by omega)
  have h2 := (h' o ho).1 (by omega)
  rw [h1] at h2
  exact ⟨Output.put_inj (Prod.mk.inj h2).2, (Prod.mk.inj h2).1⟩

/-- `m` fails exactly with the octets and errors of `R`. -/
def Refuse (m : Enc Unit) (R : List Byte → EncErr → Prop) : Prop :=
  ∃ w r, Emits m w r ∧ ∀ bs e, R bs e ↔ bs = w ∧ r = .err e

namespace Refuse
variable {m : Enc Unit} {f : Unit → Enc Unit} {w : List Byte} {E : Prop}
  {R R' : List Byte → EncErr → Prop}

theorem congr (h : Refuse m R) (hR : ∀ bs e, R bs e ↔ R' bs e) : Refuse m R' := by
  obtain ⟨w, r, h1, h2⟩ := h
  exact ⟨w, r, h1, fun bs e => (hR bs e).symm.trans (h2 bs e)⟩

theorem of_not_err {r : Res EncErr Unit} (h : Emits m w r) (hr : ∀ e, r ≠ .err e) :
    Refuse m (fun _ _ => False) :=
  ⟨w, r, h, fun bs e => ⟨False.elim, fun h => hr e h.2⟩⟩

theorem of_encodes (h : Encodes m w True) : Refuse m (fun _ _ => False) :=
  of_not_err (h.emits trivial) (fun e => by simp)

theorem fail (e : EncErr) : Refuse (Enc.fail e) (fun bs e' => bs = [] ∧ e' = e) :=
  ⟨[], .err e, Emits.fail e, fun bs e' => by
    constructor
    · rintro ⟨rfl, rfl⟩; exact ⟨rfl, rfl⟩
    · rintro ⟨rfl, h⟩; exact ⟨rfl, (Res.err.inj h).symm⟩⟩

theorem mapErr (g : EncErr → EncErr) (h : Refuse m R) :
    Refuse (m.mapErr g) (fun bs e => ∃ e', R bs e' ∧ e = g e') := by
  obtain ⟨w, r, h1, h2⟩ := h
  refine ⟨w, _, h1.mapErr g, fun bs e => ?_⟩
  constructor
  · rintro ⟨e', hR, rfl⟩
    obtain ⟨hb, rfl⟩ := (h2 bs e').mp hR
    exact ⟨hb, rfl⟩
  · rintro ⟨rfl, hr⟩
    cases r with
    | err e' => exact ⟨e', (h2 _ _).mpr ⟨rfl, rfl⟩, (Res.err.inj hr).symm⟩
    | ok a => cases hr
    | panic p => cases hr
    | ub u => cases hr

theorem bind (hE : Encodes m w E) (h : Refuse m R) (hf : Refuse (f ()) R') :
    Refuse (m.bind f) (fun bs e => R bs e ∨ (E ∧ ∃ b, bs = w ++ b ∧ R' b e)) := by
  obtain ⟨w1, r1, h1, h1'⟩ := h
  obtain ⟨w2, r2, h2, h2'⟩ := hf
  obtain ⟨w', r', h3, h4, h5⟩ := hE
  obtain ⟨rfl, rfl⟩ := h3.unique h1
  by_cases hr : r' = .ok ()
  · have e := h4.mp hr
    have := h5 e
    subst this hr
    refine ⟨_, _, h3.bind_ok h2, fun bs e' => ?_⟩
    constructor
    · rintro (hR | ⟨_, b, rfl, hR⟩)
      · exact absurd ((h1' _ _).mp hR).2 (by simp)
      · obtain ⟨rfl, hr⟩ := (h2' _ _).mp hR
        exact ⟨rfl, hr⟩
    · rintro ⟨rfl, hr⟩
      exact .inr ⟨e, _, rfl, (h2' _ _).mpr ⟨rfl, hr⟩⟩
  · refine ⟨_, _, h3.bind_stop hr, fun bs e' => ?_⟩
    constructor
    · rintro (hR | ⟨e, _⟩)
      · exact (h1' _ _).mp hR
      · exact absurd (h4.mpr e) hr
    · intro h
      exact .inl ((h1' _ _).mpr h)

/-- `bind` after something that cannot fail. -/
theorem after (hE : Encodes m w True) (hf : Refuse (f ()) R) :
    Refuse (m.bind f) (fun bs e => ∃ b, bs = w ++ b ∧ R b e) :=
  (bind hE (of_encodes hE) hf).congr fun bs e => by simp

end Refuse

theorem encUsize_refuses (n : Nat) :
    Refuse (encUsize n) (fun bs e => 65535 < n ∧ bs = [] ∧ e = .usize n) := by
  by_cases h : n ≤ 65535
  · unfold encUsize
    rw [if_pos h]
    exact (Refuse.of_not_err (encNum_emits 2 n) (by simp)).congr fun bs e => by
      simp only [false_iff]; omega
  · unfold encUsize
    rw [if_neg h]
    exact (Refuse.fail _).congr fun bs e => by
      simp only [Nat.lt_of_not_le h, true_and]

theorem encIsize_refuses (x : Int) :
    Refuse (encIsize x) (fun bs e => (x < -32768 ∨ 32767 < x) ∧ bs = [] ∧ e = .isize x) := by
  by_cases h : -32768 ≤ x ∧ x ≤ 32767
  · unfold encIsize
    rw [if_pos h]
    exact (Refuse.of_not_err (encNum_emits 2 _) (by simp)).congr fun bs e => by
      simp only [false_iff]; omega
  · unfold encIsize
    rw [if_neg h]
    have : x < -32768 ∨ 32767 < x := by omega
    exact (Refuse.fail _).congr fun bs e => by simp only [this, true_and]

theorem encRepr_refuses (r : Repr) (x : Int) (hx : r.InRange x ∨ 0 ≤ x) :
    Refuse (encRepr r x) (fun bs e => bs = [] ∧ RefusesRepr r x e) := by
  cases r with
  | int k =>
    exact (Refuse.of_not_err (encNum_emits _ _) (by simp)).congr fun bs e => by simp [RefusesRepr]
  | usize =>
    have h0 : 0 ≤ x := by rcases hx with h | h <;> exact h
    exact (encUsize_refuses x.toNat).congr fun bs e => by
      simp only [RefusesRepr]
      constructor
      · rintro ⟨h, hb, he⟩; exact ⟨hb, by omega, he⟩
      · rintro ⟨hb, h, he⟩; exact ⟨by omega, hb, he⟩
  | isize =>
    exact (encIsize_refuses x).congr fun bs e => by
      simp only [RefusesRepr]
      constructor
      · rintro ⟨h, hb, he⟩; exact ⟨hb, h, he⟩
      · rintro ⟨hb, h, he⟩; exact ⟨h, hb, he⟩

theorem itemRefused_cons {α : Type} {w : α → List Byte} {E : α → Prop}
    {R : α → List Byte → EncErr → Prop} {wrap : Nat → EncErr → EncErr} {a : α} {l : List α}
    {bs : List Byte} {e : EncErr} :
    ItemRefused w E R wrap (a :: l) bs e ↔
    (∃ e', R a bs e' ∧ e = wrap 0 e') ∨
    (E a ∧ ∃ b, bs = w a ++ b ∧ ItemRefused w E R (fun i => wrap (i + 1)) l b e) := by
  constructor
  · rintro ⟨pre, x, post, b, e', hl, hp, hR, hb, he⟩
    cases pre with
    | nil =>
      simp only [List.nil_append, List.cons.injEq] at hl
      obtain ⟨rfl, rfl⟩ := hl
      simp only [List.flatMap_nil, List.nil_append] at hb
      subst hb
      exact .inl ⟨e', hR, he⟩
    | cons y pre =>
      simp only [List.cons_append, List.cons.injEq] at hl
      obtain ⟨rfl, rfl⟩ := hl
      refine .inr ⟨hp _ (by simp), pre.flatMap w ++ b, ?_, pre, x, post, b, e', rfl,
        fun y hy => hp y (by simp [hy]), hR, rfl, he⟩
      rw [hb, List.flatMap_cons, List.append_assoc]
  · rintro (⟨e', hR, he⟩ | ⟨hE, b, rfl, pre, x, post, b', e', rfl, hp, hR, rfl, he⟩)
    · exact ⟨[], a, l, bs, e', rfl, by simp, hR, rfl, he⟩
    · refine ⟨a :: pre, x, post, b', e', rfl, ?_, hR, ?_, he⟩
      · intro y hy
        rcases List.mem_cons.mp hy with rfl | hy
        · exact hE
        · exact hp y hy
      · rw [List.flatMap_cons, List.append_assoc]

theorem not_itemRefused_nil {α : Type} {w : α → List Byte} {E : α → Prop}
    {R : α → List Byte → EncErr → Prop} {wrap : Nat → EncErr → EncErr}
    {bs : List Byte} {e : EncErr} : ¬ ItemRefused w E R wrap [] bs e := by
  rintro ⟨pre, x, post, b, e', hl, _⟩
  cases pre <;> cases hl

theorem encItems_refuses {α : Type} {enc : α → Enc Unit} {w : α → List Byte} {E : α → Prop}
    {R : α → List Byte → EncErr → Prop}
    (h : ∀ a, Encodes (enc a) (w a) (E a)) (hR : ∀ a, Refuse (enc a) (R a))
    (wrap : Nat → EncErr → EncErr) (l : List α) (i : Nat) :
    Refuse (encItems enc wrap i l) (ItemRefused w E R (fun j => wrap (i + j)) l) := by
  induction l generalizing i with
  | nil =>
    exact (Refuse.of_not_err Emits.pure (by simp)).congr fun bs e =>
      ⟨False.elim, fun h => not_itemRefused_nil h⟩
  | cons a l ih =>
    have := Refuse.bind (f := fun _ => encItems enc wrap (i + 1) l)
      ((h a).mapErr (wrap i)) ((hR a).mapErr (wrap i)) (ih (i + 1))
    refine this.congr fun bs e => ?_
    rw [itemRefused_cons]
    have e1 : (fun j => wrap (i + 1 + j)) = fun j => wrap (i + (j + 1)) := by
      funext j; congr 1; omega
    rw [e1]
    exact Iff.rfl

theorem encArray_refuses {α : Type} {enc : α → Enc Unit} {w : α → List Byte} {E : α → Prop}
    {R : α → List Byte → EncErr → Prop}
    (h : ∀ a, Encodes (enc a) (w a) (E a)) (hR : ∀ a, Refuse (enc a) (R a)) (l : List α) :
    Refuse (encArray enc l) (ItemRefused w E R (fun i e => .badItem (.item i e)) l) :=
  (encItems_refuses h hR _ l 0).congr fun bs e => by simp only [Nat.zero_add]

theorem prefixed_refuses {α : Type} {enc : α → Enc Unit} {w : α → List Byte} {E : α → Prop}
    {R : α → List Byte → EncErr → Prop}
    (h : ∀ a, Encodes (enc a) (w a) (E a)) (hR : ∀ a, Refuse (enc a) (R a))
    (wrap : Nat → EncErr → EncErr) (l : List α) :
    Refuse (((encUsize l.length).mapErr .badLength).bind fun _ => encItems enc wrap 0 l)
      (fun bs e => LongRefused l.length bs e ∨ (l.length ≤ 65535 ∧
        ∃ b, bs = leBytes 2 l.length ++ b ∧ ItemRefused w E R wrap l b e)) := by
  have := Refuse.bind (f := fun _ => encItems enc wrap 0 l)
    ((encUsize_encodes l.length).mapErr .badLength) ((encUsize_refuses l.length).mapErr .badLength)
    (encItems_refuses h hR wrap l 0)
  refine this.congr fun bs e => ?_
  simp only [Nat.zero_add]
  apply or_congr_left
  constructor
  · rintro ⟨e', ⟨h1, h2, rfl⟩, rfl⟩; exact ⟨h1, h2, rfl⟩
  · rintro ⟨h1, h2, rfl⟩; exact ⟨_, ⟨h1, h2, rfl⟩, rfl⟩

theorem encBytes_refuses (bs : List Byte) : Refuse (encBytes bs) (LongRefused bs.length) := by
  have := prefixed_refuses (enc := fun b : Byte => encU8 b.toNat) (E := fun _ => True)
    (R := fun _ _ _ => False)
    (fun b => encU8_encodes b.toNat trivial) (fun b => Refuse.of_encodes (encU8_encodes b.toNat trivial))
    (fun i e => .badItem (.item i e)) bs
  refine this.congr fun b e => ?_
  constructor
  · rintro (h | ⟨_, _, _, _, _, _, _, _, _, _, h, _⟩)
    · exact h
    · exact h.elim
  · exact .inl

theorem encHashMap_refuses {α β : Type} {encK : α → Enc Unit} {encV : β → Enc Unit}
    {wk : α → List Byte} {wv : β → List Byte} {Ek : α → Prop} {Ev : β → Prop}
    {Rk : α → List Byte → EncErr → Prop} {Rv : β → List Byte → EncErr → Prop}
    (hk : ∀ a, Encodes (encK a) (wk a) (Ek a)) (hv : ∀ a, Encodes (encV a) (wv a) (Ev a))
    (rk : ∀ a, Refuse (encK a) (Rk a)) (rv : ∀ a, Refuse (encV a) (Rv a)) (l : List (α × β)) :
    Refuse (encHashMap encK encV l)
      (ItemRefused (fun p : α × β => wk p.1 ++ wv p.2) (fun p => Ek p.1 ∧ Ev p.2)
        (fun p bs e => Rk p.1 bs e ∨ (Ek p.1 ∧ ∃ b, bs = wk p.1 ++ b ∧ Rv p.2 b e))
        (fun _ e => e) l) := by
  induction l with
  | nil =>
    exact (Refuse.of_not_err Emits.pure (by simp)).congr fun bs e =>
      ⟨False.elim, fun h => not_itemRefused_nil h⟩
  | cons p l ih =>
    obtain ⟨k, v⟩ := p
    have := Refuse.bind (f := fun _ => (encV v).bind fun _ => encHashMap encK encV l) (hk k) (rk k)
      (Refuse.bind (f := fun _ => encHashMap encK encV l) (hv v) (rv v) ih)
    refine this.congr fun bs e => ?_
    rw [itemRefused_cons]
    constructor
    · rintro (h | ⟨hE, b, rfl, h | ⟨hE', b', rfl, h⟩⟩)
      · exact .inl ⟨e, .inl h, rfl⟩
      · exact .inl ⟨e, .inr ⟨hE, b, rfl, h⟩, rfl⟩
      · exact .inr ⟨⟨hE, hE'⟩, b', by simp, h⟩
    · rintro (⟨e', h | ⟨hE, b, rfl, h⟩, rfl⟩ | ⟨⟨hE, hE'⟩, b', rfl, h⟩)
      · exact .inl h
      · exact .inr ⟨hE, b, rfl, .inl h⟩
      · exact .inr ⟨hE, wv v ++ b', by simp, .inr ⟨hE', b', rfl, h⟩⟩

theorem encHashSet_refuses {α : Type} {encK : α → Enc Unit}
    {wk : α → List Byte} {Ek : α → Prop} {Rk : α → List Byte → EncErr → Prop}
    (hk : ∀ a, Encodes (encK a) (wk a) (Ek a)) (rk : ∀ a, Refuse (encK a) (Rk a)) (l : List α) :
    Refuse (encHashSet encK l) (ItemRefused wk Ek Rk (fun _ e => e) l) := by
  induction l with
  | nil =>
    exact (Refuse.of_not_err Emits.pure (by simp)).congr fun bs e =>
      ⟨False.elim, fun h => not_itemRefused_nil h⟩
  | cons k l ih =>
    have := Refuse.bind (f := fun _ => encHashSet encK l) (hk k) (rk k) ih
    refine this.congr fun bs e => ?_
    rw [itemRefused_cons]
    apply or_congr_left
    constructor
    · intro h; exact ⟨e, h, rfl⟩
    · rintro ⟨e', h, rfl⟩; exact h

theorem encSystemTime_refuses (p : TimePlatform) (ns : Int) :
    Refuse (encSystemTime p ns) (fun _ _ => False) := by
  unfold encSystemTime
  split
  · exact Refuse.of_not_err (encNum_emits _ _) (by simp)
  · dsimp only
    split
    · split
      · exact Refuse.of_not_err (Emits.panic _) (by simp)
      · exact Refuse.of_not_err (encNum_emits _ _) (by simp)
    · exact Refuse.of_not_err (encNum_emits _ _) (by simp)

theorem errorIsGeneric_iff : (t : Ty) → (errorIsGeneric t ↔ t.encErrGeneric = true)
  | .num _ | .bool | .char | .usize | .isize | .nonZero _ | .unit _ | .infallible | .array _ _
  | .seq _ _ | .bound _ | .refCell _ | .duration | .systemTime _ | .ipv4 | .ipv6 | .ipAddr
  | .socketAddrV4 | .socketAddrV6 | .socketAddr | .str _ | .cStr _ | .sizedStr _ | .sizedSlice _ _
  | .enum _ _ | .tuple .nil => ⟨False.elim, fun h => nomatch h⟩
  | .struct _ => ⟨fun _ => rfl, fun _ => trivial⟩
  | .wrap _ t => errorIsGeneric_iff t
  | .option t => errorIsGeneric_iff t
  | .range t => errorIsGeneric_iff t
  | .rangeInclusive t => errorIsGeneric_iff t
  | .lock _ t => errorIsGeneric_iff t
  | .hashMap k _ => errorIsGeneric_iff k
  | .hashSet k => errorIsGeneric_iff k
  | .result t _ => errorIsGeneric_iff t
  | .tuple (.cons t _) => errorIsGeneric_iff t

mutual

theorem Ty.encode_refuses : (t : Ty) → (v : t.Val) → Refuse (t.encode v) (Refuses t v)
  | .num k, v => Refuse.of_not_err (encNum_emits _ _) (by simp)
  | .bool, v => Refuse.of_encodes (encBool_encodes v trivial)
  | .char, v => Refuse.of_not_err (encNum_emits _ _) (by simp)
  | .usize, v => encUsize_refuses v
  | .isize, v => encIsize_refuses v
  | .nonZero r, v => encRepr_refuses r v.val (.inl v.property.1)
  | .unit _, _ => Refuse.of_not_err Emits.pure (by simp)
  | .infallible, v => nomatch v
  | .wrap _ t, v => Ty.encode_refuses t v
  | .array t _, v => encArray_refuses (Ty.encode_encodes t) (Ty.encode_refuses t) v.val
  | .seq .slice t, v => prefixed_refuses (Ty.encode_encodes t) (Ty.encode_refuses t) _ v
  | .seq .vec t, v => prefixed_refuses (Ty.encode_encodes t) (Ty.encode_refuses t) _ v
  | .seq .linkedList t, v => prefixed_refuses (Ty.encode_encodes t) (Ty.encode_refuses t) _ v
  | .hashMap k v, m =>
    encHashMap_refuses (Ty.encode_encodes k) (Ty.encode_encodes v) (Ty.encode_refuses k)
      (Ty.encode_refuses v) m.val
  | .hashSet k, s => encHashSet_refuses (Ty.encode_encodes k) (Ty.encode_refuses k) s.val
  | .option t, none => Refuse.of_encodes (encBool_encodes false trivial)
  | .option t, some v => Refuse.after (encBool_encodes true trivial) (Ty.encode_refuses t v)
  | .result t e, .ok v => Refuse.after (encBool_encodes false trivial) (Ty.encode_refuses t v)
  | .result t e, .err v =>
    (Refuse.after (f := fun _ => (e.encode v).mapErr
        (if t.encErrGeneric then EncErr.toGeneric else id))
      (encBool_encodes true trivial) ((Ty.encode_refuses e v).mapErr _)).congr fun bs e' => by
      have hg := errorIsGeneric_iff t
      constructor
      · rintro ⟨b, rfl, e0, hR, rfl⟩
        refine ⟨b, e0, rfl, hR, ?_⟩
        cases h : t.encErrGeneric with
        | true => exact .inl ⟨hg.mpr h, rfl⟩
        | false => exact .inr ⟨fun c => absurd (h.symm.trans (hg.mp c)) (by decide), rfl⟩
      · rintro ⟨b, e0, rfl, hR, ⟨h, rfl⟩ | ⟨h, rfl⟩⟩
        · exact ⟨b, rfl, e0, hR, by rw [hg.mp h]; rfl⟩
        · refine ⟨b, rfl, e', hR, ?_⟩
          rw [if_neg (fun c => h (hg.mpr c))]; rfl
  | .bound t, .included v =>
    (Refuse.after (f := fun _ => (t.encode v).mapErr .badField) (encU8_encodes 0 trivial)
      ((Ty.encode_refuses t v).mapErr _)).congr fun bs e => by
      constructor
      · rintro ⟨b, rfl, e', h, rfl⟩; exact ⟨b, e', rfl, h, rfl⟩
      · rintro ⟨b, e', rfl, h, rfl⟩; exact ⟨b, rfl, e', h, rfl⟩
  | .bound t, .excluded v =>
    (Refuse.after (f := fun _ => (t.encode v).mapErr .badField) (encU8_encodes 1 trivial)
      ((Ty.encode_refuses t v).mapErr _)).congr fun bs e => by
      constructor
      · rintro ⟨b, rfl, e', h, rfl⟩; exact ⟨b, e', rfl, h, rfl⟩
      · rintro ⟨b, e', rfl, h, rfl⟩; exact ⟨b, rfl, e', h, rfl⟩
  | .bound t, .unbounded => Refuse.of_encodes (encU8_encodes 2 trivial)
  | .range t, v =>
    Refuse.bind (Ty.encode_encodes t v.start) (Ty.encode_refuses t v.start) (Ty.encode_refuses t v.stop)
  | .rangeInclusive t, v =>
    Refuse.bind (Ty.encode_encodes t v.start) (Ty.encode_refuses t v.start) (Ty.encode_refuses t v.stop)
  | .lock _ t, v => Ty.encode_refuses t v.val
  | .refCell t, ⟨true, v⟩ => (Refuse.fail .badBorrow).congr fun bs e => by simp [Refuses]
  | .refCell t, ⟨false, v⟩ =>
    ((Ty.encode_refuses t v).mapErr .badValue).congr fun bs e => by simp [Refuses]
  | .duration, v => Refuse.of_encodes ((Ty.encode_encodes .duration v).congr (by simp [Encodable]) (fun _ => rfl))
  | .systemTime p, v => encSystemTime_refuses p v.val
  | .ipv4, v => Refuse.of_encodes (encIpv4_encodes v)
  | .ipv6, v => Refuse.of_encodes (encIpv6_encodes v)
  | .ipAddr, v => Refuse.of_encodes ((Ty.encode_encodes .ipAddr v).congr (by simp [Encodable]) (fun _ => rfl))
  | .socketAddrV4, v => Refuse.of_encodes (encSocketAddrV4_encodes v)
  | .socketAddrV6, v => Refuse.of_encodes (encSocketAddrV6_encodes v)
  | .socketAddr, v => Refuse.of_encodes ((Ty.encode_encodes .socketAddr v).congr (by simp [Encodable]) (fun _ => rfl))
  | .str _, v => encBytes_refuses v.val
  | .cStr _, v => encBytes_refuses v.val
  | .sizedStr _, v => encBytes_refuses v.val
  | .sizedSlice t _, v => prefixed_refuses (Ty.encode_encodes t) (Ty.encode_refuses t) _ v.val
  | .tuple fs, v => (Fields.encode_refuses fs id v).congr fun bs e => by
      constructor
      · rintro ⟨e', h, rfl⟩; exact h
      · intro h; exact ⟨e, h, rfl⟩
  | .struct fs, v => Fields.encode_refuses fs _ v
  | .enum r vs, v => Variants.encode_refuses vs r none (explicitDiscs vs) 0
      (by simp) (by simp) v

theorem Fields.encode_refuses : (fs : Fields) → (g : EncErr → EncErr) → (v : fs.Val) →
    Refuse (fs.encode g v) (fun bs e => ∃ e', RefusesFields fs v bs e' ∧ e = g e')
  | .nil, _, _ => (Refuse.of_not_err Emits.pure (by simp)).congr fun bs e => by
      simp [RefusesFields]
  | .cons t fs, g, v =>
    (Refuse.bind (f := fun _ => fs.encode g v.2) ((Ty.encode_encodes t v.1).mapErr g)
      ((Ty.encode_refuses t v.1).mapErr g) (Fields.encode_refuses fs g v.2)).congr fun bs e => by
      constructor
      · rintro (⟨e', h, rfl⟩ | ⟨hE, b, rfl, e', h, rfl⟩)
        · exact ⟨e', .inl h, rfl⟩
        · exact ⟨e', .inr ⟨hE, b, rfl, h⟩, rfl⟩
      · rintro ⟨e', h | ⟨hE, b, rfl, h⟩, rfl⟩
        · exact .inl ⟨e', h, rfl⟩
        · exact .inr ⟨hE, b, rfl, e', h, rfl⟩

theorem Variants.encode_refuses : (vs : Variants) → (r : Repr) → (prev : Option Nat) →
    (explicit : List (Option Nat)) → (j : Nat) → (explicit.drop j = explicitDiscs vs) →
    (prev = if j = 0 then none else some (discOf explicit (j - 1))) → (v : vs.Val) →
    Refuse (vs.encode r prev v) (RefusesVariants r explicit vs j v)
  | .nil, _, _, _, _, _, _, v => nomatch v
  | .cons d fs vs, r, prev, explicit, j, h, hp, .inl v => by
    have hd : discOf explicit j = nextDisc prev d := by
      rw [hp]
      apply discOf_step
      have := congrArg (·[0]?) h
      simpa [explicitDiscs] using this
    refine (Refuse.bind (f := fun _ => fs.encode (fun e => .badField e.toGeneric) v)
      ((encRepr_encodes r (nextDisc prev d) (.inr (by omega))).mapErr .badDiscriminant)
      ((encRepr_refuses r (nextDisc prev d) (.inr (by omega))).mapErr .badDiscriminant)
      (Fields.encode_refuses fs _ v)).congr fun bs e => ?_
    rw [← hd]
    constructor
    · rintro (⟨e', ⟨rfl, h⟩, rfl⟩ | ⟨hE, b, rfl, e', h, rfl⟩)
      · exact .inl ⟨rfl, e', h, rfl⟩
      · exact .inr ⟨hE, b, e', rfl, h, rfl⟩
    · rintro (⟨rfl, e', h, rfl⟩ | ⟨hE, b, e', rfl, h, rfl⟩)
      · exact .inl ⟨e', ⟨rfl, h⟩, rfl⟩
      · exact .inr ⟨hE, b, rfl, e', h, rfl⟩
  | .cons d fs vs, r, prev, explicit, j, h, hp, .inr v => by
    have hd : discOf explicit j = nextDisc prev d := by
      rw [hp]
      apply discOf_step
      have := congrArg (·[0]?) h
      simpa [explicitDiscs] using this
    have hdrop : explicit.drop (j + 1) = explicitDiscs vs := by
      have := congrArg List.tail h
      simpa [explicitDiscs] using this
    exact Variants.encode_refuses vs r (some (nextDisc prev d)) explicit (j + 1) hdrop
      (by simp [hd]) v

end

end Oct
