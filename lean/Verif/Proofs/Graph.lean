import Verif.Proofs.Encode
import Verif.Proofs.RecursiveEnds
import Verif.Spec.Graph
/- Lemmas for C125: objects that refer to each other. -/
set_option linter.unusedVariables false
namespace Oct
open Spec

/-- A relation of encoders that what is made of related encoders keeps. -/
structure EncRel (R : Enc Unit → Enc Unit → Prop) : Prop where
  prim : ∀ {m : Enc Unit} {w : List Byte} {E : Prop}, Encodes m w E → R m m
  bind : ∀ {m m' f f' : Enc Unit}, R m m' → R f f' → R (m >>= fun _ => f) (m' >>= fun _ => f')
  mapErr : ∀ {m m' : Enc Unit} (g : EncErr → EncErr), R m m' → R (m.mapErr g) (m'.mapErr g)

namespace EncRel
variable {R : Enc Unit → Enc Unit → Prop}

theorem pure (h : EncRel R) : R (Enc.pure ()) (Enc.pure ()) := h.prim (Emits.pure.encodes trivial)

theorem items (h : EncRel R) {α : Type} {enc enc' : α → Enc Unit} (wrap : Nat → EncErr → EncErr) :
    ∀ (l : List α) (i : Nat), (∀ a ∈ l, R (enc a) (enc' a)) →
      R (encItems enc wrap i l) (encItems enc' wrap i l)
  | [], _, _ => h.pure
  | a :: l, i, hl =>
    h.bind (h.mapErr _ (hl a (.head _))) (items h wrap l (i + 1) fun b hb => hl b (.tail _ hb))

theorem slice (h : EncRel R) {α : Type} {enc enc' : α → Enc Unit} (l : List α)
    (hl : ∀ a ∈ l, R (enc a) (enc' a)) : R (encSlice enc l) (encSlice enc' l) :=
  h.bind (h.prim ((encUsize_encodes l.length).mapErr .badLength)) (h.items _ l 0 hl)

theorem linkedList (h : EncRel R) {α : Type} {enc enc' : α → Enc Unit} (l : List α)
    (hl : ∀ a ∈ l, R (enc a) (enc' a)) : R (encLinkedList enc l) (encLinkedList enc' l) :=
  h.bind (h.prim ((encUsize_encodes l.length).mapErr .badLength)) (h.items _ l 0 hl)

theorem hashMap (h : EncRel R) {α β : Type} {encK : α → Enc Unit} {enc enc' : β → Enc Unit}
    (hk : ∀ a, R (encK a) (encK a)) : ∀ (l : List (α × β)), (∀ p ∈ l, R (enc p.2) (enc' p.2)) →
      R (encHashMap encK enc l) (encHashMap encK enc' l)
  | [], _ => h.pure
  | (k, v) :: l, hl =>
    h.bind (hk k) (h.bind (hl (k, v) (.head _)) (hashMap h hk l fun b hb => hl b (.tail _ hb)))

end EncRel

mutual

theorem RTy.encodeRef_rel {R : Enc Unit → Enc Unit → Prop} (h : EncRel R) {D : Decls}
    {ref ref' : Nat → Nat → Enc Unit} : (r : RTy) → (v : (r.close addr).Val) →
    (∀ y ∈ refs r v, R (ref y.1 y.2) (ref' y.1 y.2)) → R (r.encodeRef D ref v) (r.encodeRef D ref' v)
  | .plain t, v, _ => h.prim (Ty.encode_encodes t v)
  | .named k, a, hr => hr (k, a) (.head _)
  | .wrap _ t, v, hr => t.encodeRef_rel h v hr
  | .array t _, v, hr =>
    h.items _ v.val 0 fun x hx => t.encodeRef_rel h x fun y hy => hr y (List.mem_flatMap.mpr ⟨x, hx, hy⟩)
  | .seq .slice t, v, hr =>
    h.slice _ fun x hx => t.encodeRef_rel h x fun y hy => hr y (List.mem_flatMap.mpr ⟨x, hx, hy⟩)
  | .seq .vec t, v, hr =>
    h.slice _ fun x hx => t.encodeRef_rel h x fun y hy => hr y (List.mem_flatMap.mpr ⟨x, hx, hy⟩)
  | .seq .linkedList t, v, hr =>
    h.linkedList _ fun x hx => t.encodeRef_rel h x fun y hy => hr y (List.mem_flatMap.mpr ⟨x, hx, hy⟩)
  | .hashMap k t, v, hr =>
    h.hashMap (fun a => h.prim (Ty.encode_encodes k a)) _ fun p hp =>
      t.encodeRef_rel h p.2 fun y hy => hr y (List.mem_flatMap.mpr ⟨p, hp, hy⟩)
  | .option t, v, hr =>
    match v, hr with
    | none, _ => h.prim (encBool_encodes false trivial)
    | some v, hr => h.bind (h.prim (encBool_encodes true trivial)) (t.encodeRef_rel h v hr)
  | .result t e, v, hr =>
    match v, hr with
    | .ok v, hr => h.bind (h.prim (encBool_encodes false trivial)) (t.encodeRef_rel h v hr)
    | .err v, hr => h.bind (h.prim (encBool_encodes true trivial)) (h.mapErr _ (e.encodeRef_rel h v hr))
  | .bound t, v, hr =>
    match v, hr with
    | .included v, hr => h.bind (h.prim (encU8_encodes 0 trivial)) (h.mapErr _ (t.encodeRef_rel h v hr))
    | .excluded v, hr => h.bind (h.prim (encU8_encodes 1 trivial)) (h.mapErr _ (t.encodeRef_rel h v hr))
    | .unbounded, _ => h.prim (encU8_encodes 2 trivial)
  | .range t, v, hr =>
    h.bind (t.encodeRef_rel h v.start fun y hy => hr y (List.mem_append_left _ hy))
      (t.encodeRef_rel h v.stop fun y hy => hr y (List.mem_append_right _ hy))
  | .rangeInclusive t, v, hr =>
    h.bind (t.encodeRef_rel h v.start fun y hy => hr y (List.mem_append_left _ hy))
      (t.encodeRef_rel h v.stop fun y hy => hr y (List.mem_append_right _ hy))
  | .lock _ t, v, hr => t.encodeRef_rel h v.val hr
  | .refCell t, ⟨true, v⟩, _ => h.prim (w := []) (E := False) ((Emits.fail _).not_encodes (by simp) id)
  | .refCell t, ⟨false, v⟩, hr => h.mapErr _ (t.encodeRef_rel h v hr)
  | .sizedSlice t _, v, hr =>
    h.slice _ fun x hx => t.encodeRef_rel h x fun y hy => hr y (List.mem_flatMap.mpr ⟨x, hx, hy⟩)
  | .tuple fs, v, hr => fs.encodeRef_rel h id v hr

theorem RFields.encodeRef_rel {R : Enc Unit → Enc Unit → Prop} (h : EncRel R) {D : Decls}
    {ref ref' : Nat → Nat → Enc Unit} : (fs : RFields) → (g : EncErr → EncErr) →
    (v : (fs.close addr).Val) → (∀ y ∈ refsFields fs v, R (ref y.1 y.2) (ref' y.1 y.2)) →
    R (fs.encodeRef D ref g v) (fs.encodeRef D ref' g v)
  | .nil, _, _, _ => h.pure
  | .cons t fs, g, v, hr =>
    h.bind (h.mapErr g (t.encodeRef_rel h v.1 fun y hy => hr y (List.mem_append_left _ hy)))
      (fs.encodeRef_rel h g v.2 fun y hy => hr y (List.mem_append_right _ hy))

end

theorem RVariants.encodeRef_rel {R : Enc Unit → Enc Unit → Prop} (h : EncRel R) {D : Decls}
    {ref ref' : Nat → Nat → Enc Unit} : (vs : RVariants) → (r : Repr) → (prev : Option Nat) →
    (v : (vs.close addr).Val) → (∀ y ∈ refsVariants vs v, R (ref y.1 y.2) (ref' y.1 y.2)) →
    R (vs.encodeRef D ref r prev v) (vs.encodeRef D ref' r prev v)
  | .nil, _, _, v, _ => nomatch v
  | .cons d fs vs, r, prev, .inl v, hr =>
    h.bind (h.prim ((encRepr_encodes r (nextDisc prev d) (.inr (by omega))).mapErr .badDiscriminant))
      (fs.encodeRef_rel h _ v hr)
  | .cons d fs vs, r, prev, .inr v, hr => vs.encodeRef_rel h r _ v hr

theorem Decl.encodeRef_rel {R : Enc Unit → Enc Unit → Prop} (h : EncRel R) {D : Decls}
    {ref ref' : Nat → Nat → Enc Unit} : (d : Decl) → (v : (d.close addr).Val) →
    (∀ y ∈ refsDecl d v, R (ref y.1 y.2) (ref' y.1 y.2)) → R (d.encodeRef D ref v) (d.encodeRef D ref' v)
  | .struct fs, v, hr => fs.encodeRef_rel h _ v hr
  | .enum r vs, v, hr => vs.encodeRef_rel h r none v hr

/-! Objects without loops. -/

theorem encRel_eq : EncRel Eq where
  prim _ := rfl
  bind h h' := by rw [h, h']
  mapErr g h := by rw [h]

theorem Heap.encode_within {D : Decls} (H : Heap D) : ∀ (n : Nat) (x : Nat × Nat), WithinDepth H n x →
    ∀ (stop stop' : Panic) (j j' : Nat),
      H.encode stop (n + 1 + j) x.1 x.2 = H.encode stop' (n + 1 + j') x.1 x.2
  | 0, x, h, stop, stop', j, j' => by
    rw [show 0 + 1 + j = j + 1 by omega, show 0 + 1 + j' = j' + 1 by omega, encode, encode]
    refine Decl.encodeRef_rel encRel_eq _ _ fun y hy => ?_
    rw [WithinDepth] at h
    rw [h] at hy
    cases hy
  | n + 1, x, h, stop, stop', j, j' => by
    rw [show n + 1 + 1 + j = n + 1 + j + 1 by omega, show n + 1 + 1 + j' = n + 1 + j' + 1 by omega,
      encode, encode]
    exact Decl.encodeRef_rel encRel_eq _ _ fun y hy => Heap.encode_within H n y (h y hy) stop stop' j j'

theorem Spec.WithinDepth.succ {D : Decls} {H : Heap D} : ∀ {n : Nat} {x : Nat × Nat}, WithinDepth H n x →
    WithinDepth H (n + 1) x
  | 0, x, h => by
    intro y hy
    rw [WithinDepth] at h
    rw [h] at hy
    cases hy
  | n + 1, x, h => fun y hy => WithinDepth.succ (h y hy)

theorem Spec.WithinDepth.mono {D : Decls} {H : Heap D} {n : Nat} {x : Nat × Nat} (h : WithinDepth H n x) :
    ∀ {m : Nat}, n ≤ m → WithinDepth H m x := by
  intro m hm
  obtain ⟨j, rfl⟩ := Nat.exists_eq_add_of_le hm
  clear hm
  induction j with
  | zero => exact h
  | succ j ih => exact ih.succ

theorem Spec.WithinDepth.unlooped {D : Decls} {H : Heap D} : ∀ {n : Nat} {x : Nat × Nat}, WithinDepth H n x →
    Unlooped H x
  | 0, x, h => by
    refine ⟨_, fun y hy => ?_⟩
    rw [WithinDepth] at h
    rw [HoldsRef, h] at hy
    cases hy
  | n + 1, x, h => ⟨_, fun y hy => WithinDepth.unlooped (h y hy)⟩

theorem exists_bound {α : Type} {p : Nat → α → Prop}
    (hp : ∀ {n m : Nat} {a : α}, n ≤ m → p n a → p m a) :
    ∀ l : List α, (∀ a ∈ l, ∃ n, p n a) → ∃ n, ∀ a ∈ l, p n a
  | [], _ => ⟨0, fun _ h => nomatch h⟩
  | a :: l, h => by
    obtain ⟨n, hn⟩ := h a (.head _)
    obtain ⟨m, hm⟩ := exists_bound (p := p) hp l fun b hb => h b (.tail _ hb)
    refine ⟨max n m, fun b hb => ?_⟩
    cases hb with
    | head => exact hp (Nat.le_max_left _ _) hn
    | tail _ hb => exact hp (Nat.le_max_right _ _) (hm b hb)

theorem Spec.Unlooped.within {D : Decls} {H : Heap D} {x : Nat × Nat} (h : Unlooped H x) :
    ∃ n, WithinDepth H n x := by
  induction h with
  | intro x _ ih =>
    obtain ⟨n, hn⟩ := exists_bound (p := fun n y => WithinDepth H n y) (fun hm h => h.mono hm)
      (refsDecl (D x.1) (H x.1 x.2)) fun y hy => ih y hy
    exact ⟨n + 1, hn⟩

/-! Loops never succeed. -/

/-- `m` does not succeed. -/
def Fails (m : Enc Unit) : Prop := ∀ o, (m o).1 ≠ .ok ()

theorem Fails.left {m f : Enc Unit} (h : Fails m) : Fails (m >>= fun _ => f) := by
  intro o hh
  have ho := h o
  show False
  change (Enc.bind m (fun _ => f) o).1 = _ at hh
  unfold Enc.bind at hh
  generalize m o = q at hh ho
  obtain ⟨r, o'⟩ := q
  cases r with
  | ok u => exact ho rfl
  | _ => cases hh

theorem Fails.right {m f : Enc Unit} (h : Fails f) : Fails (m >>= fun _ => f) := by
  intro o hh
  change (Enc.bind m (fun _ => f) o).1 = _ at hh
  unfold Enc.bind at hh
  generalize m o = q at hh
  obtain ⟨r, o'⟩ := q
  cases r with
  | ok u => exact h o' hh
  | _ => cases hh

theorem Fails.mapErr {m : Enc Unit} (g : EncErr → EncErr) (h : Fails m) : Fails (m.mapErr g) := by
  intro o hh
  have ho := h o
  unfold Enc.mapErr at hh
  generalize m o = q at hh ho
  obtain ⟨r, o'⟩ := q
  cases r with
  | ok u => exact ho rfl
  | _ => cases hh

theorem Fails.items {α : Type} {enc : α → Enc Unit} (wrap : Nat → EncErr → EncErr) {a : α}
    (h : Fails (enc a)) : ∀ (l : List α) (i : Nat), a ∈ l → Fails (encItems enc wrap i l)
  | _ :: _, _, .head _ => (h.mapErr _).left
  | _ :: l, i, .tail _ hl => (Fails.items wrap h l (i + 1) hl).right

theorem Fails.hashMap {α β : Type} {encK : α → Enc Unit} {enc : β → Enc Unit} {p : α × β}
    (h : Fails (enc p.2)) : ∀ (l : List (α × β)), p ∈ l → Fails (encHashMap encK enc l)
  | (_, _) :: _, .head _ => Fails.right (Fails.left h)
  | (_, _) :: l, .tail _ hl => Fails.right (Fails.right (Fails.hashMap h l hl))

mutual

theorem RTy.encodeRef_fails {D : Decls} {ref : Nat → Nat → Enc Unit} {y : Nat × Nat}
    (h : Fails (ref y.1 y.2)) : (r : RTy) → (v : (r.close addr).Val) → y ∈ refs r v →
    Fails (r.encodeRef D ref v)
  | .plain _, _, hy => nomatch hy
  | .named k, a, hy => by
    have : y = (k, a) := List.mem_singleton.mp hy
    subst this
    exact h
  | .wrap _ t, v, hy => t.encodeRef_fails h v hy
  | .array t _, v, hy => by
    obtain ⟨x, hx, hy⟩ := List.mem_flatMap.mp hy
    exact Fails.items _ (t.encodeRef_fails h x hy) v.val 0 hx
  | .seq .slice t, v, hy => by
    obtain ⟨x, hx, hy⟩ := List.mem_flatMap.mp hy
    exact (Fails.items _ (t.encodeRef_fails h x hy) v 0 hx).right
  | .seq .vec t, v, hy => by
    obtain ⟨x, hx, hy⟩ := List.mem_flatMap.mp hy
    exact (Fails.items _ (t.encodeRef_fails h x hy) v 0 hx).right
  | .seq .linkedList t, v, hy => by
    obtain ⟨x, hx, hy⟩ := List.mem_flatMap.mp hy
    exact (Fails.items _ (t.encodeRef_fails h x hy) v 0 hx).right
  | .hashMap k t, v, hy => by
    obtain ⟨p, hp, hy⟩ := List.mem_flatMap.mp hy
    exact Fails.hashMap (t.encodeRef_fails h p.2 hy) v.val hp
  | .option t, v, hy =>
    match v, hy with
    | some v, hy => (t.encodeRef_fails h v hy).right
  | .result t e, v, hy =>
    match v, hy with
    | .ok v, hy => (t.encodeRef_fails h v hy).right
    | .err v, hy => ((e.encodeRef_fails h v hy).mapErr _).right
  | .bound t, v, hy =>
    match v, hy with
    | .included v, hy => ((t.encodeRef_fails h v hy).mapErr _).right
    | .excluded v, hy => ((t.encodeRef_fails h v hy).mapErr _).right
  | .range t, v, hy => by
    rcases List.mem_append.mp hy with hy | hy
    · exact (t.encodeRef_fails h v.start hy).left
    · exact (t.encodeRef_fails h v.stop hy).right
  | .rangeInclusive t, v, hy => by
    rcases List.mem_append.mp hy with hy | hy
    · exact (t.encodeRef_fails h v.start hy).left
    · exact (t.encodeRef_fails h v.stop hy).right
  | .lock _ t, v, hy => t.encodeRef_fails h v.val hy
  | .refCell t, ⟨true, v⟩, hy => fun o hh => nomatch hh
  | .refCell t, ⟨false, v⟩, hy => (t.encodeRef_fails h v hy).mapErr _
  | .sizedSlice t _, v, hy => by
    obtain ⟨x, hx, hy⟩ := List.mem_flatMap.mp hy
    exact (Fails.items _ (t.encodeRef_fails h x hy) v.val 0 hx).right
  | .tuple fs, v, hy => fs.encodeRef_fails h id v hy

theorem RFields.encodeRef_fails {D : Decls} {ref : Nat → Nat → Enc Unit} {y : Nat × Nat}
    (h : Fails (ref y.1 y.2)) : (fs : RFields) → (g : EncErr → EncErr) → (v : (fs.close addr).Val) →
    y ∈ refsFields fs v → Fails (fs.encodeRef D ref g v)
  | .nil, _, _, hy => nomatch hy
  | .cons t fs, g, v, hy => by
    rcases List.mem_append.mp hy with hy | hy
    · exact ((t.encodeRef_fails h v.1 hy).mapErr g).left
    · exact (fs.encodeRef_fails h g v.2 hy).right

end

theorem RVariants.encodeRef_fails {D : Decls} {ref : Nat → Nat → Enc Unit} {y : Nat × Nat}
    (h : Fails (ref y.1 y.2)) : (vs : RVariants) → (r : Repr) → (prev : Option Nat) →
    (v : (vs.close addr).Val) → y ∈ refsVariants vs v → Fails (vs.encodeRef D ref r prev v)
  | .nil, _, _, v, _ => nomatch v
  | .cons d fs vs, r, prev, .inl v, hy => (fs.encodeRef_fails h _ v hy).right
  | .cons d fs vs, r, prev, .inr v, hy => vs.encodeRef_fails h r _ v hy

theorem Decl.encodeRef_fails {D : Decls} {ref : Nat → Nat → Enc Unit} {y : Nat × Nat}
    (h : Fails (ref y.1 y.2)) : (d : Decl) → (v : (d.close addr).Val) → y ∈ refsDecl d v →
    Fails (d.encodeRef D ref v)
  | .struct fs, v, hy => fs.encodeRef_fails h _ v hy
  | .enum r vs, v, hy => vs.encodeRef_fails h r none v hy

/-- With `n` nested calls only objects are encoded whose references end. -/
theorem Heap.encode_fails {D : Decls} (H : Heap D) (stop : Panic) : ∀ (n : Nat) (x : Nat × Nat),
    ¬ Unlooped H x → Fails (H.encode stop n x.1 x.2)
  | 0, x, _ => fun o h => nomatch h
  | n + 1, x, h => by
    have : ∃ y, HoldsRef H y x ∧ ¬ Unlooped H y := by
      apply Classical.byContradiction
      intro hn
      apply h
      refine ⟨_, fun y hy => ?_⟩
      apply Classical.byContradiction
      exact fun hh => hn ⟨y, hy, hh⟩
    obtain ⟨y, hy, hn⟩ := this
    exact Decl.encodeRef_fails (Heap.encode_fails H stop n y hn) _ _ hy

theorem Heap.encode_fails_depth {D : Decls} (H : Heap D) (stop : Panic) : ∀ (n : Nat) (x : Nat × Nat),
    ¬ WithinDepth H n x → Fails (H.encode stop (n + 1) x.1 x.2)
  | 0, x, h => by
    rw [WithinDepth] at h
    obtain ⟨y, hy⟩ := List.exists_mem_of_ne_nil _ h
    have hf : Fails (H.encode stop 0 y.1 y.2) := fun o h => nomatch h
    exact Decl.encodeRef_fails hf _ _ hy
  | n + 1, x, h => by
    have : ∃ y, HoldsRef H y x ∧ ¬ WithinDepth H n y := by
      apply Classical.byContradiction
      intro hn
      apply h
      intro y hy
      apply Classical.byContradiction
      exact fun hh => hn ⟨y, hy, hh⟩
    obtain ⟨y, hy, hn⟩ := this
    exact Decl.encodeRef_fails (Heap.encode_fails_depth H stop n y hn) _ _ hy

theorem not_acc_of_cycle {α : Type} {r : α → α → Prop} {x : α} (h : Relation.TransGen r x x) : ¬ Acc r x := by
  intro ha
  have : ∀ y, Acc (Relation.TransGen r) y → ¬ Relation.TransGen r y y := by
    intro y hy
    induction hy with
    | intro y _ ih => exact fun hh => ih y hh hh
  exact this x ha.transGen h

/-! What is written. -/

/-- `m` does not take octets back. -/
def Grows (m : Enc Unit) : Prop :=
  ∀ o o', o.WF → m o = (.ok (), o') → o'.WF ∧ o'.remaining ≤ o.remaining

/-- `m` writes at least one octet. -/
def Puts (m : Enc Unit) : Prop :=
  ∀ o o', o.WF → m o = (.ok (), o') → o'.WF ∧ o'.remaining < o.remaining

theorem Enc.bind_ok_inv {m f : Enc Unit} {o o' : Output} (h : (m >>= fun _ => f) o = (.ok (), o')) :
    ∃ o1, m o = (.ok (), o1) ∧ f o1 = (.ok (), o') := by
  change Enc.bind m (fun _ => f) o = _ at h
  unfold Enc.bind at h
  generalize hq : m o = q at h
  obtain ⟨r, o1⟩ := q
  cases r with
  | ok u => exact ⟨o1, rfl, h⟩
  | _ => cases h

theorem Enc.mapErr_ok_inv {m : Enc Unit} {g : EncErr → EncErr} {o o' : Output}
    (h : m.mapErr g o = (.ok (), o')) : m o = (.ok (), o') := by
  unfold Enc.mapErr at h
  generalize hq : m o = q at h
  obtain ⟨r, o1⟩ := q
  cases r with
  | ok u => exact h
  | _ => cases h

theorem Puts.grows {m : Enc Unit} (h : Puts m) : Grows m := fun o o' hw he =>
  ⟨(h o o' hw he).1, Nat.le_of_lt (h o o' hw he).2⟩

theorem Encodes.wrote {m : Enc Unit} {w : List Byte} {E : Prop} (h : Encodes m w E) {o o' : Output}
    (hw : o.WF) (he : m o = (.ok (), o')) :
    E ∧ o'.WF ∧ w.length ≤ o.remaining ∧ o'.remaining = o.remaining - w.length := by
  obtain ⟨w', r, h1, h2, h3⟩ := h
  by_cases hl : w'.length ≤ o.remaining
  · have := (h1 o hw).1 hl
    rw [this] at he
    have hr : r = .ok () := congrArg Prod.fst he
    have hE := h2.1 hr
    have ho : o.put w' = o' := congrArg Prod.snd he
    subst ho
    have := h3 hE
    subst this
    exact ⟨hE, hw.put hl, hl, Output.remaining_put hw hl⟩
  · obtain ⟨w1, _, _, h4⟩ := (h1 o hw).2 (by omega)
    rw [h4] at he
    cases he

theorem Encodes.grows {m : Enc Unit} {w : List Byte} {E : Prop} (h : Encodes m w E) : Grows m := by
  intro o o' hw he
  obtain ⟨_, h1, h2, h3⟩ := h.wrote hw he
  exact ⟨h1, by omega⟩

theorem Encodes.puts {m : Enc Unit} {w : List Byte} {E : Prop} (h : Encodes m w E) (hE : E → w ≠ []) :
    Puts m := by
  intro o o' hw he
  obtain ⟨h0, h1, h2, h3⟩ := h.wrote hw he
  have := List.length_pos_iff.mpr (hE h0)
  exact ⟨h1, by omega⟩

theorem Grows.bind {m f : Enc Unit} (hm : Grows m) (hf : Grows f) : Grows (m >>= fun _ => f) := by
  intro o o' hw he
  obtain ⟨o1, h1, h2⟩ := Enc.bind_ok_inv he
  have h3 := hm o o1 hw h1
  have h4 := hf o1 o' h3.1 h2
  exact ⟨h4.1, by omega⟩

theorem Grows.mapErr {m : Enc Unit} (g : EncErr → EncErr) (hm : Grows m) : Grows (m.mapErr g) :=
  fun o o' hw he => hm o o' hw (Enc.mapErr_ok_inv he)

theorem Puts.left {m f : Enc Unit} (hm : Puts m) (hf : Grows f) : Puts (m >>= fun _ => f) := by
  intro o o' hw he
  obtain ⟨o1, h1, h2⟩ := Enc.bind_ok_inv he
  have h3 := hm o o1 hw h1
  have h4 := hf o1 o' h3.1 h2
  exact ⟨h4.1, by omega⟩

theorem Puts.right {m f : Enc Unit} (hm : Grows m) (hf : Puts f) : Puts (m >>= fun _ => f) := by
  intro o o' hw he
  obtain ⟨o1, h1, h2⟩ := Enc.bind_ok_inv he
  have h3 := hm o o1 hw h1
  have h4 := hf o1 o' h3.1 h2
  exact ⟨h4.1, by omega⟩

theorem Puts.mapErr {m : Enc Unit} (g : EncErr → EncErr) (hm : Puts m) : Puts (m.mapErr g) :=
  fun o o' hw he => hm o o' hw (Enc.mapErr_ok_inv he)

theorem encRel_grows : EncRel fun m _ => Grows m where
  prim h := h.grows
  bind h h' := h.bind h'
  mapErr g h := h.mapErr g

theorem encNum_puts (n x : Nat) (hn : n ≠ 0) : Puts (encNum n x) :=
  ((Emits.write _).encodes trivial).puts fun _ h => by
    cases n with
    | zero => exact hn rfl
    | succ n => cases h

theorem encU8_puts (x : Nat) : Puts (encU8 x) := encNum_puts 1 x (by decide)

theorem encBool_puts (b : Bool) : Puts (encBool b) := encU8_puts _

theorem Fails.puts {m : Enc Unit} (h : Fails m) : Puts m := fun o _ _ he =>
  absurd (congrArg Prod.fst he) (h o)

theorem encUsize_puts (n : Nat) : Puts (encUsize n) := by
  unfold encUsize
  split
  · exact encNum_puts 2 n (by decide)
  · exact Fails.puts fun o h => nomatch h

theorem encIsize_puts (n : Int) : Puts (encIsize n) := by
  unfold encIsize
  split
  · exact encNum_puts 2 _ (by decide)
  · exact Fails.puts fun o h => nomatch h

theorem encRepr_puts (r : Repr) (x : Int) : Puts (encRepr r x) := by
  cases r with
  | int k => exact encNum_puts _ _ (by cases k <;> decide)
  | usize => exact encUsize_puts _
  | isize => exact encIsize_puts _

theorem encItems_grows {α : Type} {enc : α → Enc Unit} (h : ∀ a, Grows (enc a))
    (wrap : Nat → EncErr → EncErr) (i : Nat) (l : List α) : Grows (encItems enc wrap i l) :=
  encRel_grows.items (enc' := enc) wrap l i fun a _ => h a

theorem encSlice_puts {α : Type} {enc : α → Enc Unit} (h : ∀ a, Grows (enc a)) (l : List α) :
    Puts (encSlice enc l) := ((encUsize_puts _).mapErr _).left (encItems_grows h _ _ _)

theorem encLinkedList_puts {α : Type} {enc : α → Enc Unit} (h : ∀ a, Grows (enc a)) (l : List α) :
    Puts (encLinkedList enc l) := ((encUsize_puts _).mapErr _).left (encItems_grows h _ _ _)

theorem encItems_puts {α : Type} {enc : α → Enc Unit} (h : ∀ a, Puts (enc a))
    (wrap : Nat → EncErr → EncErr) (i : Nat) : (l : List α) → l ≠ [] → Puts (encItems enc wrap i l)
  | [], hl => absurd rfl hl
  | a :: _, _ => ((h a).mapErr _).left (encItems_grows (fun a => (h a).grows) _ _ _)

theorem Items.ne_nil {α : Type} {n : Nat} (v : Items α n) (hn : n ≠ 0) : v.val ≠ [] := by
  intro h
  have := v.property
  rw [h] at this
  exact hn this.symm

theorem Ty.encode_grows (t : Ty) (v : t.Val) : Grows (t.encode v) := (Ty.encode_encodes t v).grows

theorem Fields.encode_grows (fs : Fields) (g : EncErr → EncErr) (v : fs.Val) : Grows (fs.encode g v) :=
  (Fields.encode_encodes fs g v).grows

theorem Variants.encode_puts : (vs : Variants) → (r : Repr) → (prev : Option Nat) → (v : vs.Val) →
    Puts (vs.encode r prev v)
  | .nil, _, _, v => nomatch v
  | .cons _ fs _, r, _, .inl v => ((encRepr_puts r _).mapErr _).left (fs.encode_grows _ v)
  | .cons _ _ vs, r, _, .inr v => vs.encode_puts r _ v

theorem encBytes_puts (l : List Byte) : Puts (encBytes l) :=
  encSlice_puts (fun _ => (encU8_puts _).grows) l

theorem encSystemTime_puts (p : TimePlatform) (x : Int) : Puts (encSystemTime p x) := by
  unfold encSystemTime
  simp only
  split
  · exact encNum_puts 8 _ (by decide)
  · split
    · split
      · exact Fails.puts fun o h => nomatch h
      · exact encNum_puts 8 _ (by decide)
    · exact encNum_puts 8 _ (by decide)

theorem encSocketAddrV4_puts (a : SocketAddrV4Val) : Puts (encSocketAddrV4 a) :=
  (encNum_puts 4 _ (by decide)).left (encNum_puts 2 _ (by decide)).grows

theorem encSocketAddrV6_puts (a : SocketAddrV6Val) : Puts (encSocketAddrV6 a) :=
  (encNum_puts 16 _ (by decide)).left ((encNum_puts 2 _ (by decide)).grows.bind
    ((encNum_puts 4 _ (by decide)).grows.bind (encNum_puts 4 _ (by decide)).grows))

mutual

theorem Ty.encode_puts : (t : Ty) → EmitsSome t → (v : t.Val) → Puts (t.encode v)
  | .num k, _, _ => encNum_puts _ _ (by
      cases k with
      | int k => cases k <;> decide
      | _ => decide)
  | .bool, _, v => encBool_puts v
  | .char, _, _ => encNum_puts 4 _ (by decide)
  | .usize, _, v => encUsize_puts v
  | .isize, _, v => encIsize_puts v
  | .nonZero r, _, v => encRepr_puts r v.val
  | .infallible, _, v => nomatch v
  | .wrap _ t, h, v => t.encode_puts h v
  | .array t _, h, v => encItems_puts (t.encode_puts h.2) _ 0 v.val (v.ne_nil h.1)
  | .seq .slice t, _, v => encSlice_puts t.encode_grows v
  | .seq .vec t, _, v => encSlice_puts t.encode_grows v
  | .seq .linkedList t, _, v => encLinkedList_puts t.encode_grows v
  | .option t, _, none => encBool_puts false
  | .option t, _, some v => (encBool_puts true).left (t.encode_grows v)
  | .result t e, _, .ok v => (encBool_puts false).left (t.encode_grows v)
  | .result t e, _, .err v => (encBool_puts true).left ((e.encode_grows v).mapErr _)
  | .bound t, _, .included v => (encU8_puts 0).left ((t.encode_grows v).mapErr _)
  | .bound t, _, .excluded v => (encU8_puts 1).left ((t.encode_grows v).mapErr _)
  | .bound t, _, .unbounded => encU8_puts 2
  | .range t, h, v => (t.encode_puts h v.start).left (t.encode_grows v.stop)
  | .rangeInclusive t, h, v => (t.encode_puts h v.start).left (t.encode_grows v.stop)
  | .lock _ t, h, v => t.encode_puts h v.val
  | .refCell t, _, ⟨true, v⟩ => Fails.puts fun o h => nomatch h
  | .refCell t, h, ⟨false, v⟩ => (t.encode_puts h v).mapErr _
  | .duration, _, _ => (encNum_puts 8 _ (by decide)).left (encNum_puts 4 _ (by decide)).grows
  | .systemTime p, _, v => encSystemTime_puts p v.val
  | .ipv4, _, _ => encNum_puts 4 _ (by decide)
  | .ipv6, _, _ => encNum_puts 16 _ (by decide)
  | .ipAddr, _, .v4 _ => ((encU8_puts 4).mapErr _).left ((encNum_puts 4 _ (by decide)).grows.mapErr _)
  | .ipAddr, _, .v6 _ => ((encU8_puts 6).mapErr _).left ((encNum_puts 16 _ (by decide)).grows.mapErr _)
  | .socketAddrV4, _, v => encSocketAddrV4_puts v
  | .socketAddrV6, _, v => encSocketAddrV6_puts v
  | .socketAddr, _, .v4 a => (encU8_puts 4).left (encSocketAddrV4_puts a).grows
  | .socketAddr, _, .v6 a => (encU8_puts 6).left (encSocketAddrV6_puts a).grows
  | .str _, _, v => encBytes_puts v.val
  | .cStr _, _, v => encBytes_puts v.val
  | .sizedStr _, _, v => encBytes_puts v.val
  | .sizedSlice t _, _, v => encSlice_puts t.encode_grows v.val
  | .tuple fs, h, v => fs.encode_puts h _ v
  | .struct fs, h, v => fs.encode_puts h _ v
  | .enum r vs, _, v => vs.encode_puts r none v

theorem Fields.encode_puts : (fs : Fields) → EmitsSomeFields fs → (g : EncErr → EncErr) → (v : fs.Val) →
    Puts (fs.encode g v)
  | .cons t fs, .inl h, g, v => ((t.encode_puts h v.1).mapErr g).left (fs.encode_grows g v.2)
  | .cons t fs, .inr h, g, v => Puts.right ((t.encode_grows v.1).mapErr g) (fs.encode_puts h g v.2)

end

mutual

theorem RTy.encodeRef_puts {D : Decls} {ref : Nat → Nat → Enc Unit} (hr : ∀ k a, Grows (ref k a)) :
    (r : RTy) → EmitsSome (r.close blank) → (v : (r.close addr).Val) → Puts (r.encodeRef D ref v)
  | .plain t, h, v => t.encode_puts h v
  | .wrap _ t, h, v => t.encodeRef_puts hr h v
  | .array t _, h, v => encItems_puts (t.encodeRef_puts hr h.2) _ 0 v.val (v.ne_nil h.1)
  | .seq .slice t, _, v => encSlice_puts (grows t) v
  | .seq .vec t, _, v => encSlice_puts (grows t) v
  | .seq .linkedList t, _, v => encLinkedList_puts (grows t) v
  | .option t, _, none => encBool_puts false
  | .option t, _, some v => (encBool_puts true).left (grows t v)
  | .result t e, _, .ok v => (encBool_puts false).left (grows t v)
  | .result t e, _, .err v => (encBool_puts true).left ((grows e v).mapErr _)
  | .bound t, _, .included v => (encU8_puts 0).left ((grows t v).mapErr _)
  | .bound t, _, .excluded v => (encU8_puts 1).left ((grows t v).mapErr _)
  | .bound t, _, .unbounded => encU8_puts 2
  | .range t, h, v => (t.encodeRef_puts hr h v.start).left (grows t v.stop)
  | .rangeInclusive t, h, v => (t.encodeRef_puts hr h v.start).left (grows t v.stop)
  | .lock _ t, h, v => t.encodeRef_puts hr h v.val
  | .refCell t, _, ⟨true, v⟩ => Fails.puts fun o h => nomatch h
  | .refCell t, h, ⟨false, v⟩ => (t.encodeRef_puts hr h v).mapErr _
  | .sizedSlice t _, _, v => encSlice_puts (grows t) v.val
  | .tuple fs, h, v => fs.encodeRef_puts hr h _ v
where
  /-- See `encRel_grows`. -/
  grows (r : RTy) (v : (r.close addr).Val) : Grows (r.encodeRef D ref v) :=
    r.encodeRef_rel (ref' := ref) encRel_grows v fun y _ => hr y.1 y.2

theorem RFields.encodeRef_puts {D : Decls} {ref : Nat → Nat → Enc Unit} (hr : ∀ k a, Grows (ref k a)) :
    (fs : RFields) → EmitsSomeFields (fs.close blank) → (g : EncErr → EncErr) → (v : (fs.close addr).Val) →
    Puts (fs.encodeRef D ref g v)
  | .cons t fs, .inl h, g, v =>
    ((t.encodeRef_puts hr h v.1).mapErr g).left
      (fs.encodeRef_rel (ref' := ref) encRel_grows g v.2 fun y _ => hr y.1 y.2)
  | .cons t fs, .inr h, g, v =>
    Puts.right ((t.encodeRef_rel (ref' := ref) encRel_grows v.1 fun y _ => hr y.1 y.2).mapErr g)
      (fs.encodeRef_puts hr h g v.2)

end

theorem Heap.encode_grows {D : Decls} (H : Heap D) (stop : Panic) : (n k a : Nat) →
    Grows (H.encode stop n k a)
  | 0, _, _ => fun _ _ _ he => nomatch he
  | n + 1, k, a => Decl.encodeRef_rel (ref' := H.encode stop n) encRel_grows _ _ fun y _ =>
      Heap.encode_grows H stop n y.1 y.2

/-! Guarded declarations. -/

/-- The encoders do the same where less than `B` octets remain, and take none back. -/
def SameBelow (B : Nat) (m m' : Enc Unit) : Prop :=
  Grows m ∧ ∀ o, o.WF → o.remaining < B → m o = m' o

theorem SameBelow.bindPut {B : Nat} {m m' f f' : Enc Unit} (hm : SameBelow (B + 1) m m') (hp : Puts m)
    (hf : SameBelow B f f') : SameBelow (B + 1) (m >>= fun _ => f) (m' >>= fun _ => f') := by
  refine ⟨hm.1.bind hf.1, fun o hw hB => ?_⟩
  show Enc.bind m (fun _ => f) o = Enc.bind m' (fun _ => f') o
  unfold Enc.bind
  rw [← hm.2 o hw hB]
  generalize hq : m o = q
  obtain ⟨r, o1⟩ := q
  cases r with
  | ok u =>
    have := hp o o1 hw hq
    exact hf.2 o1 this.1 (by omega)
  | _ => rfl

theorem encRel_same (B : Nat) : EncRel (SameBelow B) where
  prim h := ⟨h.grows, fun _ _ _ => rfl⟩
  bind := by
    intro m m' f f' hm hf
    refine ⟨hm.1.bind hf.1, fun o hw hB => ?_⟩
    show Enc.bind m (fun _ => f) o = Enc.bind m' (fun _ => f') o
    unfold Enc.bind
    rw [← hm.2 o hw hB]
    generalize hq : m o = q
    obtain ⟨r, o1⟩ := q
    cases r with
    | ok u =>
      have := hm.1 o o1 hw hq
      exact hf.2 o1 this.1 (by omega)
    | _ => rfl
  mapErr := by
    intro m m' g hm
    refine ⟨hm.1.mapErr g, fun o hw hB => ?_⟩
    unfold Enc.mapErr
    rw [hm.2 o hw hB]

theorem SameBelow.refl {B : Nat} {m : Enc Unit} (h : Grows m) : SameBelow B m m := ⟨h, fun _ _ _ => rfl⟩

theorem SameBelow.hashMapFill {B : Nat} {α β : Type} {encK : α → Enc Unit} {enc enc' : β → Enc Unit}
    (hk : ∀ a, Puts (encK a)) (he : ∀ b, SameBelow B (enc b) (enc' b)) : (l : List (α × β)) →
    SameBelow (B + 1) (encHashMap encK enc l) (encHashMap encK enc' l)
  | [] => (encRel_same _).pure
  | (k, v) :: l => SameBelow.bindPut (.refl (hk k).grows) (hk k) ((encRel_same B).bind (he v)
      ((encRel_same B).hashMap (fun a => .refl (hk a).grows) l fun p _ => he p.2))

mutual

theorem RTy.encodeRef_heading {D : Decls} {ref ref' : Nat → Nat → Enc Unit} {p : Nat → Prop} {B : Nat}
    (hp : ∀ k a, p k → SameBelow (B + 1) (ref k a) (ref' k a))
    (ha : ∀ k a, SameBelow B (ref k a) (ref' k a)) : (r : RTy) → Heading p r →
    (v : (r.close addr).Val) → SameBelow (B + 1) (r.encodeRef D ref v) (r.encodeRef D ref' v)
  | .plain t, _, v => .refl (t.encode_grows v)
  | .named k, h, v => hp k v h
  | .wrap _ t, h, v => t.encodeRef_heading hp ha h v
  | .array t n, h, v => by
    rcases h with h | h
    · have : v.val = [] := List.length_eq_zero_iff.mp (v.property.trans h)
      show SameBelow _ (encArray _ v.val) (encArray _ v.val)
      rw [this]
      exact (encRel_same _).pure
    · exact (encRel_same _).items _ v.val 0 fun x _ => t.encodeRef_heading hp ha h x
  | .seq .slice t, _, v => put (len v) ((encRel_same B).items _ v 0 fun x _ => all t x)
  | .seq .vec t, _, v => put (len v) ((encRel_same B).items _ v 0 fun x _ => all t x)
  | .seq .linkedList t, _, v => put (len v) ((encRel_same B).items _ v 0 fun x _ => all t x)
  | .hashMap k t, h, v => by
    rcases h with h | h
    · exact SameBelow.hashMapFill (k.encode_puts h) (all t) v.val
    · exact (encRel_same _).hashMap (fun a => .refl (k.encode_grows a)) v.val fun x _ =>
        t.encodeRef_heading hp ha h x.2
  | .option t, _, none => .refl (encBool_puts false).grows
  | .option t, _, some v => put (encBool_puts true) (all t v)
  | .result t e, _, .ok v => put (encBool_puts false) (all t v)
  | .result t e, _, .err v => put (encBool_puts true) ((encRel_same B).mapErr _ (all e v))
  | .bound t, _, .included v => put (encU8_puts 0) ((encRel_same B).mapErr _ (all t v))
  | .bound t, _, .excluded v => put (encU8_puts 1) ((encRel_same B).mapErr _ (all t v))
  | .bound t, _, .unbounded => .refl (encU8_puts 2).grows
  | .range t, h, v =>
    (encRel_same _).bind (t.encodeRef_heading hp ha h v.start) (t.encodeRef_heading hp ha h v.stop)
  | .rangeInclusive t, h, v =>
    (encRel_same _).bind (t.encodeRef_heading hp ha h v.start) (t.encodeRef_heading hp ha h v.stop)
  | .lock _ t, h, v => t.encodeRef_heading hp ha h v.val
  | .refCell t, _, ⟨true, v⟩ => .refl (Encodes.grows ((Emits.fail .badBorrow).not_encodes (w := []) (by simp) id))
  | .refCell t, h, ⟨false, v⟩ => (encRel_same _).mapErr _ (t.encodeRef_heading hp ha h v)
  | .sizedSlice t _, _, v => put (len v.val) ((encRel_same B).items _ v.val 0 fun x _ => all t x)
  | .tuple fs, h, v => fs.encodeRef_heading hp ha h id v
where
  /-- See `RTy.encodeRef_rel`. -/
  all (r : RTy) (v : (r.close addr).Val) : SameBelow B (r.encodeRef D ref v) (r.encodeRef D ref' v) :=
    r.encodeRef_rel (encRel_same B) v fun y _ => ha y.1 y.2
  /-- Something has been written. -/
  put {m f f' : Enc Unit} (hm : Puts m) (hf : SameBelow B f f') :
      SameBelow (B + 1) (m >>= fun _ => f) (m >>= fun _ => f') := SameBelow.bindPut (.refl hm.grows) hm hf
  /-- The length. -/
  len {α : Type} (l : List α) : Puts (Enc.mapErr .badLength (encUsize l.length)) :=
    (encUsize_puts _).mapErr _

theorem RFields.encodeRef_heading {D : Decls} {ref ref' : Nat → Nat → Enc Unit} {p : Nat → Prop}
    {B : Nat} (hp : ∀ k a, p k → SameBelow (B + 1) (ref k a) (ref' k a))
    (ha : ∀ k a, SameBelow B (ref k a) (ref' k a)) : (fs : RFields) → HeadingFields p fs →
    (g : EncErr → EncErr) → (v : (fs.close addr).Val) →
    SameBelow (B + 1) (fs.encodeRef D ref g v) (fs.encodeRef D ref' g v)
  | .nil, _, _, _ => (encRel_same _).pure
  | .cons t fs, ⟨h, .inl hf⟩, g, v =>
    SameBelow.bindPut ((encRel_same _).mapErr g (t.encodeRef_heading hp ha h v.1))
      ((t.encodeRef_puts (fun k a => (ha k a).1) hf v.1).mapErr g)
      (fs.encodeRef_rel (encRel_same B) g v.2 fun y _ => ha y.1 y.2)
  | .cons t fs, ⟨h, .inr hf⟩, g, v =>
    (encRel_same _).bind ((encRel_same _).mapErr g (t.encodeRef_heading hp ha h v.1))
      (fs.encodeRef_heading hp ha hf g v.2)

end

theorem RVariants.encodeRef_heading {D : Decls} {ref ref' : Nat → Nat → Enc Unit} {B : Nat}
    (ha : ∀ k a, SameBelow B (ref k a) (ref' k a)) : (vs : RVariants) → (r : Repr) →
    (prev : Option Nat) → (v : (vs.close addr).Val) →
    SameBelow (B + 1) (vs.encodeRef D ref r prev v) (vs.encodeRef D ref' r prev v)
  | .nil, _, _, v => nomatch v
  | .cons _ fs _, r, _, .inl v =>
    SameBelow.bindPut (.refl ((encRepr_puts r _).mapErr _).grows) ((encRepr_puts r _).mapErr _)
      (fs.encodeRef_rel (encRel_same B) _ v fun y _ => ha y.1 y.2)
  | .cons _ _ vs, r, _, .inr v => vs.encodeRef_heading ha r _ v

theorem Decl.encodeRef_heading {D : Decls} {ref ref' : Nat → Nat → Enc Unit} {p : Nat → Prop}
    {B : Nat} (hp : ∀ k a, p k → SameBelow (B + 1) (ref k a) (ref' k a))
    (ha : ∀ k a, SameBelow B (ref k a) (ref' k a)) : (d : Decl) → HeadingDecl p d →
    (v : (d.close addr).Val) → SameBelow (B + 1) (d.encodeRef D ref v) (d.encodeRef D ref' v)
  | .struct fs, h, v => fs.encodeRef_heading hp ha h _ v
  | .enum r vs, _, v => vs.encodeRef_heading ha r none v

theorem Heap.encode_same {D : Decls} (H : Heap D) {rank : Nat → Nat} {ranks : Nat}
    (hG : GuardedOut D rank ranks) (stop stop' : Panic) (j : Nat) : (n B k a : Nat) →
    (B ≠ 0 → (B - 1) * ranks + rank k + 1 ≤ n) →
    SameBelow B (H.encode stop n k a) (H.encode stop' (n + j) k a)
  | n, 0, k, a, _ => ⟨H.encode_grows stop n k a, fun o _ h => absurd h (Nat.not_lt_zero _)⟩
  | 0, B + 1, k, a, h => absurd (h (by omega)) (by omega)
  | n + 1, B + 1, k, a, h => by
    have h := h (by omega)
    rw [Nat.add_sub_cancel] at h
    rw [show n + 1 + j = n + j + 1 by omega, encode, encode]
    refine Decl.encodeRef_heading (fun i b hi => ?_) (fun i b => ?_) (D k) (hG k).2 _
    · exact Heap.encode_same H hG stop stop' j n (B + 1) i b fun _ => by
        rw [Nat.add_sub_cancel]
        omega
    · refine Heap.encode_same H hG stop stop' j n B i b fun hB => ?_
      have := (hG i).1
      obtain ⟨B, rfl⟩ := Nat.exists_eq_succ_of_ne_zero hB
      rw [Nat.succ_sub_one]
      have : (B + 1) * ranks = B * ranks + ranks := Nat.succ_mul _ _
      rw [this] at h
      omega

theorem Heap.encodesWithin {D : Decls} (H : Heap D) {rank : Nat → Nat} {ranks : Nat}
    (hG : GuardedOut D rank ranks) {n k a : Nat} {o : Output} (ho : o.WF)
    (hn : o.remaining * ranks + rank k + 1 ≤ n) : EncodesWithin H n k a o := fun stop stop' j =>
  (Heap.encode_same H hG stop stop' j n (o.remaining + 1) k a (fun _ => hn)).2 o ho (Nat.lt_succ_self _)

/-! Unfolding. -/

mutual

theorem RTy.encodeRef_lift {D : Decls} {τ : Nat → Ty} (e : ∀ k, (addr k).Val → (τ k).Val)
    (hg : ∀ k, (unroll D 0 k).encErrGeneric = (τ k).encErrGeneric) :
    (r : RTy) → (v : (r.close addr).Val) →
    (r.close τ).encode (r.lift e v) = r.encodeRef D (fun k a => (τ k).encode (e k a)) v
  | .plain _, _ => rfl
  | .named k, v => rfl
  | .wrap _ t, v => t.encodeRef_lift e hg v
  | .array t _, v => encItems_mapped (t.encodeRef_lift e hg) _ 0 v.val
  | .seq .slice t, v => encSlice_mapped (t.encodeRef_lift e hg) _
  | .seq .vec t, v => encSlice_mapped (t.encodeRef_lift e hg) _
  | .seq .linkedList t, v => encLinkedList_mapped (t.encodeRef_lift e hg) _
  | .hashMap k t, v => encHashMap_mapped (t.encodeRef_lift e hg) _
  | .option t, v =>
    match v with
    | none => rfl
    | some v => congrArg (fun m => encBool true >>= fun _ => m) (t.encodeRef_lift e hg v)
  | .result t u, v =>
    match v with
    | .ok v => congrArg (fun m => encBool false >>= fun _ => m) (t.encodeRef_lift e hg v)
    | .err v => by
      show (encBool true >>= fun _ => Enc.mapErr
          (if (t.close τ).encErrGeneric then EncErr.toGeneric else id)
          ((u.close τ).encode (u.lift e v)))
        = (encBool true >>= fun _ => Enc.mapErr
          (if (t.close (unroll D 0)).encErrGeneric then EncErr.toGeneric else id) _)
      rw [u.encodeRef_lift e hg v, t.generic_close hg]
  | .bound t, v =>
    match v with
    | .included v =>
      congrArg (fun m => encU8 0 >>= fun _ => Enc.mapErr .badField m) (t.encodeRef_lift e hg v)
    | .excluded v =>
      congrArg (fun m => encU8 1 >>= fun _ => Enc.mapErr .badField m) (t.encodeRef_lift e hg v)
    | .unbounded => rfl
  | .range t, v =>
    congr (congrArg (fun m m' => m >>= fun _ => m') (t.encodeRef_lift e hg v.start))
      (t.encodeRef_lift e hg v.stop)
  | .rangeInclusive t, v =>
    congr (congrArg (fun m m' => m >>= fun _ => m') (t.encodeRef_lift e hg v.start))
      (t.encodeRef_lift e hg v.stop)
  | .lock _ t, v => t.encodeRef_lift e hg v.val
  | .refCell t, v =>
    congrArg (fun m => if v.mutBorrowed then Enc.fail .badBorrow else Enc.mapErr .badValue m)
      (t.encodeRef_lift e hg v.val)
  | .sizedSlice t _, v => encSlice_mapped (t.encodeRef_lift e hg) _
  | .tuple fs, v => fs.encodeRef_lift e hg id v

theorem RFields.encodeRef_lift {D : Decls} {τ : Nat → Ty} (e : ∀ k, (addr k).Val → (τ k).Val)
    (hg : ∀ k, (unroll D 0 k).encErrGeneric = (τ k).encErrGeneric) :
    (fs : RFields) → (g : EncErr → EncErr) → (v : (fs.close addr).Val) →
      (fs.close τ).encode g (fs.lift e v) = fs.encodeRef D (fun k a => (τ k).encode (e k a)) g v
  | .nil, _, _ => rfl
  | .cons t fs, g, v =>
    congr (congrArg (fun m m' => Enc.mapErr g m >>= fun _ => m') (t.encodeRef_lift e hg v.1))
      (fs.encodeRef_lift e hg g v.2)

end

theorem RVariants.encodeRef_lift {D : Decls} {τ : Nat → Ty} (e : ∀ k, (addr k).Val → (τ k).Val)
    (hg : ∀ k, (unroll D 0 k).encErrGeneric = (τ k).encErrGeneric) :
    (vs : RVariants) → (r : Repr) → (prev : Option Nat) → (v : (vs.close addr).Val) →
      (vs.close τ).encode r prev (vs.lift e v)
        = vs.encodeRef D (fun k a => (τ k).encode (e k a)) r prev v
  | .nil, _, _, v => nomatch v
  | .cons d fs vs, r, prev, v =>
    match v with
    | .inl v =>
      congrArg (fun m => Enc.mapErr .badDiscriminant (encRepr r (nextDisc prev d)) >>= fun _ => m)
        (fs.encodeRef_lift e hg _ v)
    | .inr v => vs.encodeRef_lift e hg r _ v

theorem Decl.encodeRef_lift {D : Decls} {τ : Nat → Ty} (e : ∀ k, (addr k).Val → (τ k).Val)
    (hg : ∀ k, (unroll D 0 k).encErrGeneric = (τ k).encErrGeneric) :
    (d : Decl) → (v : (d.close addr).Val) →
    (d.close τ).encode (d.lift e v) = d.encodeRef D (fun k a => (τ k).encode (e k a)) v
  | .struct fs, v => fs.encodeRef_lift e hg _ v
  | .enum r vs, v => vs.encodeRef_lift e hg r none v

theorem unrollWith_generic {D : Decls} {b : Nat → Ty}
    (hb : ∀ k, (b k).encErrGeneric = (unroll D 0 k).encErrGeneric) : (n k : Nat) →
    (unroll D 0 k).encErrGeneric = (unrollWith b D n k).encErrGeneric
  | 0, k => (hb k).symm
  | n + 1, k => by
    show (D k).bottom.encErrGeneric = ((D k).close _).encErrGeneric
    cases D k <;> rfl

/-- What is encoded is the unfolding. -/
theorem Heap.encode_unfold {D : Decls} (H : Heap D) {b : Nat → Ty} (below : ∀ k, (b k).Val)
    (hb : ∀ k, (b k).encErrGeneric = (unroll D 0 k).encErrGeneric) (stop : Panic) :
    ∀ (n : Nat) (x : Nat × Nat), WithinDepth H n x →
      H.encode stop (n + 1) x.1 x.2
        = (unrollWith b D (n + 1) x.1).encode (H.unfold b below (n + 1) x.1 x.2)
  | n, x, h => by
    have hl := (D x.1).encodeRef_lift (fun k a => H.unfold b below n k a)
      (unrollWith_generic hb n) (H x.1 x.2)
    refine Eq.trans ?_ hl.symm
    rw [encode]
    refine Decl.encodeRef_rel encRel_eq _ _ fun y hy => ?_
    match n, h with
    | 0, h =>
      rw [WithinDepth] at h
      rw [h] at hy
      cases hy
    | n + 1, h => exact Heap.encode_unfold H below hb stop n y (h y hy)

/-- Types that stand for declared ones, with a value each. -/
def stub (D : Decls) (k : Nat) : Ty :=
  match D k with
  | .struct _ => .struct .nil
  | .enum r _ => .enum r (.cons none .nil .nil)

theorem stub_generic (D : Decls) (k : Nat) : (stub D k).encErrGeneric = (unroll D 0 k).encErrGeneric := by
  show _ = (D k).bottom.encErrGeneric
  unfold stub
  cases D k <;> rfl

/-- See `stub`. -/
def stubVal (D : Decls) (k : Nat) : (stub D k).Val := by
  unfold stub
  cases D k with
  | struct fs => exact ()
  | enum r vs => exact .inl ()

theorem embed_encode {D : Decls} {b : Nat → Ty}
    (hb : ∀ k, (b k).encErrGeneric = (unroll D 0 k).encErrGeneric) : (n k : Nat) →
    (v : (unroll D n k).Val) → (unrollWith b D n k).encode (embed b D n k v) = (unroll D n k).encode v
  | 0, k, v => ((D k).noBottom v).elim
  | n + 1, k, v => (D k).encode_lift
      (fun k => (unrollWith_generic (D := D) (b := unroll D 0) (fun _ => rfl) n k).symm.trans
        (unrollWith_generic hb n k) |> fun h => by
          have : ∀ m k, (unroll D m k).encErrGeneric = (unroll D 0 k).encErrGeneric := fun m => by
            induction m with
            | zero => exact fun _ => rfl
            | succ m ih => exact fun k => (unroll_generic D m k).symm.trans (ih k)
          exact (this n k).trans (unrollWith_generic hb n k)) (embed_encode hb n) v

/-! The tree as a value of the recursive type. -/

theorem exists_list {α β : Type} {p : α → β → Prop} : (l : List α) → (∀ a ∈ l, ∃ b, p a b) →
    ∃ m : List β, m.length = l.length ∧ ∀ {γ : Type} {f : α → γ} {g : β → γ},
      (∀ a b, p a b → g b = f a) → m.map g = l.map f
  | [], _ => ⟨[], rfl, fun _ => rfl⟩
  | a :: l, h => by
    obtain ⟨b, hb⟩ := h a (.head _)
    obtain ⟨m, hm, hm'⟩ := exists_list l fun c hc => h c (.tail _ hc)
    refine ⟨b :: m, by simp [hm], fun hf => ?_⟩
    rw [List.map_cons, List.map_cons, hf a b hb, hm' hf]

section

variable {ι : Type} {σ : Nat → Ty} {τ : ι → Nat → Ty} {f : ∀ i k, (σ k).Val → (τ i k).Val}
  {e : ∀ i k, Nat → (τ i k).Val}

mutual

theorem RTy.exists_lift : (r : RTy) → (v : (r.close addr).Val) →
    (∀ y ∈ refs r v, ∃ w, ∀ i, f i y.1 w = e i y.1 y.2) →
    ∃ w : (r.close σ).Val, ∀ i, r.lift (f i) w = r.lift (σ := addr) (e i) v
  | .plain _, v, _ => ⟨v, fun _ => rfl⟩
  | .named k, a, h => h (k, a) (.head _)
  | .wrap _ t, v, h => t.exists_lift v h
  | .array t n, v, h => by
    obtain ⟨m, hm, hm'⟩ := exists_list v.val fun x hx =>
      t.exists_lift x fun y hy => h y (List.mem_flatMap.mpr ⟨x, hx, hy⟩)
    exact ⟨⟨m, hm.trans v.property⟩, fun i => Subtype.ext (hm' fun a b hab => hab i)⟩
  | .seq _ t, v, h => by
    obtain ⟨m, _, hm'⟩ := exists_list (show List (t.close addr).Val from v) fun x hx =>
      t.exists_lift x fun y hy => h y (List.mem_flatMap.mpr ⟨x, hx, hy⟩)
    exact ⟨m, fun i => hm' fun a b hab => hab i⟩
  | .hashMap k t, v, h => by
    obtain ⟨m, hm, hm'⟩ := exists_list (p := fun (a : k.Val × (t.close addr).Val)
        (b : k.Val × (t.close σ).Val) => b.1 = a.1 ∧ ∀ i, t.lift (f i) b.2 = t.lift (σ := addr) (e i) a.2)
      v.val fun x hx => by
        obtain ⟨w, hw⟩ := t.exists_lift x.2 fun y hy => h y (List.mem_flatMap.mpr ⟨x, hx, hy⟩)
        exact ⟨(x.1, w), rfl, hw⟩
    have hk : m.map (·.1) = v.val.map (·.1) := hm' fun a b hab => hab.1
    refine ⟨⟨m, ?_⟩, fun i => Subtype.ext (hm' fun a b hab => ?_)⟩
    · have := v.property
      rw [hk]
      exact this
    · rw [hab.1, hab.2 i]
  | .option t, none, _ => ⟨none, fun _ => rfl⟩
  | .option t, some v, h => by
    obtain ⟨w, hw⟩ := t.exists_lift v h
    exact ⟨some w, fun i => congrArg some (hw i)⟩
  | .result t u, .ok v, h => by
    obtain ⟨w, hw⟩ := t.exists_lift v h
    exact ⟨.ok w, fun i => congrArg ResultVal.ok (hw i)⟩
  | .result t u, .err v, h => by
    obtain ⟨w, hw⟩ := u.exists_lift v h
    exact ⟨.err w, fun i => congrArg ResultVal.err (hw i)⟩
  | .bound t, .included v, h => by
    obtain ⟨w, hw⟩ := t.exists_lift v h
    exact ⟨.included w, fun i => congrArg BoundVal.included (hw i)⟩
  | .bound t, .excluded v, h => by
    obtain ⟨w, hw⟩ := t.exists_lift v h
    exact ⟨.excluded w, fun i => congrArg BoundVal.excluded (hw i)⟩
  | .bound t, .unbounded, _ => ⟨.unbounded, fun _ => rfl⟩
  | .range t, v, h => by
    obtain ⟨w, hw⟩ := t.exists_lift v.start fun y hy => h y (List.mem_append_left _ hy)
    obtain ⟨x, hx⟩ := t.exists_lift v.stop fun y hy => h y (List.mem_append_right _ hy)
    exact ⟨⟨w, x⟩, fun i => congr (congrArg RangeVal.mk (hw i)) (hx i)⟩
  | .rangeInclusive t, v, h => by
    obtain ⟨w, hw⟩ := t.exists_lift v.start fun y hy => h y (List.mem_append_left _ hy)
    obtain ⟨x, hx⟩ := t.exists_lift v.stop fun y hy => h y (List.mem_append_right _ hy)
    exact ⟨⟨w, x, v.exhausted⟩, fun i =>
      congrFun (congr (congrArg RangeInclusiveVal.mk (hw i)) (hx i)) _⟩
  | .lock _ t, v, h => by
    obtain ⟨w, hw⟩ := t.exists_lift v.val h
    exact ⟨⟨v.poisoned, w⟩, fun i => congrArg (LockVal.mk v.poisoned) (hw i)⟩
  | .refCell t, v, h => by
    obtain ⟨w, hw⟩ := t.exists_lift v.val h
    exact ⟨⟨v.mutBorrowed, w⟩, fun i => congrArg (RefCellVal.mk v.mutBorrowed) (hw i)⟩
  | .sizedSlice t n, v, h => by
    obtain ⟨m, hm, hm'⟩ := exists_list v.val fun x hx =>
      t.exists_lift x fun y hy => h y (List.mem_flatMap.mpr ⟨x, hx, hy⟩)
    exact ⟨⟨m, by rw [hm]; exact v.property⟩, fun i => Subtype.ext (hm' fun a b hab => hab i)⟩
  | .tuple fs, v, h => fs.exists_lift v h

theorem RFields.exists_lift : (fs : RFields) → (v : (fs.close addr).Val) →
    (∀ y ∈ refsFields fs v, ∃ w, ∀ i, f i y.1 w = e i y.1 y.2) →
    ∃ w : (fs.close σ).Val, ∀ i, fs.lift (f i) w = fs.lift (σ := addr) (e i) v
  | .nil, _, _ => ⟨(), fun _ => rfl⟩
  | .cons t fs, v, h => by
    obtain ⟨w, hw⟩ := t.exists_lift v.1 fun y hy => h y (List.mem_append_left _ hy)
    obtain ⟨x, hx⟩ := fs.exists_lift v.2 fun y hy => h y (List.mem_append_right _ hy)
    exact ⟨(w, x), fun i => congr (congrArg Prod.mk (hw i)) (hx i)⟩

end

theorem RVariants.exists_lift : (vs : RVariants) → (v : (vs.close addr).Val) →
    (∀ y ∈ refsVariants vs v, ∃ w, ∀ i, f i y.1 w = e i y.1 y.2) →
    ∃ w : (vs.close σ).Val, ∀ i, vs.lift (f i) w = vs.lift (σ := addr) (e i) v
  | .nil, v, _ => nomatch v
  | .cons _ fs _, .inl v, h => by
    obtain ⟨w, hw⟩ := fs.exists_lift v h
    exact ⟨.inl w, fun i => congrArg Sum.inl (hw i)⟩
  | .cons _ _ vs, .inr v, h => by
    obtain ⟨w, hw⟩ := vs.exists_lift v h
    exact ⟨.inr w, fun i => congrArg Sum.inr (hw i)⟩

theorem Decl.exists_lift : (d : Decl) → (v : (d.close addr).Val) →
    (∀ y ∈ refsDecl d v, ∃ w, ∀ i, f i y.1 w = e i y.1 y.2) →
    ∃ w : (d.close σ).Val, ∀ i, d.lift (f i) w = d.lift (σ := addr) (e i) v
  | .struct fs, v, h => fs.exists_lift v h
  | .enum _ vs, v, h => vs.exists_lift v h

end

theorem Heap.exists_tree {D : Decls} (H : Heap D) : ∀ (n : Nat) (x : Nat × Nat), WithinDepth H n x →
    ∃ v : (unroll D (n + 1) x.1).Val, ∀ i : (b : Nat → Ty) × (∀ k, (b k).Val),
      embed i.1 D (n + 1) x.1 v = H.unfold i.1 i.2 (n + 1) x.1 x.2
  | n, x, h => by
    refine Decl.exists_lift (ι := (b : Nat → Ty) × (∀ k, (b k).Val)) (σ := unroll D n)
      (τ := fun i => unrollWith i.1 D n) (f := fun i => embed i.1 D n)
      (e := fun i k a => H.unfold i.1 i.2 n k a) (D x.1) (H x.1 x.2) fun y hy => ?_
    match n, h with
    | 0, h =>
      rw [WithinDepth] at h
      rw [h] at hy
      cases hy
    | n + 1, h => exact Heap.exists_tree H n y (h y hy)

end Oct
