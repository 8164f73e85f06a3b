import Verif.Spec.Order
import Verif.Spec.Format
/-
Decoding does not depend on the order of entries.
-/
namespace Oct
open Spec
set_option linter.unusedVariables false
variable {α β γ δ : Type}

/-- The same outcome, with related values. -/
def Res.Akin (R : α → β → Prop) : Res DecErr α → Res DecErr β → Prop
  | .ok a, .ok b => R a b
  | .err e, .err e' => e = e'
  | .panic p, .panic p' => p = p'
  | .ub u, .ub u' => u = u'
  | _, _ => False

/-- The same outcome from every input, with related values and the same octets taken. -/
def Dec.Akin (R : α → β → Prop) (d : Dec α) (d' : Dec β) : Prop :=
  ∀ i, (d' i).2 = (d i).2 ∧ Res.Akin R (d i).1 (d' i).1

namespace Dec.Akin
variable {R : α → β → Prop} {S : γ → δ → Prop}

theorem same (d : Dec α) : Dec.Akin Eq d d := fun i => ⟨rfl, by
  cases (d i).1 <;> exact rfl⟩

theorem pure' {a : α} {b : β} (h : R a b) : Dec.Akin R (pure a) (pure b) := fun _ => ⟨rfl, h⟩

theorem fail (e : DecErr) : Dec.Akin R (Dec.fail e) (Dec.fail e) := fun _ => ⟨rfl, rfl⟩

theorem mapErr {d : Dec α} {d' : Dec β} (g : DecErr → DecErr) (h : Dec.Akin R d d') :
    Dec.Akin R (d.mapErr g) (d'.mapErr g) := by
  intro i
  have hi := h i
  unfold Dec.mapErr
  generalize d i = q at hi ⊢
  generalize d' i = q' at hi ⊢
  obtain ⟨r, i1⟩ := q
  obtain ⟨r', i2⟩ := q'
  obtain ⟨rfl, h⟩ := hi
  cases r <;> cases r' <;> try exact h.elim
  · exact ⟨rfl, h⟩
  · cases h; exact ⟨rfl, rfl⟩
  · exact ⟨rfl, h⟩
  · exact ⟨rfl, h⟩

theorem bind {m : Dec α} {m' : Dec β} {f : α → Dec γ} {f' : β → Dec δ} (hm : Dec.Akin R m m')
    (hf : ∀ a b, R a b → Dec.Akin S (f a) (f' b)) : Dec.Akin S (m >>= f) (m' >>= f') := by
  intro i
  have hi := hm i
  show (Dec.bind m' f' i).2 = (Dec.bind m f i).2 ∧ Res.Akin S (Dec.bind m f i).1 (Dec.bind m' f' i).1
  unfold Dec.bind
  generalize m i = q at hi ⊢
  generalize m' i = q' at hi ⊢
  obtain ⟨r, i1⟩ := q
  obtain ⟨r', i2⟩ := q'
  obtain ⟨rfl, h⟩ := hi
  cases r <;> cases r' <;> try exact h.elim
  · exact hf _ _ h _
  · exact ⟨rfl, h⟩
  · exact ⟨rfl, h⟩
  · exact ⟨rfl, h⟩

/-- What comes first is the same. -/
theorem after {m : Dec α} {f : α → Dec γ} {f' : α → Dec δ} (hf : ∀ a, Dec.Akin S (f a) (f' a)) :
    Dec.Akin S (m >>= f) (m >>= f') := (same m).bind fun a _ h => h ▸ hf a

theorem ite {c : Prop} [Decidable c] {m n : Dec α} {m' n' : Dec β} (h : Dec.Akin R m m')
    (h' : Dec.Akin R n n') : Dec.Akin R (if c then m else n) (if c then m' else n') := by
  split
  · exact h
  · exact h'

end Dec.Akin

theorem Pointwise.take {R : α → β → Prop} : (n : Nat) → (l : List α) → (l' : List β) →
    Pointwise R l l' → Pointwise R (l.take n) (l'.take n)
  | 0, _, _, _ => by simp [Pointwise]
  | n + 1, [], [], _ => trivial
  | n + 1, a :: l, b :: l', h => ⟨h.1, Pointwise.take n l l' h.2⟩

theorem decItems_akin {R : α → β → Prop} {d : Dec α} {d' : Dec β} (h : Dec.Akin R d d') : (n i : Nat) →
    Dec.Akin (fun a b => Pointwise R a.val b.val) (decItems d n i) (decItems d' n i)
  | 0, _ => Dec.Akin.pure' trivial
  | n + 1, i => (h.mapErr _).bind fun a b hab => (decItems_akin h n (i + 1)).bind fun l l' hl =>
      Dec.Akin.pure' ⟨hab, hl⟩

/-- What is in a hash map after an `insert`. -/
theorem mem_mapInsert_iff [DecidableEq α] (k : α) (v : β) (l : List (α × β)) (hl : (l.map Prod.fst).Nodup)
    (x : α) (a : β) : (x, a) ∈ mapInsert k v l ↔ x = k ∧ a = v ∨ x ≠ k ∧ (x, a) ∈ l := by
  induction l with
  | nil =>
    simp only [mapInsert, List.mem_singleton, Prod.mk.injEq, List.not_mem_nil, and_false, or_false]
  | cons p l ih =>
    obtain ⟨k', v'⟩ := p
    simp only [List.map_cons, List.nodup_cons] at hl
    unfold mapInsert
    split
    · rename_i h
      subst h
      simp only [List.mem_cons, Prod.mk.injEq]
      constructor
      · rintro (h | h)
        · exact .inl h
        · exact .inr ⟨fun hx => hl.1 (hx ▸ List.mem_map.mpr ⟨_, h, rfl⟩), .inr h⟩
      · rintro (h | ⟨hx, h | h⟩)
        · exact .inl h
        · exact absurd h.1 hx
        · exact .inr h
    · rename_i h
      simp only [List.mem_cons, ih hl.2, Prod.mk.injEq]
      constructor
      · rintro (⟨h1, h2⟩ | h1 | h1)
        · exact .inr ⟨fun hx => h (h1 ▸ hx), .inl ⟨h1, h2⟩⟩
        · exact .inl h1
        · exact .inr ⟨h1.1, .inr h1.2⟩
      · rintro (h1 | ⟨h1, h2 | h2⟩)
        · exact .inr (.inl h1)
        · exact .inl h2
        · exact .inr (.inr ⟨h1, h2⟩)

theorem mem_setInsert_iff [DecidableEq α] (k : α) (l : List α) (x : α) :
    x ∈ setInsert k l ↔ x = k ∨ x ∈ l := by
  unfold setInsert
  split
  · rename_i h
    exact ⟨.inr, fun h' => h'.elim (fun e => e ▸ h) id⟩
  · simp only [List.mem_append, List.mem_singleton]
    exact Or.comm

theorem sameEntries_insert [DecidableEq α] {R : β → γ → Prop} (k : α) {v : β} {w : γ} (hvw : R v w)
    {l : List (α × β)} {l' : List (α × γ)} (hl : (l.map Prod.fst).Nodup) (hl' : (l'.map Prod.fst).Nodup)
    (h : SameEntries R l l') : SameEntries R (mapInsert k v l) (mapInsert k w l') := by
  constructor
  · intro x a ha
    rcases (mem_mapInsert_iff k v l hl x a).mp ha with ⟨h1, h2⟩ | ⟨h1, h2⟩
    · exact ⟨w, (mem_mapInsert_iff k w l' hl' x w).mpr (.inl ⟨h1, rfl⟩), h2 ▸ hvw⟩
    · obtain ⟨b, hb, hR⟩ := h.1 x a h2
      exact ⟨b, (mem_mapInsert_iff k w l' hl' x b).mpr (.inr ⟨h1, hb⟩), hR⟩
  · intro x b hb
    rcases (mem_mapInsert_iff k w l' hl' x b).mp hb with ⟨h1, h2⟩ | ⟨h1, h2⟩
    · exact ⟨v, (mem_mapInsert_iff k v l hl x v).mpr (.inl ⟨h1, rfl⟩), h2 ▸ hvw⟩
    · obtain ⟨a, ha, hR⟩ := h.2 x b h2
      exact ⟨a, (mem_mapInsert_iff k v l hl x a).mpr (.inr ⟨h1, ha⟩), hR⟩

theorem sameEntries_perm {R : β → γ → Prop} {l : List (α × β)} {l' l'' : List (α × γ)}
    (h : SameEntries R l l') (hp : l''.Perm l') : SameEntries R l l'' :=
  ⟨fun k v hv => (by
    obtain ⟨w, hw, hR⟩ := h.1 k v hv
    exact ⟨w, hp.mem_iff.mpr hw, hR⟩), fun k w hw => h.2 k w (hp.mem_iff.mp hw)⟩

theorem sameEntries_nil {R : β → γ → Prop} : SameEntries R ([] : List (α × β)) ([] : List (α × γ)) :=
  ⟨fun _ _ h => (nomatch h), fun _ _ h => (nomatch h)⟩

theorem decMapLoop_akin [DecidableEq α] (o : Order) {R : β → γ → Prop} {dk dk' : Dec α} {dv : Dec β}
    {dv' : Dec γ} (hk : Dec.Akin Eq dk dk') (hv : Dec.Akin R dv dv') :
    (n i : Nat) → (m : MapVal α β) → (m' : MapVal α γ) → SameEntries R m.val m'.val →
    Dec.Akin (fun m m' => SameEntries R m.val m'.val) (decMapLoop dk dv n i m)
      (decMapLoopBy o dk' dv' n i m')
  | 0, _, _, _, h => Dec.Akin.pure' h
  | n + 1, i, m, m', h => (hk.mapErr _).bind fun k k' hkk => (hv.mapErr _).bind fun v w hvw => by
    subst hkk
    intro j
    exact decMapLoop_akin o hk hv n (i + 1) _ _
      (sameEntries_perm (sameEntries_insert k hvw m.property m'.property h) (o.perm j _)) j

theorem decSetLoop_akin [DecidableEq α] (o : Order) {dk dk' : Dec α} (hk : Dec.Akin Eq dk dk') :
    (n i : Nat) → (s s' : SetVal α) → (∀ x, x ∈ s.val ↔ x ∈ s'.val) →
    Dec.Akin (fun s s' => ∀ x, x ∈ s.val ↔ x ∈ s'.val) (decSetLoop dk n i s)
      (decSetLoopBy o dk' n i s')
  | 0, _, _, _, h => Dec.Akin.pure' h
  | n + 1, i, s, s', h => (hk.mapErr _).bind fun k k' hkk => by
    subst hkk
    intro j
    refine decSetLoop_akin o hk n (i + 1) _ _ (fun x => ?_) j
    rw [mem_setInsert_iff, (o.perm j _).mem_iff, mem_setInsert_iff, h x]

theorem pointwise_eq {R : α → α → Prop} (h : ∀ a b, R a b ↔ a = b) : (l l' : List α) →
    (Pointwise R l l' ↔ l = l')
  | [], [] => ⟨fun _ => rfl, fun _ => trivial⟩
  | [], _ :: _ => ⟨fun h => h.elim, fun h => nomatch h⟩
  | _ :: _, [] => ⟨fun h => h.elim, fun h => nomatch h⟩
  | a :: l, b :: l' => by
    show R a b ∧ Pointwise R l l' ↔ _
    rw [h, pointwise_eq h l l']
    exact ⟨fun ⟨h1, h2⟩ => h1 ▸ h2 ▸ rfl, fun h => ⟨(List.cons.inj h).1, (List.cons.inj h).2⟩⟩

mutual

/-- Without hash maps and hash sets, there is nothing to put in another order. -/
theorem Ty.akin_iff : (t : Ty) → Ordered t → (v w : t.Val) → (Akin t v w ↔ v = w)
  | .wrap _ t, h, v, w => t.akin_iff h.2 v w
  | .array t _, h, v, w => (pointwise_eq (t.akin_iff h.2) v.val w.val).trans
      ⟨fun h => Subtype.ext h, fun h => congrArg Subtype.val h⟩
  | .seq _ t, h, v, w => pointwise_eq (t.akin_iff h.2) v w
  | .option t, h, v, w => by
    match v, w with
    | none, none => exact ⟨fun _ => rfl, fun _ => trivial⟩
    | some v, some w => exact (t.akin_iff h.2 v w).trans ⟨fun h => congrArg some h, fun h => Option.some.inj h⟩
    | none, some w => exact ⟨fun h => h.elim, fun h => nomatch h⟩
    | some v, none => exact ⟨fun h => h.elim, fun h => nomatch h⟩
  | .result t e, h, v, w => by
    match v, w with
    | .ok v, .ok w => exact (t.akin_iff h.2.1 v w).trans ⟨fun h => congrArg _ h, fun h => ResultVal.ok.inj h⟩
    | .err v, .err w => exact (e.akin_iff h.2.2 v w).trans ⟨fun h => congrArg _ h, fun h => ResultVal.err.inj h⟩
    | .ok v, .err w => exact ⟨fun h => h.elim, fun h => nomatch h⟩
    | .err v, .ok w => exact ⟨fun h => h.elim, fun h => nomatch h⟩
  | .bound t, h, v, w => by
    match v, w with
    | .included v, .included w =>
      exact (t.akin_iff h.2 v w).trans ⟨fun h => congrArg _ h, fun h => BoundVal.included.inj h⟩
    | .excluded v, .excluded w =>
      exact (t.akin_iff h.2 v w).trans ⟨fun h => congrArg _ h, fun h => BoundVal.excluded.inj h⟩
    | .unbounded, .unbounded => exact ⟨fun _ => rfl, fun _ => trivial⟩
    | .included v, .excluded w => exact ⟨fun h => h.elim, fun h => nomatch h⟩
    | .included v, .unbounded => exact ⟨fun h => h.elim, fun h => nomatch h⟩
    | .excluded v, .included w => exact ⟨fun h => h.elim, fun h => nomatch h⟩
    | .excluded v, .unbounded => exact ⟨fun h => h.elim, fun h => nomatch h⟩
    | .unbounded, .included w => exact ⟨fun h => h.elim, fun h => nomatch h⟩
    | .unbounded, .excluded w => exact ⟨fun h => h.elim, fun h => nomatch h⟩
  | .range t, h, ⟨a, b⟩, ⟨c, d⟩ => by
    show Akin t a c ∧ Akin t b d ↔ _
    rw [t.akin_iff h.2, t.akin_iff h.2]
    exact ⟨fun ⟨h1, h2⟩ => h1 ▸ h2 ▸ rfl, fun h => by cases h; exact ⟨rfl, rfl⟩⟩
  | .rangeInclusive t, h, ⟨a, b, x⟩, ⟨c, d, y⟩ => by
    show Akin t a c ∧ Akin t b d ∧ x = y ↔ _
    rw [t.akin_iff h.2, t.akin_iff h.2]
    exact ⟨fun ⟨h1, h2, h3⟩ => h1 ▸ h2 ▸ h3 ▸ rfl, fun h => by cases h; exact ⟨rfl, rfl, rfl⟩⟩
  | .lock _ t, h, ⟨x, a⟩, ⟨y, b⟩ => by
    show x = y ∧ Akin t a b ↔ _
    rw [t.akin_iff h.2]
    exact ⟨fun ⟨h1, h2⟩ => h1 ▸ h2 ▸ rfl, fun h => by cases h; exact ⟨rfl, rfl⟩⟩
  | .refCell t, h, ⟨x, a⟩, ⟨y, b⟩ => by
    show x = y ∧ Akin t a b ↔ _
    rw [t.akin_iff h.2]
    exact ⟨fun ⟨h1, h2⟩ => h1 ▸ h2 ▸ rfl, fun h => by cases h; exact ⟨rfl, rfl⟩⟩
  | .sizedSlice t _, h, v, w => (pointwise_eq (t.akin_iff h.2) v.val w.val).trans
      ⟨fun h => Subtype.ext h, fun h => congrArg Subtype.val h⟩
  | .tuple fs, h, v, w => fs.akin_iff h.2 v w
  | .struct fs, h, v, w => fs.akin_iff h.2 v w
  | .enum _ vs, h, v, w => vs.akin_iff h.2 v w
  | .num _, _, _, _ | .bool, _, _, _ | .char, _, _, _ | .usize, _, _, _ | .isize, _, _, _
  | .nonZero _, _, _, _ | .unit _, _, _, _ | .infallible, _, _, _ | .duration, _, _, _
  | .systemTime _, _, _, _ | .ipv4, _, _, _ | .ipv6, _, _, _ | .ipAddr, _, _, _
  | .socketAddrV4, _, _, _ | .socketAddrV6, _, _, _ | .socketAddr, _, _, _ | .str _, _, _, _
  | .cStr _, _, _, _ | .sizedStr _, _, _, _ => Iff.rfl
  | .hashMap _ _, h, _, _ => h.1.elim
  | .hashSet _, h, _, _ => h.1.elim

theorem Fields.akin_iff : (fs : Fields) →
    EverywhereFields (fun | .hashMap _ _ | .hashSet _ => False | _ => True) fs → (v w : fs.Val) →
    (AkinFields fs v w ↔ v = w)
  | .nil, _, _, _ => ⟨fun _ => rfl, fun _ => trivial⟩
  | .cons t fs, h, (a, b), (c, d) => by
    show Akin t a c ∧ AkinFields fs b d ↔ _
    rw [t.akin_iff h.1, fs.akin_iff h.2]
    exact ⟨fun ⟨h1, h2⟩ => h1 ▸ h2 ▸ rfl, fun h => by cases h; exact ⟨rfl, rfl⟩⟩

theorem Variants.akin_iff : (vs : Variants) →
    EverywhereVariants (fun | .hashMap _ _ | .hashSet _ => False | _ => True) vs → (v w : vs.Val) →
    (AkinVariants vs v w ↔ v = w)
  | .nil, _, v, _ => nomatch v
  | .cons _ fs vs, h, v, w => by
    match v, w with
    | .inl v, .inl w => exact (fs.akin_iff h.1 v w).trans ⟨fun h => congrArg _ h, fun h => Sum.inl.inj h⟩
    | .inr v, .inr w => exact (vs.akin_iff h.2 v w).trans ⟨fun h => congrArg _ h, fun h => Sum.inr.inj h⟩
    | .inl v, .inr w => exact ⟨fun h => h.elim, fun h => nomatch h⟩
    | .inr v, .inl w => exact ⟨fun h => h.elim, fun h => nomatch h⟩

end

/-- Relates what is related by equivalent relations. -/
theorem Dec.Akin.iff {R S : α → β → Prop} (h : ∀ a b, R a b → S a b) {d : Dec α} {d' : Dec β}
    (hd : Dec.Akin R d d') : Dec.Akin S d d' := fun i => by
  have hi := hd i
  refine ⟨hi.1, ?_⟩
  generalize (d i).1 = r at hi ⊢
  generalize (d' i).1 = r' at hi ⊢
  cases r <;> cases r' <;> first | exact h _ _ hi.2 | exact hi.2

mutual

theorem Ty.decodeBy_akin (o : Order) : (t : Ty) → Everywhere HashableKeys t →
    Dec.Akin (Akin t) t.decode (t.decodeBy o)
  | .wrap _ t, h => t.decodeBy_akin o h.2
  | .array t n, h => decItems_akin (t.decodeBy_akin o h.2) n 0
  | .seq _ t, h => Dec.Akin.after fun n => (decItems_akin (t.decodeBy_akin o h.2) n 0).bind
      fun _ _ h => Dec.Akin.pure' h
  | .hashMap k v, h => Dec.Akin.after fun n => @decMapLoop_akin _ _ _ k.decEq o _ _ _ _ _
      ((k.decodeBy_akin o h.2.1).iff fun a b => (k.akin_iff h.1 a b).mp) (v.decodeBy_akin o h.2.2) n 0 _ _
      sameEntries_nil
  | .hashSet k, h => Dec.Akin.after fun n => @decSetLoop_akin _ k.decEq o _ _
      ((k.decodeBy_akin o h.2).iff fun a b => (k.akin_iff h.1 a b).mp) n 0 _ _ fun _ => Iff.rfl
  | .option t, h => Dec.Akin.after fun s => Dec.Akin.ite
      ((t.decodeBy_akin o h.2).bind fun _ _ h => Dec.Akin.pure' h) (Dec.Akin.pure' trivial)
  | .result t e, h => Dec.Akin.after fun s => Dec.Akin.ite
      (((e.decodeBy_akin o h.2.2).mapErr _).bind fun _ _ h => Dec.Akin.pure' h)
      (((t.decodeBy_akin o h.2.1).mapErr _).bind fun _ _ h => Dec.Akin.pure' h)
  | .bound t, h => Dec.Akin.after fun d => Dec.Akin.ite
      (((t.decodeBy_akin o h.2).mapErr _).bind fun _ _ h => Dec.Akin.pure' h) (Dec.Akin.ite
      (((t.decodeBy_akin o h.2).mapErr _).bind fun _ _ h => Dec.Akin.pure' h)
      (Dec.Akin.ite (Dec.Akin.pure' trivial) (Dec.Akin.fail _)))
  | .range t, h => (t.decodeBy_akin o h.2).bind fun _ _ h1 => (t.decodeBy_akin o h.2).bind
      fun _ _ h2 => Dec.Akin.pure' ⟨h1, h2⟩
  | .rangeInclusive t, h => (t.decodeBy_akin o h.2).bind fun _ _ h1 => (t.decodeBy_akin o h.2).bind
      fun _ _ h2 => Dec.Akin.pure' ⟨h1, h2, rfl⟩
  | .lock _ t, h => (t.decodeBy_akin o h.2).bind fun _ _ h => Dec.Akin.pure' ⟨rfl, h⟩
  | .refCell t, h => (t.decodeBy_akin o h.2).bind fun _ _ h => Dec.Akin.pure' ⟨rfl, h⟩
  | .sizedSlice t n, h => Dec.Akin.after fun len => Dec.Akin.ite (Dec.Akin.fail _)
      ((decItems_akin (t.decodeBy_akin o h.2) n 0).bind fun _ _ h =>
        Dec.Akin.pure' (Pointwise.take _ _ _ h))
  | .tuple fs, h => fs.decodeBy_akin o h.2 id
  | .struct fs, h => fs.decodeBy_akin o h.2 DecErr.toGeneric
  | .enum _ vs, h => Dec.Akin.after fun x => vs.decodeBy_akin o h.2 none x
  | .num _, _ | .bool, _ | .char, _ | .usize, _ | .isize, _ | .nonZero _, _ | .unit _, _
  | .infallible, _ | .duration, _ | .systemTime _, _ | .ipv4, _ | .ipv6, _ | .ipAddr, _
  | .socketAddrV4, _ | .socketAddrV6, _ | .socketAddr, _ | .str _, _ | .cStr _, _
  | .sizedStr _, _ => Dec.Akin.same _

theorem Fields.decodeBy_akin (o : Order) : (fs : Fields) → EverywhereFields HashableKeys fs →
    (g : DecErr → DecErr) → Dec.Akin (AkinFields fs) (fs.decode g) (fs.decodeBy o g)
  | .nil, _, _ => Dec.Akin.pure' trivial
  | .cons t fs, h, g => ((t.decodeBy_akin o h.1).mapErr g).bind fun _ _ h1 =>
      (fs.decodeBy_akin o h.2 g).bind fun _ _ h2 => Dec.Akin.pure' ⟨h1, h2⟩

theorem Variants.decodeBy_akin (o : Order) : (vs : Variants) → EverywhereVariants HashableKeys vs →
    (prev : Option Nat) → (x : Int) → Dec.Akin (AkinVariants vs) (vs.decode prev x) (vs.decodeBy o prev x)
  | .nil, _, _, _ => Dec.Akin.fail _
  | .cons d fs vs, h, prev, x => Dec.Akin.ite
      ((fs.decodeBy_akin o h.1 _).bind fun _ _ h => Dec.Akin.pure' h)
      ((vs.decodeBy_akin o h.2 _ x).bind fun _ _ h => Dec.Akin.pure' h)

end

/-- The entries of a hash map are those of an alike one, in another order. -/
theorem SameEntries.exists_perm {R : β → γ → Prop} : (l : List (α × β)) → (l' : List (α × γ)) →
    (l.map Prod.fst).Nodup → (l'.map Prod.fst).Nodup → SameEntries R l l' →
    ∃ l'', l''.Perm l' ∧ Pointwise (fun p q => p.1 = q.1 ∧ R p.2 q.2) l l''
  | [], [], _, _, _ => ⟨[], .refl _, trivial⟩
  | [], (k, w) :: l', _, _, h => by
    obtain ⟨_, hv, _⟩ := h.2 k w List.mem_cons_self
    exact nomatch hv
  | (k, v) :: l, l', hl, hl', h => by
    obtain ⟨w, hw, hR⟩ := h.1 k v List.mem_cons_self
    obtain ⟨s, t, rfl⟩ := List.append_of_mem hw
    rw [List.map_cons, List.nodup_cons] at hl
    have hp : (s ++ (k, w) :: t).Perm ((k, w) :: (s ++ t)) := List.perm_middle
    have hn := (hp.map Prod.fst).nodup_iff.mp hl'
    rw [List.map_cons, List.nodup_cons] at hn
    obtain ⟨l'', h1, h2⟩ := SameEntries.exists_perm (R := R) l (s ++ t) hl.2 hn.2 ⟨fun x a ha => by
        obtain ⟨b, hb, hr⟩ := h.1 x a (List.mem_cons_of_mem _ ha)
        refine ⟨b, ?_, hr⟩
        rcases List.mem_cons.mp (hp.mem_iff.mp hb) with h | h
        · cases h
          exact absurd (List.mem_map.mpr ⟨_, ha, rfl⟩) hl.1
        · exact h, fun x b hb => by
        obtain ⟨a, ha, hr⟩ := h.2 x b (hp.mem_iff.mpr (List.mem_cons_of_mem _ hb))
        refine ⟨a, ?_, hr⟩
        rcases List.mem_cons.mp ha with h | h
        · cases h
          exact absurd (List.mem_map.mpr ⟨_, hb, rfl⟩) hn.1
        · exact h⟩
    exact ⟨(k, w) :: l'', (h1.cons _).trans hp.symm, ⟨rfl, hR⟩, h2⟩

theorem Pointwise.length {R : α → β → Prop} : {l : List α} → {l' : List β} → Pointwise R l l' →
    l.length = l'.length
  | [], [], _ => rfl
  | _ :: _, _ :: _, h => congrArg (· + 1) (Pointwise.length h.2)

theorem Pointwise.flatMap_perm {R : α → β → Prop} {f : α → List δ} {g : β → List δ}
    (h : ∀ a b, R a b → (f a).Perm (g b)) : {l : List α} → {l' : List β} → Pointwise R l l' →
    (l.flatMap f).Perm (l'.flatMap g)
  | [], [], _ => .refl _
  | a :: l, b :: l', hp => by
    rw [List.flatMap_cons, List.flatMap_cons]
    exact (h a b hp.1).append (Pointwise.flatMap_perm h hp.2)

theorem Pointwise.forall_iff {R : α → β → Prop} {P : α → Prop} {Q : β → Prop}
    (h : ∀ a b, R a b → (P a ↔ Q b)) : {l : List α} → {l' : List β} → Pointwise R l l' →
    ((∀ a ∈ l, P a) ↔ ∀ b ∈ l', Q b)
  | [], [], _ => ⟨fun _ _ h => (nomatch h), fun _ _ h => (nomatch h)⟩
  | a :: l, b :: l', hp => by
    rw [List.forall_mem_cons, List.forall_mem_cons, h a b hp.1, Pointwise.forall_iff h hp.2]

theorem Pointwise.refl {R : α → α → Prop} (h : ∀ a, R a a) : (l : List α) → Pointwise R l l
  | [] => trivial
  | a :: l => ⟨h a, Pointwise.refl h l⟩

theorem Pointwise.symm {R : α → α → Prop} (h : ∀ a b, R a b → R b a) : {l l' : List α} →
    Pointwise R l l' → Pointwise R l' l
  | [], [], _ => trivial
  | _ :: _, _ :: _, hp => ⟨h _ _ hp.1, Pointwise.symm h hp.2⟩

theorem Pointwise.trans {R : α → α → Prop} (h : ∀ a b c, R a b → R b c → R a c) :
    {l l' l'' : List α} → Pointwise R l l' → Pointwise R l' l'' → Pointwise R l l''
  | [], [], [], _, _ => trivial
  | _ :: _, _ :: _, _ :: _, hp, hq => ⟨h _ _ _ hp.1 hq.1, Pointwise.trans h hp.2 hq.2⟩

mutual

theorem Ty.akin_refl : (t : Ty) → (v : t.Val) → Akin t v v
  | .wrap _ t, v => t.akin_refl v
  | .array t _, v => Pointwise.refl t.akin_refl v.val
  | .seq _ t, v => Pointwise.refl t.akin_refl v
  | .hashMap _ t, v => ⟨fun _ a h => ⟨a, h, t.akin_refl a⟩, fun _ a h => ⟨a, h, t.akin_refl a⟩⟩
  | .hashSet _, _ => fun _ => Iff.rfl
  | .option t, v => by
    match v with
    | none => trivial
    | some v => exact t.akin_refl v
  | .result t e, v => by
    match v with
    | .ok v => exact t.akin_refl v
    | .err v => exact e.akin_refl v
  | .bound t, v => by
    match v with
    | .included v => exact t.akin_refl v
    | .excluded v => exact t.akin_refl v
    | .unbounded => trivial
  | .range t, v => ⟨t.akin_refl _, t.akin_refl _⟩
  | .rangeInclusive t, v => ⟨t.akin_refl _, t.akin_refl _, rfl⟩
  | .lock _ t, v => ⟨rfl, t.akin_refl _⟩
  | .refCell t, v => ⟨rfl, t.akin_refl _⟩
  | .sizedSlice t _, v => Pointwise.refl t.akin_refl v.val
  | .tuple fs, v => fs.akin_refl v
  | .struct fs, v => fs.akin_refl v
  | .enum _ vs, v => vs.akin_refl v
  | .num _, _ | .bool, _ | .char, _ | .usize, _ | .isize, _ | .nonZero _, _ | .unit _, _
  | .infallible, _ | .duration, _ | .systemTime _, _ | .ipv4, _ | .ipv6, _ | .ipAddr, _
  | .socketAddrV4, _ | .socketAddrV6, _ | .socketAddr, _ | .str _, _ | .cStr _, _
  | .sizedStr _, _ => rfl

theorem Fields.akin_refl : (fs : Fields) → (v : fs.Val) → AkinFields fs v v
  | .nil, _ => trivial
  | .cons t fs, v => ⟨t.akin_refl _, fs.akin_refl _⟩

theorem Variants.akin_refl : (vs : Variants) → (v : vs.Val) → AkinVariants vs v v
  | .nil, _ => trivial
  | .cons _ fs vs, v => by
    match v with
    | .inl v => exact fs.akin_refl v
    | .inr v => exact vs.akin_refl v

end

mutual

theorem Ty.akin_symm : (t : Ty) → (v w : t.Val) → Akin t v w → Akin t w v
  | .wrap _ t, v, w, h => t.akin_symm v w h
  | .array t _, v, w, h => Pointwise.symm t.akin_symm h
  | .seq _ t, v, w, h => Pointwise.symm t.akin_symm h
  | .hashMap _ t, v, w, h => ⟨fun k a ha => (by
      obtain ⟨b, hb, hr⟩ := h.2 k a ha
      exact ⟨b, hb, t.akin_symm _ _ hr⟩), fun k a ha => (by
      obtain ⟨b, hb, hr⟩ := h.1 k a ha
      exact ⟨b, hb, t.akin_symm _ _ hr⟩)⟩
  | .hashSet _, _, _, h => fun k => (h k).symm
  | .option t, v, w, h => by
    match v, w, h with
    | none, none, _ => trivial
    | some v, some w, h => exact t.akin_symm v w h
  | .result t e, v, w, h => by
    match v, w, h with
    | .ok v, .ok w, h => exact t.akin_symm v w h
    | .err v, .err w, h => exact e.akin_symm v w h
  | .bound t, v, w, h => by
    match v, w, h with
    | .included v, .included w, h => exact t.akin_symm v w h
    | .excluded v, .excluded w, h => exact t.akin_symm v w h
    | .unbounded, .unbounded, _ => trivial
  | .range t, v, w, h => ⟨t.akin_symm _ _ h.1, t.akin_symm _ _ h.2⟩
  | .rangeInclusive t, v, w, h => ⟨t.akin_symm _ _ h.1, t.akin_symm _ _ h.2.1, h.2.2.symm⟩
  | .lock _ t, v, w, h => ⟨h.1.symm, t.akin_symm _ _ h.2⟩
  | .refCell t, v, w, h => ⟨h.1.symm, t.akin_symm _ _ h.2⟩
  | .sizedSlice t _, v, w, h => Pointwise.symm t.akin_symm h
  | .tuple fs, v, w, h => fs.akin_symm v w h
  | .struct fs, v, w, h => fs.akin_symm v w h
  | .enum _ vs, v, w, h => vs.akin_symm v w h
  | .num _, _, _, h | .bool, _, _, h | .char, _, _, h | .usize, _, _, h | .isize, _, _, h
  | .nonZero _, _, _, h | .unit _, _, _, h | .infallible, _, _, h | .duration, _, _, h
  | .systemTime _, _, _, h | .ipv4, _, _, h | .ipv6, _, _, h | .ipAddr, _, _, h
  | .socketAddrV4, _, _, h | .socketAddrV6, _, _, h | .socketAddr, _, _, h | .str _, _, _, h
  | .cStr _, _, _, h | .sizedStr _, _, _, h => Eq.symm h

theorem Fields.akin_symm : (fs : Fields) → (v w : fs.Val) → AkinFields fs v w → AkinFields fs w v
  | .nil, _, _, _ => trivial
  | .cons t fs, v, w, h => ⟨t.akin_symm _ _ h.1, fs.akin_symm _ _ h.2⟩

theorem Variants.akin_symm : (vs : Variants) → (v w : vs.Val) → AkinVariants vs v w →
    AkinVariants vs w v
  | .nil, _, _, _ => trivial
  | .cons _ fs vs, v, w, h => by
    match v, w, h with
    | .inl v, .inl w, h => exact fs.akin_symm v w h
    | .inr v, .inr w, h => exact vs.akin_symm v w h

end

mutual

theorem Ty.akin_trans : (t : Ty) → (v w x : t.Val) → Akin t v w → Akin t w x → Akin t v x
  | .wrap _ t, v, w, x, h, h' => t.akin_trans v w x h h'
  | .array t _, v, w, x, h, h' => Pointwise.trans t.akin_trans h h'
  | .seq _ t, v, w, x, h, h' => Pointwise.trans t.akin_trans h h'
  | .hashMap _ t, v, w, x, h, h' => ⟨fun k a ha => (by
      obtain ⟨b, hb, hr⟩ := h.1 k a ha
      obtain ⟨c, hc, hr'⟩ := h'.1 k b hb
      exact ⟨c, hc, t.akin_trans _ _ _ hr hr'⟩), fun k a ha => (by
      obtain ⟨b, hb, hr⟩ := h'.2 k a ha
      obtain ⟨c, hc, hr'⟩ := h.2 k b hb
      exact ⟨c, hc, t.akin_trans _ _ _ hr' hr⟩)⟩
  | .hashSet _, _, _, _, h, h' => fun k => (h k).trans (h' k)
  | .option t, v, w, x, h, h' => by
    match v, w, x, h, h' with
    | none, none, none, _, _ => trivial
    | some v, some w, some x, h, h' => exact t.akin_trans v w x h h'
  | .result t e, v, w, x, h, h' => by
    match v, w, x, h, h' with
    | .ok v, .ok w, .ok x, h, h' => exact t.akin_trans v w x h h'
    | .err v, .err w, .err x, h, h' => exact e.akin_trans v w x h h'
  | .bound t, v, w, x, h, h' => by
    match v, w, x, h, h' with
    | .included v, .included w, .included x, h, h' => exact t.akin_trans v w x h h'
    | .excluded v, .excluded w, .excluded x, h, h' => exact t.akin_trans v w x h h'
    | .unbounded, .unbounded, .unbounded, _, _ => trivial
  | .range t, v, w, x, h, h' => ⟨t.akin_trans _ _ _ h.1 h'.1, t.akin_trans _ _ _ h.2 h'.2⟩
  | .rangeInclusive t, v, w, x, h, h' =>
    ⟨t.akin_trans _ _ _ h.1 h'.1, t.akin_trans _ _ _ h.2.1 h'.2.1, h.2.2.trans h'.2.2⟩
  | .lock _ t, v, w, x, h, h' => ⟨h.1.trans h'.1, t.akin_trans _ _ _ h.2 h'.2⟩
  | .refCell t, v, w, x, h, h' => ⟨h.1.trans h'.1, t.akin_trans _ _ _ h.2 h'.2⟩
  | .sizedSlice t _, v, w, x, h, h' => Pointwise.trans t.akin_trans h h'
  | .tuple fs, v, w, x, h, h' => fs.akin_trans v w x h h'
  | .struct fs, v, w, x, h, h' => fs.akin_trans v w x h h'
  | .enum _ vs, v, w, x, h, h' => vs.akin_trans v w x h h'
  | .num _, _, _, _, h, h' | .bool, _, _, _, h, h' | .char, _, _, _, h, h' | .usize, _, _, _, h, h'
  | .isize, _, _, _, h, h' | .nonZero _, _, _, _, h, h' | .unit _, _, _, _, h, h'
  | .infallible, _, _, _, h, h' | .duration, _, _, _, h, h' | .systemTime _, _, _, _, h, h'
  | .ipv4, _, _, _, h, h' | .ipv6, _, _, _, h, h' | .ipAddr, _, _, _, h, h'
  | .socketAddrV4, _, _, _, h, h' | .socketAddrV6, _, _, _, h, h' | .socketAddr, _, _, _, h, h'
  | .str _, _, _, _, h, h' | .cStr _, _, _, _, h, h' | .sizedStr _, _, _, _, h, h' => Eq.trans h h'

theorem Fields.akin_trans : (fs : Fields) → (v w x : fs.Val) → AkinFields fs v w →
    AkinFields fs w x → AkinFields fs v x
  | .nil, _, _, _, _, _ => trivial
  | .cons t fs, v, w, x, h, h' => ⟨t.akin_trans _ _ _ h.1 h'.1, fs.akin_trans _ _ _ h.2 h'.2⟩

theorem Variants.akin_trans : (vs : Variants) → (v w x : vs.Val) → AkinVariants vs v w →
    AkinVariants vs w x → AkinVariants vs v x
  | .nil, _, _, _, _, _ => trivial
  | .cons _ fs vs, v, w, x, h, h' => by
    match v, w, x, h, h' with
    | .inl v, .inl w, .inl x, h, h' => exact fs.akin_trans v w x h h'
    | .inr v, .inr w, .inr x, h, h' => exact vs.akin_trans v w x h h'

end

theorem Dec.Akin.symm' {R : α → β → Prop} {S : β → α → Prop} (h : ∀ a b, R a b → S b a) {d : Dec α}
    {d' : Dec β} (hd : Dec.Akin R d d') : Dec.Akin S d' d := fun i => by
  have hi := hd i
  refine ⟨hi.1.symm, ?_⟩
  generalize (d i).1 = r at hi ⊢
  generalize (d' i).1 = r' at hi ⊢
  cases r <;> cases r' <;> first | exact h _ _ hi.2 | exact hi.2.symm | exact hi.2

theorem Dec.Akin.trans' {R : α → β → Prop} {S : β → γ → Prop} {T : α → γ → Prop}
    (h : ∀ a b c, R a b → S b c → T a c) {d : Dec α} {d' : Dec β} {d'' : Dec γ} (hd : Dec.Akin R d d')
    (hd' : Dec.Akin S d' d'') : Dec.Akin T d d'' := fun i => by
  have hi := hd i
  have hi' := hd' i
  refine ⟨hi'.1.trans hi.1, ?_⟩
  generalize (d i).1 = r at hi ⊢
  generalize (d' i).1 = r' at hi hi'
  generalize (d'' i).1 = r'' at hi' ⊢
  cases r <;> cases r' <;> first | exact hi.2.elim | (cases r'' <;> first
    | exact hi'.2.elim | exact h _ _ _ hi.2 hi'.2 | exact hi.2.trans hi'.2)

/-- Decoding with entries in two orders. -/
theorem Ty.decodeBy_akin₂ (o o' : Order) (t : Ty) (h : Everywhere HashableKeys t) :
    Dec.Akin (Spec.Akin t) (t.decodeBy o) (t.decodeBy o') :=
  ((t.decodeBy_akin o h).symm' t.akin_symm).trans' t.akin_trans (t.decodeBy_akin o' h)

/-- Two sets of the same elements are permutations of each other. -/
theorem perm_of_mem_iff : (l l' : List α) → l.Nodup → l'.Nodup → (∀ x, x ∈ l ↔ x ∈ l') → l.Perm l'
  | [], [], _, _, _ => .refl _
  | [], y :: l', _, _, h => nomatch (h y).mpr List.mem_cons_self
  | x :: l, l', hl, hl', h => by
    obtain ⟨s, t, rfl⟩ := List.append_of_mem ((h x).mp List.mem_cons_self)
    rw [List.nodup_cons] at hl
    have hp : (s ++ x :: t).Perm (x :: (s ++ t)) := List.perm_middle
    have hn := hp.nodup_iff.mp hl'
    rw [List.nodup_cons] at hn
    refine ((perm_of_mem_iff l (s ++ t) hl.2 hn.2 fun y => ?_).cons x).trans hp.symm
    have hy := (h y).trans hp.mem_iff
    rw [List.mem_cons, List.mem_cons] at hy
    constructor
    · intro hm
      exact (hy.mp (.inr hm)).resolve_left fun e => hl.1 (e ▸ hm)
    · intro hm
      exact (hy.mpr (.inr hm)).resolve_left fun e => hn.1 (e ▸ hm)

mutual

/-- Alike values have encodings together, and these consist of the same octets. -/
theorem Ty.akin_wire : (t : Ty) → (v w : t.Val) → Akin t v w →
    (Encodable t v ↔ Encodable t w) ∧ (wire t v).Perm (wire t w)
  | .wrap _ t, v, w, h => t.akin_wire v w h
  | .array t _, v, w, h =>
    ⟨Pointwise.forall_iff (fun a b h => (t.akin_wire a b h).1) h,
      Pointwise.flatMap_perm (fun a b h => (t.akin_wire a b h).2) h⟩
  | .seq _ t, v, w, h => by
    refine ⟨and_congr ?_ (Pointwise.forall_iff (fun a b h => (t.akin_wire a b h).1) h), ?_⟩
    · show List.length v ≤ _ ↔ List.length w ≤ _
      rw [Pointwise.length h]
    · show (leBytes 2 (List.length v) ++ List.flatMap (wire t) v).Perm
        (leBytes 2 (List.length w) ++ List.flatMap (wire t) w)
      rw [Pointwise.length h]
      exact (Pointwise.flatMap_perm (fun a b h => (t.akin_wire a b h).2) h).append_left _
  | .hashMap k t, v, w, h => by
    obtain ⟨l, hp, hl⟩ := SameEntries.exists_perm v.val w.val v.property w.property h
    refine ⟨?_, ?_⟩
    · refine (Pointwise.forall_iff (Q := fun q => Encodable k q.1 ∧ Encodable t q.2)
        (fun a b h => ?_) hl).trans ?_
      · rw [h.1, (t.akin_wire _ _ h.2).1]
      · exact forall_congr' fun q => by rw [hp.mem_iff]
    · refine (Pointwise.flatMap_perm (g := fun q => wire k q.1 ++ wire t q.2)
        (fun a b h => ?_) hl).trans (hp.flatMap_right _)
      rw [h.1]
      exact (t.akin_wire _ _ h.2).2.append_left _
  | .hashSet k, v, w, h =>
    ⟨forall_congr' fun x => by rw [h x],
      (perm_of_mem_iff v.val w.val v.property w.property h).flatMap_right _⟩
  | .option t, v, w, h => by
    match v, w, h with
    | none, none, _ => exact ⟨Iff.rfl, .refl _⟩
    | some v, some w, h => exact ⟨(t.akin_wire v w h).1, (t.akin_wire v w h).2.cons _⟩
  | .result t e, v, w, h => by
    match v, w, h with
    | .ok v, .ok w, h => exact ⟨(t.akin_wire v w h).1, (t.akin_wire v w h).2.cons _⟩
    | .err v, .err w, h => exact ⟨(e.akin_wire v w h).1, (e.akin_wire v w h).2.cons _⟩
  | .bound t, v, w, h => by
    match v, w, h with
    | .included v, .included w, h => exact ⟨(t.akin_wire v w h).1, (t.akin_wire v w h).2.cons _⟩
    | .excluded v, .excluded w, h => exact ⟨(t.akin_wire v w h).1, (t.akin_wire v w h).2.cons _⟩
    | .unbounded, .unbounded, _ => exact ⟨Iff.rfl, .refl _⟩
  | .range t, v, w, h =>
    ⟨and_congr (t.akin_wire _ _ h.1).1 (t.akin_wire _ _ h.2).1,
      (t.akin_wire _ _ h.1).2.append (t.akin_wire _ _ h.2).2⟩
  | .rangeInclusive t, v, w, h =>
    ⟨and_congr (t.akin_wire _ _ h.1).1 (t.akin_wire _ _ h.2.1).1,
      (t.akin_wire _ _ h.1).2.append (t.akin_wire _ _ h.2.1).2⟩
  | .lock _ t, v, w, h => t.akin_wire _ _ h.2
  | .refCell t, v, w, h => by
    refine ⟨and_congr ?_ (t.akin_wire _ _ h.2).1, (t.akin_wire _ _ h.2).2⟩
    rw [h.1]
  | .sizedSlice t _, v, w, h => by
    refine ⟨and_congr ?_ (Pointwise.forall_iff (fun a b h => (t.akin_wire a b h).1) h), ?_⟩
    · rw [Pointwise.length h]
    · show (leBytes 2 v.val.length ++ v.val.flatMap (wire t)).Perm
        (leBytes 2 w.val.length ++ w.val.flatMap (wire t))
      rw [Pointwise.length h]
      exact (Pointwise.flatMap_perm (fun a b h => (t.akin_wire a b h).2) h).append_left _
  | .tuple fs, v, w, h => fs.akin_wire v w h
  | .struct fs, v, w, h => fs.akin_wire v w h
  | .enum r vs, v, w, h => vs.akin_wire r _ 0 v w h
  | .num _, _, _, h | .bool, _, _, h | .char, _, _, h | .usize, _, _, h | .isize, _, _, h
  | .nonZero _, _, _, h | .unit _, _, _, h | .infallible, _, _, h | .duration, _, _, h
  | .systemTime _, _, _, h | .ipv4, _, _, h | .ipv6, _, _, h | .ipAddr, _, _, h
  | .socketAddrV4, _, _, h | .socketAddrV6, _, _, h | .socketAddr, _, _, h | .str _, _, _, h
  | .cStr _, _, _, h | .sizedStr _, _, _, h => by
    cases (show _ = _ from h)
    exact ⟨Iff.rfl, .refl _⟩

theorem Fields.akin_wire : (fs : Fields) → (v w : fs.Val) → AkinFields fs v w →
    (EncodableFields fs v ↔ EncodableFields fs w) ∧ (wireFields fs v).Perm (wireFields fs w)
  | .nil, _, _, _ => ⟨Iff.rfl, .refl _⟩
  | .cons t fs, v, w, h =>
    ⟨and_congr (t.akin_wire _ _ h.1).1 (fs.akin_wire _ _ h.2).1,
      (t.akin_wire _ _ h.1).2.append (fs.akin_wire _ _ h.2).2⟩

theorem Variants.akin_wire (r : Repr) (e : List (Option Nat)) : (vs : Variants) → (j : Nat) →
    (v w : vs.Val) → AkinVariants vs v w →
    (EncodableVariants r e vs j v ↔ EncodableVariants r e vs j w) ∧
      (wireVariants r e vs j v).Perm (wireVariants r e vs j w)
  | .nil, _, v, _, _ => nomatch v
  | .cons _ fs vs, j, v, w, h => by
    match v, w, h with
    | .inl v, .inl w, h => exact ⟨and_congr Iff.rfl (fs.akin_wire v w h).1, (fs.akin_wire v w h).2.append_left _⟩
    | .inr v, .inr w, h => exact vs.akin_wire r e (j + 1) v w h

end

theorem listEquals_akin {R : α → α → Prop} {eq : α → α → Bool}
    (h : ∀ v v' w w', R v v' → R w w' → eq v w = eq v' w') : {l l' m m' : List α} →
    Pointwise R l l' → Pointwise R m m' → listEquals eq l m = listEquals eq l' m'
  | [], [], [], [], _, _ => rfl
  | [], [], _ :: _, _ :: _, _, _ => rfl
  | _ :: _, _ :: _, [], [], _, _ => rfl
  | _ :: _, _ :: _, _ :: _, _ :: _, h1, h2 => by
    unfold listEquals
    rw [h _ _ _ _ h1.1 h2.1, listEquals_akin h h1.2 h2.2]

theorem SameEntries.length {R : β → γ → Prop} {l : List (α × β)} {l' : List (α × γ)}
    (hl : (l.map Prod.fst).Nodup) (hl' : (l'.map Prod.fst).Nodup) (h : SameEntries R l l') :
    l.length = l'.length := by
  obtain ⟨l'', hp, hw⟩ := SameEntries.exists_perm l l' hl hl' h
  rw [Pointwise.length hw, hp.length_eq]

theorem mapEquals_akin {R : β → β → Prop} {eqK : α → α → Bool} {eq : β → β → Bool}
    (h : ∀ v v' w w', R v v' → R w w' → eq v w = eq v' w') {l l' m m' : MapVal α β}
    (hl : SameEntries R l.val l'.val) (hm : SameEntries R m.val m'.val) :
    mapEquals eqK eq l.val m.val = mapEquals eqK eq l'.val m'.val := by
  unfold mapEquals
  rw [SameEntries.length l.property l'.property hl, SameEntries.length m.property m'.property hm]
  congr 1
  rw [Bool.eq_iff_iff]
  simp only [List.all_eq_true, List.any_eq_true, Bool.and_eq_true]
  constructor
  · rintro h1 ⟨k, v'⟩ hk
    obtain ⟨v, hv, hr⟩ := hl.2 k v' hk
    obtain ⟨⟨k1, w⟩, hw, e1, e2⟩ := h1 _ hv
    obtain ⟨w', hw', hr'⟩ := hm.1 k1 w hw
    exact ⟨(k1, w'), hw', e1, (h _ _ _ _ hr hr').symm.trans e2⟩
  · rintro h1 ⟨k, v⟩ hk
    obtain ⟨v', hv, hr⟩ := hl.1 k v hk
    obtain ⟨⟨k1, w'⟩, hw, e1, e2⟩ := h1 _ hv
    obtain ⟨w, hw', hr'⟩ := hm.2 k1 w' hw
    exact ⟨(k1, w), hw', e1, (h _ _ _ _ hr hr').trans e2⟩

theorem setEquals_akin {eqK : α → α → Bool} {l l' m m' : SetVal α}
    (hl : ∀ x, x ∈ l.val ↔ x ∈ l'.val) (hm : ∀ x, x ∈ m.val ↔ x ∈ m'.val) :
    setEquals eqK l.val m.val = setEquals eqK l'.val m'.val := by
  unfold setEquals
  rw [(perm_of_mem_iff l.val l'.val l.property l'.property hl).length_eq,
    (perm_of_mem_iff m.val m'.val m.property m'.property hm).length_eq]
  congr 1
  rw [Bool.eq_iff_iff]
  simp only [List.all_eq_true, List.any_eq_true, hl, hm]

mutual

/-- `==` does not tell alike values apart. -/
theorem Ty.equals_akin : (t : Ty) → (v v' w w' : t.Val) → Akin t v v' → Akin t w w' →
    t.equals v w = t.equals v' w'
  | .wrap _ t, v, v', w, w', h, h' => t.equals_akin v v' w w' h h'
  | .array t _, v, v', w, w', h, h' => listEquals_akin t.equals_akin h h'
  | .seq _ t, v, v', w, w', h, h' => listEquals_akin t.equals_akin h h'
  | .hashMap _ t, v, v', w, w', h, h' => mapEquals_akin t.equals_akin h h'
  | .hashSet _, v, v', w, w', h, h' => setEquals_akin h h'
  | .option t, v, v', w, w', h, h' => by
    match v, v', w, w', h, h' with
    | none, none, none, none, _, _ => rfl
    | none, none, some w, some w', _, _ => rfl
    | some v, some v', none, none, _, _ => rfl
    | some v, some v', some w, some w', h, h' => exact t.equals_akin v v' w w' h h'
  | .result t e, v, v', w, w', h, h' => by
    match v, v', w, w', h, h' with
    | .ok v, .ok v', .ok w, .ok w', h, h' => exact t.equals_akin v v' w w' h h'
    | .ok v, .ok v', .err w, .err w', _, _ => rfl
    | .err v, .err v', .ok w, .ok w', _, _ => rfl
    | .err v, .err v', .err w, .err w', h, h' => exact e.equals_akin v v' w w' h h'
  | .bound t, v, v', w, w', h, h' => by
    match v, v', w, w', h, h' with
    | .included v, .included v', .included w, .included w', h, h' => exact t.equals_akin v v' w w' h h'
    | .excluded v, .excluded v', .excluded w, .excluded w', h, h' => exact t.equals_akin v v' w w' h h'
    | .unbounded, .unbounded, .unbounded, .unbounded, _, _ => rfl
    | .included _, .included _, .excluded _, .excluded _, _, _ => rfl
    | .included _, .included _, .unbounded, .unbounded, _, _ => rfl
    | .excluded _, .excluded _, .included _, .included _, _, _ => rfl
    | .excluded _, .excluded _, .unbounded, .unbounded, _, _ => rfl
    | .unbounded, .unbounded, .included _, .included _, _, _ => rfl
    | .unbounded, .unbounded, .excluded _, .excluded _, _, _ => rfl
  | .range t, v, v', w, w', h, h' => by
    show (_ && _) = (_ && _)
    rw [t.equals_akin _ _ _ _ h.1 h'.1, t.equals_akin _ _ _ _ h.2 h'.2]
  | .rangeInclusive t, v, v', w, w', h, h' => by
    show (_ && _ && _) = (_ && _ && _)
    rw [t.equals_akin _ _ _ _ h.1 h'.1, t.equals_akin _ _ _ _ h.2.1 h'.2.1, h.2.2, h'.2.2]
  | .lock _ _, _, _, _, _, _, _ => rfl
  | .refCell t, v, v', w, w', h, h' => by
    show (_ && _ && _) = (_ && _ && _)
    rw [t.equals_akin _ _ _ _ h.2 h'.2, h.1, h'.1]
  | .sizedSlice t _, v, v', w, w', h, h' => listEquals_akin t.equals_akin h h'
  | .tuple fs, v, v', w, w', h, h' => fs.equals_akin v v' w w' h h'
  | .struct fs, v, v', w, w', h, h' => fs.equals_akin v v' w w' h h'
  | .enum _ vs, v, v', w, w', h, h' => vs.equals_akin v v' w w' h h'
  | .num _, _, _, _, _, h, h' | .bool, _, _, _, _, h, h' | .char, _, _, _, _, h, h'
  | .usize, _, _, _, _, h, h' | .isize, _, _, _, _, h, h' | .nonZero _, _, _, _, _, h, h'
  | .unit _, _, _, _, _, h, h' | .infallible, _, _, _, _, h, h' | .duration, _, _, _, _, h, h'
  | .systemTime _, _, _, _, _, h, h' | .ipv4, _, _, _, _, h, h' | .ipv6, _, _, _, _, h, h'
  | .ipAddr, _, _, _, _, h, h' | .socketAddrV4, _, _, _, _, h, h' | .socketAddrV6, _, _, _, _, h, h'
  | .socketAddr, _, _, _, _, h, h' | .str _, _, _, _, _, h, h' | .cStr _, _, _, _, _, h, h'
  | .sizedStr _, _, _, _, _, h, h' => by
    cases (show _ = _ from h)
    cases (show _ = _ from h')
    rfl

theorem Fields.equals_akin : (fs : Fields) → (v v' w w' : fs.Val) → AkinFields fs v v' →
    AkinFields fs w w' → fs.equals v w = fs.equals v' w'
  | .nil, _, _, _, _, _, _ => rfl
  | .cons t fs, v, v', w, w', h, h' => by
    show (_ && _) = (_ && _)
    rw [t.equals_akin _ _ _ _ h.1 h'.1, fs.equals_akin _ _ _ _ h.2 h'.2]

theorem Variants.equals_akin : (vs : Variants) → (v v' w w' : vs.Val) → AkinVariants vs v v' →
    AkinVariants vs w w' → vs.equals v w = vs.equals v' w'
  | .nil, v, _, _, _, _, _ => nomatch v
  | .cons _ fs vs, v, v', w, w', h, h' => by
    match v, v', w, w', h, h' with
    | .inl v, .inl v', .inl w, .inl w', h, h' => exact fs.equals_akin v v' w w' h h'
    | .inr v, .inr v', .inr w, .inr w', h, h' => exact vs.equals_akin v v' w w' h h'
    | .inl v, .inl v', .inr w, .inr w', _, _ => rfl
    | .inr v, .inr v', .inl w, .inl w', _, _ => rfl

end

end Oct
