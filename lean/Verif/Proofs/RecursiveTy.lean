import Verif.Proofs.Recursive
/-
How the unrollings of a recursive type decode: deeper ones agree with shallower ones.
-/
namespace Oct
open Spec
set_option linter.unusedVariables false
variable {α β γ δ : Type}

mutual

/-- A type that reads something does so with anything for the references that is known to. -/
theorem RTy.decode_takes {reads : Nat → Prop} {σ : Nat → Ty}
    (hσ : ∀ k, reads k → EatsDec (σ k).decode) :
    (r : RTy) → Takes reads r → EatsDec (r.close σ).decode
  | .plain t, h => t.decode_eats h
  | .named k, h => hσ k h
  | .wrap _ t, h => t.decode_takes hσ h
  | .array t n, h => decItems_eats (t.close σ).decode_local (t.decode_takes hσ h.2) n 0 h.1
  | .seq k t, _ => Ty.decode_eats (.seq k (t.close σ)) trivial
  | .hashMap k v, _ => Ty.decode_eats (.hashMap k (v.close σ)) trivial
  | .option t, _ => Ty.decode_eats (.option (t.close σ)) trivial
  | .result t e, _ => Ty.decode_eats (.result (t.close σ) (e.close σ)) trivial
  | .bound t, _ => Ty.decode_eats (.bound (t.close σ)) trivial
  | .range t, h =>
    (t.decode_takes hσ h).bind (fun _ => by have := (t.close σ).decode_local; is_local)
      (t.close σ).decode_local
  | .rangeInclusive t, h =>
    (t.decode_takes hσ h).bind (fun _ => by have := (t.close σ).decode_local; is_local)
      (t.close σ).decode_local
  | .lock _ t, h => (t.decode_takes hσ h).bind (fun _ => by is_local) (t.close σ).decode_local
  | .refCell t, h => (t.decode_takes hσ h).bind (fun _ => by is_local) (t.close σ).decode_local
  | .sizedSlice t n, _ => Ty.decode_eats (.sizedSlice (t.close σ) n) trivial
  | .tuple fs, h => fs.decode_takes hσ h id

theorem RFields.decode_takes {reads : Nat → Prop} {σ : Nat → Ty}
    (hσ : ∀ k, reads k → EatsDec (σ k).decode) :
    (fs : RFields) → TakesFields reads fs → (g : DecErr → DecErr) →
      EatsDec ((fs.close σ).decode g)
  | .nil, h, _ => h.elim
  | .cons t fs, .inl h, g =>
    ((t.decode_takes hσ h).mapErr g).bind
      (fun _ => by have := (fs.close σ).decode_local g; is_local)
      ((t.close σ).decode_local.mapErr g)
  | .cons t fs, .inr h, g =>
    EatsDec.bindRight ((t.close σ).decode_local.mapErr g) fun _ =>
      (fs.decode_takes hσ h g).bind (fun _ => Local.pure' _) ((fs.close σ).decode_local g)

end

theorem Decl.decode_takes {reads : Nat → Prop} {σ : Nat → Ty}
    (hσ : ∀ k, reads k → EatsDec (σ k).decode) :
    (d : Decl) → TakesDecl reads d → EatsDec (d.close σ).decode
  | .struct fs, h => fs.decode_takes hσ h DecErr.toGeneric
  | .enum r vs, _ => Ty.decode_eats (.enum r (vs.close σ)) trivial

/-- Nothing succeeds at depth zero. -/
theorem unroll_eats {D : Decls} {reads : Nat → Prop} (h : ∀ k, reads k → TakesDecl reads (D k)) :
    (n k : Nat) → reads k → EatsDec (unroll D n k).decode
  | 0, k, _ => by
    intro i _ a
    exact ((D k).noBottom a).elim
  | n + 1, k, hk => (D k).decode_takes (unroll_eats h n) (h k hk)

mutual

theorem RTy.wf_close (σ : Nat → Ty) (hσ : ∀ k, (σ k).WF) :
    (r : RTy) → (r.close blank).WF → (r.close σ).WF
  | .plain _, h => h
  | .named k, _ => hσ k
  | .wrap _ t, h => t.wf_close σ hσ h
  | .array t n, h => t.wf_close σ hσ h
  | .seq _ t, h => t.wf_close σ hσ h
  | .hashMap _ v, h => ⟨h.1, v.wf_close σ hσ h.2⟩
  | .option t, h => t.wf_close σ hσ h
  | .result t e, h => ⟨t.wf_close σ hσ h.1, e.wf_close σ hσ h.2⟩
  | .bound t, h => t.wf_close σ hσ h
  | .range t, h => t.wf_close σ hσ h
  | .rangeInclusive t, h => t.wf_close σ hσ h
  | .lock _ t, h => t.wf_close σ hσ h
  | .refCell t, h => t.wf_close σ hσ h
  | .sizedSlice t _, h => t.wf_close σ hσ h
  | .tuple fs, h => fs.wf_close σ hσ h

theorem RFields.wf_close (σ : Nat → Ty) (hσ : ∀ k, (σ k).WF) :
    (fs : RFields) → (fs.close blank).WF → (fs.close σ).WF
  | .nil, h => h
  | .cons t fs, h => ⟨t.wf_close σ hσ h.1, fs.wf_close σ hσ h.2⟩

end

theorem RVariants.wf_close (σ : Nat → Ty) (hσ : ∀ k, (σ k).WF) :
    (vs : RVariants) → (vs.close blank).WF → (vs.close σ).WF
  | .nil, h => h
  | .cons _ fs vs, h => ⟨fs.wf_close σ hσ h.1, vs.wf_close σ hσ h.2⟩

theorem RVariants.discs_close (σ τ : Nat → Ty) : (vs : RVariants) → (prev : Option Nat) →
    (vs.close σ).discs prev = (vs.close τ).discs prev
  | .nil, _ => rfl
  | .cons d _ vs, prev =>
    congrArg (nextDisc prev d :: ·) (vs.discs_close σ τ (some (nextDisc prev d)))

theorem unroll_wf {D : Decls} (hD : WellDeclared D) : (n k : Nat) → (unroll D n k).WF
  | 0, k => by
    show (D k).bottom.WF
    cases D k with
    | struct fs => exact ⟨trivial, trivial⟩
    | enum r vs => trivial
  | n + 1, k => by
    have h := hD k
    show ((D k).close (unroll D n)).WF
    cases hd : D k with
    | struct fs =>
      rw [hd] at h
      exact fs.wf_close _ (unroll_wf hD n) h
    | enum r vs =>
      rw [hd] at h
      obtain ⟨h1, h2, h3⟩ := h
      refine ⟨?_, ?_, vs.wf_close _ (unroll_wf hD n) h3⟩
      · rw [vs.discs_close _ blank]; exact h1
      · rw [vs.discs_close _ blank]; exact h2

section decoders
variable {esc : Prop} {B : Nat}

theorem decMapLoop_upTo [DecidableEq α] {dk : Dec α} {d : Dec β} {d' : Dec γ} {f : β → γ}
    {F : MapVal α β → MapVal α γ} (hF : ∀ m, (F m).val = m.val.map fun p => (p.1, f p.2))
    (hk : Local dk) (hl : Local d) (h : AgreeUpTo esc B f d d') : (n i : Nat) → (m : MapVal α β) →
    AgreeUpTo esc B F (decMapLoop dk d n i m) (decMapLoop dk d' n i (F m))
  | 0, _, m => AgreeUpTo.pure m
  | n + 1, i, m => by
    unfold decMapLoop
    refine AgreeUpTo.bind (f := id) (AgreeUpTo.refl _) (hk.mapErr _) fun k => ?_
    refine AgreeUpTo.bind (h.mapErr _) (hl.mapErr _) fun v => ?_
    have ih := decMapLoop_upTo hF hk hl h n (i + 1)
      ⟨mapInsert k v m.val, mapInsert_nodup k v m.val m.property⟩
    have e : F ⟨mapInsert k v m.val, mapInsert_nodup k v m.val m.property⟩
        = ⟨mapInsert k (f v) (F m).val, mapInsert_nodup k (f v) (F m).val (F m).property⟩ := by
      apply Subtype.ext
      rw [hF]
      show (mapInsert k v m.val).map _ = mapInsert k (f v) (F m).val
      rw [hF]
      generalize m.val = l
      induction l with
      | nil => rfl
      | cons p l ih =>
        obtain ⟨k', v'⟩ := p
        simp only [mapInsert, List.map_cons]
        split
        · rfl
        · simp only [List.map_cons, ih]
    rw [e] at ih
    exact ih

end decoders

mutual

/-- Where the references agree, so does the whole. -/
theorem RTy.upTo_refs {esc : Prop} {B : Nat} {σ τ : Nat → Ty}
    {e : ∀ k, (σ k).Val → (τ k).Val} {p : Nat → Prop}
    (he : ∀ k, p k → AgreeUpTo esc B (e k) (σ k).decode (τ k).decode) :
    (r : RTy) → Refers p r → AgreeUpTo esc B (r.lift e) (r.close σ).decode (r.close τ).decode
  | .plain t, _ => AgreeUpTo.refl _
  | .named k, h => he k h
  | .wrap _ t, h => t.upTo_refs he h
  | .array t n, h => decItems_upTo (t.close σ).decode_local (t.upTo_refs he h) n 0
  | .seq _ t, h =>
    AgreeUpTo.bind (f := id) (AgreeUpTo.refl _) decUsize_local fun n =>
      AgreeUpTo.bind (decItems_upTo (t.close σ).decode_local (t.upTo_refs he h) n 0)
        (decItems_local (t.close σ).decode_local n 0) fun _ => AgreeUpTo.pure' _ _ rfl
  | .hashMap k v, h =>
    AgreeUpTo.bind (f := id) (AgreeUpTo.refl _) decUsize_local fun n =>
      @decMapLoop_upTo _ _ _ _ _ k.decEq _ _ _ _ _ (fun _ => rfl) k.decode_local
        (v.close σ).decode_local (v.upTo_refs he h) n 0 ⟨[], List.nodup_nil⟩
  | .option t, h =>
    AgreeUpTo.bind (f := id) (AgreeUpTo.refl _) decBool_local fun s =>
      AgreeUpTo.ite (AgreeUpTo.bind (t.upTo_refs he h) (t.close σ).decode_local fun _ => AgreeUpTo.pure' _ _ rfl)
        (AgreeUpTo.pure' _ _ rfl)
  | .result t u, h =>
    AgreeUpTo.bind (f := id) (AgreeUpTo.refl _) decBool_local fun s =>
      AgreeUpTo.ite
        (AgreeUpTo.bind ((u.upTo_refs he h.2).mapErr _) ((u.close σ).decode_local.mapErr _) fun _ =>
          AgreeUpTo.pure' _ _ rfl)
        (AgreeUpTo.bind ((t.upTo_refs he h.1).mapErr _) ((t.close σ).decode_local.mapErr _) fun _ =>
          AgreeUpTo.pure' _ _ rfl)
  | .bound t, h =>
    AgreeUpTo.bind (f := id) (AgreeUpTo.refl _) decU8_local fun s =>
      AgreeUpTo.ite
        (AgreeUpTo.bind ((t.upTo_refs he h).mapErr _) ((t.close σ).decode_local.mapErr _) fun _ =>
          AgreeUpTo.pure' _ _ rfl)
        (AgreeUpTo.ite
          (AgreeUpTo.bind ((t.upTo_refs he h).mapErr _) ((t.close σ).decode_local.mapErr _) fun _ =>
            AgreeUpTo.pure' _ _ rfl)
          (AgreeUpTo.ite (AgreeUpTo.pure' _ _ rfl) (AgreeUpTo.fail _)))
  | .range t, h =>
    AgreeUpTo.bind (t.upTo_refs he h) (t.close σ).decode_local fun _ =>
      AgreeUpTo.bind (t.upTo_refs he h) (t.close σ).decode_local fun _ => AgreeUpTo.pure' _ _ rfl
  | .rangeInclusive t, h =>
    AgreeUpTo.bind (t.upTo_refs he h) (t.close σ).decode_local fun _ =>
      AgreeUpTo.bind (t.upTo_refs he h) (t.close σ).decode_local fun _ => AgreeUpTo.pure' _ _ rfl
  | .lock _ t, h => AgreeUpTo.bind (t.upTo_refs he h) (t.close σ).decode_local fun _ => AgreeUpTo.pure' _ _ rfl
  | .refCell t, h => AgreeUpTo.bind (t.upTo_refs he h) (t.close σ).decode_local fun _ => AgreeUpTo.pure' _ _ rfl
  | .sizedSlice t n, h =>
    AgreeUpTo.bind (f := id) (AgreeUpTo.refl _) decUsize_local fun len =>
      AgreeUpTo.ite (AgreeUpTo.fail _)
        (AgreeUpTo.bind (decItems_upTo (t.close σ).decode_local (t.upTo_refs he h) n 0)
          (decItems_local (t.close σ).decode_local n 0) fun _ =>
            AgreeUpTo.pure' _ _ (Subtype.ext (List.map_take ..)))
  | .tuple fs, h => fs.upTo_refs he h id

theorem RFields.upTo_refs {esc : Prop} {B : Nat} {σ τ : Nat → Ty}
    {e : ∀ k, (σ k).Val → (τ k).Val} {p : Nat → Prop}
    (he : ∀ k, p k → AgreeUpTo esc B (e k) (σ k).decode (τ k).decode) :
    (fs : RFields) → RefersFields p fs → (g : DecErr → DecErr) →
      AgreeUpTo esc B (fs.lift e) ((fs.close σ).decode g) ((fs.close τ).decode g)
  | .nil, _, _ => AgreeUpTo.pure' _ _ rfl
  | .cons t fs, h, g =>
    AgreeUpTo.bind ((t.upTo_refs he h.1).mapErr g) ((t.close σ).decode_local.mapErr g) fun _ =>
      AgreeUpTo.bind (fs.upTo_refs he h.2 g) ((fs.close σ).decode_local g) fun _ => AgreeUpTo.pure' _ _ rfl

end

theorem RVariants.upTo_refs {esc : Prop} {B : Nat} {σ τ : Nat → Ty}
    {e : ∀ k, (σ k).Val → (τ k).Val} {p : Nat → Prop}
    (he : ∀ k, p k → AgreeUpTo esc B (e k) (σ k).decode (τ k).decode) :
    (vs : RVariants) → RefersVariants p vs → (prev : Option Nat) → (x : Int) →
      AgreeUpTo esc B (vs.lift e) ((vs.close σ).decode prev x) ((vs.close τ).decode prev x)
  | .nil, _, _, _ => AgreeUpTo.fail _
  | .cons d fs vs, h, prev, x =>
    AgreeUpTo.ite
      (AgreeUpTo.bind (fs.upTo_refs he h.1 _) ((fs.close σ).decode_local _) fun _ => AgreeUpTo.pure' _ _ rfl)
      (AgreeUpTo.bind (vs.upTo_refs he h.2 _ x) ((vs.close σ).decode_local _ x) fun _ => AgreeUpTo.pure' _ _ rfl)

theorem Decl.upTo_refs {esc : Prop} {B : Nat} {σ τ : Nat → Ty}
    {e : ∀ k, (σ k).Val → (τ k).Val} {p : Nat → Prop}
    (he : ∀ k, p k → AgreeUpTo esc B (e k) (σ k).decode (τ k).decode) :
    (d : Decl) → RefersDecl p d → AgreeUpTo esc B (d.lift e) (d.close σ).decode (d.close τ).decode
  | .struct fs, h => fs.upTo_refs he h _
  | .enum r vs, h =>
    AgreeUpTo.bind (f := id) (AgreeUpTo.refl _) (decRepr_local r) fun x => vs.upTo_refs he h none x

mutual

theorem RTy.refers : (r : RTy) → Refers (fun _ => True) r
  | .plain _ => trivial
  | .named _ => trivial
  | .wrap _ t => t.refers
  | .array t _ => t.refers
  | .seq _ t => t.refers
  | .hashMap _ t => t.refers
  | .option t => t.refers
  | .result t e => ⟨t.refers, e.refers⟩
  | .bound t => t.refers
  | .range t => t.refers
  | .rangeInclusive t => t.refers
  | .lock _ t => t.refers
  | .refCell t => t.refers
  | .sizedSlice t _ => t.refers
  | .tuple fs => fs.refers

theorem RFields.refers : (fs : RFields) → RefersFields (fun _ => True) fs
  | .nil => trivial
  | .cons t fs => ⟨t.refers, fs.refers⟩

end

theorem RVariants.refers : (vs : RVariants) → RefersVariants (fun _ => True) vs
  | .nil => trivial
  | .cons _ fs vs => ⟨fs.refers, vs.refers⟩

theorem Decl.refers : (d : Decl) → RefersDecl (fun _ => True) d
  | .struct fs => fs.refers
  | .enum _ vs => vs.refers

section all
variable {esc : Prop} {B : Nat} {σ τ : Nat → Ty} {e : ∀ k, (σ k).Val → (τ k).Val}
  (he : ∀ k, AgreeUpTo esc B (e k) (σ k).decode (τ k).decode)
include he

theorem RTy.upTo (r : RTy) : AgreeUpTo esc B (r.lift e) (r.close σ).decode (r.close τ).decode :=
  r.upTo_refs (fun k _ => he k) r.refers

theorem RFields.upTo (fs : RFields) (g : DecErr → DecErr) :
    AgreeUpTo esc B (fs.lift e) ((fs.close σ).decode g) ((fs.close τ).decode g) :=
  fs.upTo_refs (fun k _ => he k) fs.refers g

theorem RVariants.upTo (vs : RVariants) (prev : Option Nat) (x : Int) :
    AgreeUpTo esc B (vs.lift e) ((vs.close σ).decode prev x) ((vs.close τ).decode prev x) :=
  vs.upTo_refs (fun k _ => he k) vs.refers prev x

theorem Decl.upTo (d : Decl) : AgreeUpTo esc B (d.lift e) (d.close σ).decode (d.close τ).decode :=
  d.upTo_refs (fun k _ => he k) d.refers

end all

end Oct
