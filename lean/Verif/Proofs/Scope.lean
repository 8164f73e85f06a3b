import Verif.Spec.Scope
import Verif.Proofs.Macro
/-
Names in scope and the emitted code.
-/
namespace Oct.Macro
open Oct.Spec

theorem captures_bound {n : Nat} {s : String} (h : s ∈ captures n) : Bound s := by
  simp only [captures, List.mem_map] at h
  obtain ⟨i, _, rfl⟩ := h
  exact .inr ⟨i, rfl⟩

theorem pattern_bound {fs : SynFields} {n : Nat} {s : String}
    (h : s ∈ (patternOf fs (captures n)).map Prod.snd) : Bound s := by
  obtain ⟨p, hp, rfl⟩ := List.mem_map.1 h
  cases fs with
  | unit => cases hp
  | unnamed tys =>
    simp only [patternOf, List.mem_map] at hp
    obtain ⟨q, hq, rfl⟩ := hp
    exact captures_bound (List.fst_mem_of_mem_zipIdx hq)
  | named fs =>
    exact captures_bound (List.of_mem_zip (a := p.1) (b := p.2) hp).2

theorem accepts_of {σ : Scope} (h : ScopeClear σ) {l : List String} (hl : ∀ s ∈ l, Bound s) :
    σ.accepts l = true := by
  simp only [Scope.accepts, h.1, Bool.true_and, List.all_eq_true]
  intro s hs
  rw [h.2.1 s (hl s hs)]
  rfl

theorem accepts_false {σ : Scope} {l : List String} {s : String} (hs : s ∈ l) (h : σ.taken s = true) :
    σ.accepts l = false := by
  rw [Scope.accepts, Bool.and_eq_false_iff]
  exact .inr (List.all_eq_false.2 ⟨s, hs, by simp [h]⟩)

theorem toStr_mem (r : Repr) : (Repr.toStr r, r) ∈ intTypes := by
  cases r with
  | int k => cases k <;> simp [intTypes, Repr.toStr]
  | _ => simp [intTypes, Repr.toStr]

theorem resolve_of {σ : Scope} (h : ScopeClear σ) (r : Repr) :
    σ.resolve (Repr.toStr r) = some r := by
  rw [Scope.resolve]
  rcases h.2.2 _ (toStr_mem r) with e | e <;> simp only at e <;> rw [e]
  exact resolve_toStr r

/-- The literals that are emitted are of any type that has the discriminants. -/
theorem holds_of {es : List (Option Expr)} {ls lits : List (List Char)} {r : Repr}
    (h : discriminants es none = some ls) (hr : ∀ d ∈ rustDiscs none es, r.InRange d)
    (hl : ∀ l ∈ lits, l ∈ ls) : holds r lits = true := by
  rw [holds, List.all_eq_true]
  intro l hm
  refine decide_eq_true (hr _ ?_)
  rw [show (none : Option Int) = (none : Option Nat).map Int.ofNat from rfl, ← discriminants_eq es none ls h]
  exact List.mem_map.2 ⟨l, hl l hm, rfl⟩

theorem encodeStruct_bound (fs : SynFields) {s : String} (h : s ∈ (encodeStruct fs).bindings) :
    Bound s := by
  rcases List.mem_cons.1 h with rfl | h
  · exact .inl (by simp)
  · exact pattern_bound h

theorem encodeEnum_bound {vs : List SynVariant} {r : Repr} {c : EncodeImpl}
    (hc : encodeEnum vs r = some c) {s : String} (h : s ∈ c.bindings) : Bound s := by
  simp only [encodeEnum, Option.bind_eq_bind, Option.bind_eq_some_iff] at hc
  obtain ⟨ls, _, hc⟩ := hc
  cases hc
  rcases List.mem_cons.1 h with rfl | h
  · exact .inl (by simp)
  · simp only [List.mem_flatMap, List.mem_map (f := fun p : SynVariant × List Char => _)] at h
    obtain ⟨a, ⟨p, _, rfl⟩, h⟩ := h
    exact pattern_bound h

theorem decode_bound (c : DecodeImpl) {s : String} (h : s ∈ c.bindings) : Bound s := by
  refine .inl ?_
  cases c <;> simp only [DecodeImpl.bindings, List.mem_cons, List.not_mem_nil, or_false] at h ⊢
  · rcases h with h | h <;> simp [h]
  · rcases h with h | h | h | h <;> simp [h]

theorem sized_bound (c : SizedImpl) {s : String} (h : s ∈ c.bindings) : Bound s := by
  refine .inl ?_
  cases c <;> simp only [SizedImpl.bindings, List.mem_cons, List.not_mem_nil, or_false] at h ⊢
  rcases h with h | h <;> simp [h]

theorem encodeEnum_in {σ : Scope} {vs : List SynVariant} (hv : VariantsOk vs) {r r' : Repr}
    {c : EncodeImpl} (hc : encodeEnum vs r = some c) (ha : σ.accepts c.bindings = true)
    (hr : σ.resolve (Repr.toStr r) = some r')
    (hd : ∀ d ∈ rustDiscs none (vs.map (·.disc)), r'.InRange d) (v : (variantsOf vs).Val) :
    c.runEnumIn σ (viewEnum vs v) = some ((Ty.enum r' (variantsOf vs)).encode v) := by
  simp only [encodeEnum, Option.bind_eq_bind, Option.bind_eq_some_iff] at hc
  obtain ⟨ls, hl, hc⟩ := hc
  cases hc
  have hh := fun lits => holds_of (lits := lits) hl hd
  simp only [EncodeImpl.runEnumIn]
  rw [if_pos ha, hr]
  simp only [Option.bind_eq_bind, Option.bind_some]
  rw [if_pos]
  · exact encodeEnum_run r' vs hv _ (by simp only [encodeEnum, hl]; rfl) v
  · refine hh _ ?_
    intro l hm
    simp only [List.map_map, List.mem_map] at hm
    obtain ⟨p, hp, rfl⟩ := hm
    exact (List.of_mem_zip (a := p.1) (b := p.2) hp).2

theorem decodeEnum_in {σ : Scope} {vs : List SynVariant} (hv : VariantsOk vs) {r r' : Repr}
    {c : DecodeImpl} (hc : decodeEnum vs r = some c) (ha : σ.accepts c.bindings = true)
    (hr : σ.resolve (Repr.toStr r) = some r')
    (hd : ∀ d ∈ rustDiscs none (vs.map (·.disc)), r'.InRange d) :
    c.runEnumIn σ (declsOf vs) =
      some (mapped (viewEnum vs) (Ty.enum r' (variantsOf vs)).decode) := by
  simp only [decodeEnum, Option.bind_eq_bind, Option.bind_eq_some_iff] at hc
  obtain ⟨ls, hl, hc⟩ := hc
  cases hc
  have hh := fun lits => holds_of (lits := lits) hl hd
  simp only [DecodeImpl.runEnumIn]
  rw [if_pos ha, hr]
  simp only [Option.bind_eq_bind, Option.bind_some]
  rw [if_pos]
  · exact decodeEnum_run r' vs hv _ (by simp only [decodeEnum, hl]; rfl)
  · refine hh _ ?_
    intro l hm
    simp only [List.map_map, List.mem_map] at hm
    obtain ⟨p, hp, rfl⟩ := hm
    exact (List.of_mem_zip (a := p.1) (b := p.2) hp).1

theorem mapM_fields (σ : Scope) (decl : List (Sel × Ty)) :
    (decl.map fun p => TyName.field p.2).mapM (TyName.inScope σ) =
      some (decl.map fun p => TyName.field p.2) := by
  induction decl with
  | nil => rfl
  | cons d ds ih => simp [List.mapM_cons, TyName.inScope, ih]

theorem sizedEnum_in {σ : Scope} (sizeOf : Ty → Nat) (vs : List SynVariant) {r r' : Repr}
    (ha : σ.accepts (sizedEncodeEnum vs r).bindings = true) (hu : σ.resolve "usize" = some .usize)
    (hr : σ.resolve (Repr.toStr r) = some r') :
    (sizedEncodeEnum vs r).runIn σ sizeOf = (sizedEncodeEnum vs r').run sizeOf := by
  have h : (vs.map fun v => (v.fields.decl.map fun p => TyName.field p.2) ++
        [TyName.repr (Repr.toStr r)]).mapM (fun tys => tys.mapM (TyName.inScope σ)) =
      some (vs.map fun v => (v.fields.decl.map fun p => TyName.field p.2) ++
        [TyName.repr (Repr.toStr r')]) := by
    clear ha
    induction vs with
    | nil => rfl
    | cons v vs ih =>
      rw [List.map_cons, List.mapM_cons, ih, List.mapM_append, mapM_fields]
      simp [TyName.inScope, hr]
  rw [SizedImpl.runIn.eq_def, if_pos (by simp [ha, hu])]
  simp only [sizedEncodeEnum, h]
  rfl

theorem sizedStruct_in {σ : Scope} (sizeOf : Ty → Nat) (fs : SynFields) (ho : σ.oct = true)
    (hu : σ.resolve "usize" = some .usize) :
    (sizedEncodeStruct fs).runIn σ sizeOf = (sizedEncodeStruct fs).run sizeOf := by
  rw [SizedImpl.runIn.eq_def, if_pos (by simp [hu, ho, Scope.accepts, sizedEncodeStruct, SizedImpl.bindings])]
  simp only [sizedEncodeStruct, mapM_fields]
  rfl

end Oct.Macro
