import Verif.Props.Exact
import Verif.Props.Macros
/- For C67, exactly. -/
namespace Oct
open Spec Macro Props

/-- No two values are the same fields. -/
theorem view_inj : (decl : List (Sel × Ty)) → (v w : (fieldsOf decl).Val) → view decl v = view decl w → v = w
  | [], _, _, _ => rfl
  | d :: ds, v, w, h => by
    simp only [view, List.cons.injEq, Prod.mk.injEq, true_and] at h
    obtain ⟨h1, h2⟩ := h
    have h1 : v.1 = w.1 := by injection h1 with _ h1
    exact Prod.ext h1 (view_inj ds v.2 w.2 h2)

theorem viewEnum_name : (vs : List SynVariant) → (v : (variantsOf vs).Val) →
    (viewEnum vs v).1 ∈ vs.map (·.name)
  | [], v => nomatch v
  | s :: vs, .inl _ => by simp [viewEnum]
  | s :: vs, .inr v => by
    simp only [viewEnum, List.map_cons, List.mem_cons]
    exact .inr (viewEnum_name vs v)

/-- No two values are the same variant with the same fields. -/
theorem viewEnum_inj : (vs : List SynVariant) → (vs.map (·.name)).Nodup → (v w : (variantsOf vs).Val) →
    viewEnum vs v = viewEnum vs w → v = w
  | [], _, v, _, _ => nomatch v
  | s :: vs, hn, v, w, h => by
    rw [List.map_cons, List.nodup_cons] at hn
    match v, w with
    | .inl v, .inl w =>
      simp only [viewEnum, Prod.mk.injEq, true_and] at h
      exact congrArg Sum.inl (view_inj _ v w h)
    | .inr v, .inr w => exact congrArg Sum.inr (viewEnum_inj vs hn.2 v w h)
    | .inl v, .inr w =>
      simp only [viewEnum] at h
      exact absurd (by rw [show s.name = _ from congrArg Prod.fst h]; exact viewEnum_name vs w) hn.1
    | .inr v, .inl w =>
      simp only [viewEnum] at h
      exact absurd (by rw [show s.name = _ from (congrArg Prod.fst h).symm]; exact viewEnum_name vs v) hn.1

/-- What was encoded comes back just if its parts do and nothing is lost. -/
theorem back_exactly {β : Type} (t : Ty) (ht : t.WF) (f : t.Val → β) (hf : ∀ v w, f v = f w → v = w)
    (v : t.Val) (o o' : Output) (ho : o.position ≤ o.capacity) (hm : t.encode v o = (.ok (), o'))
    (rest : List Byte) :
    mapped f t.decode ⟨o'.asSlice ++ rest, o.position⟩ = (.ok (f v), ⟨o'.asSlice ++ rest, o'.position⟩) ↔
      Supported t v ∧ carried t v = v := by
  constructor
  · intro h
    have hd : t.decode ⟨o'.asSlice ++ rest, o.position⟩ = (.ok v, ⟨o'.asSlice ++ rest, o'.position⟩) := by
      unfold mapped at h
      cases hr : t.decode ⟨o'.asSlice ++ rest, o.position⟩ with
      | mk r i' =>
        rw [hr] at h
        cases r with
        | ok w =>
          simp only [Res.map, Prod.mk.injEq, Res.ok.injEq] at h
          rw [hf w v h.1, h.2]
        | err e => simp [Res.map] at h
        | panic p => simp [Res.map] at h
        | ub u => simp [Res.map] at h
    have hs : Supported t v := by
      obtain ⟨hv, hl, rfl⟩ := Ty.encode_ok t v ho hm
      exact ((C55_balanced_exactly t ht _ _ _ hd).2).mp (Output.put_obs ho hl).1
    have hc := (C09_exactly t ht v o o' ho hm rest).mpr hs
    rw [hd] at hc
    simp only [Prod.mk.injEq, Res.ok.injEq, and_true] at hc
    exact ⟨hs, hc.symm⟩
  · rintro ⟨hs, hc⟩
    unfold mapped
    rw [C09_round_trip_exact_partial t ht v hs hc o o' ho hm rest]
    rfl

end Oct
