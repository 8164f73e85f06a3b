import Verif.Proofs.RecursiveExact
import Verif.Props.Stops
/-
For which recursive types one depth is enough for all inputs.
-/
namespace Oct
open Spec
set_option linter.unusedVariables false
set_option linter.unusedSectionVars false

/-- Types of increasing depth, of which one can be decoded and a lower one cannot: decoding the latter
gets to the mark. -/
theorem hits_of_made {T : Nat → Ty} (hd : Deepens fun n => (T n).decode) (hw : ∀ n, (T n).WF)
    {n m : Nat} (hm : Decodable (T m)) (hn : ¬ Decodable (T n)) : Reaches .infallible (T n) := by
  obtain ⟨bs, v, hA⟩ := (decodable_iff (T m) (hw m)).mp hm
  have h : (T m).decode ⟨bs, 0⟩ = (.ok v, ⟨bs, 0 + bs.length⟩) :=
    (Props.C52_accepted (T m) (hw m) ⟨bs, 0⟩ _ v).mpr ⟨bs, [], by simp, hA, rfl⟩
  have hi : Input.WF ⟨bs, 0⟩ := Nat.zero_le _
  rcases Nat.le_total m n with hmn | hmn
  · obtain ⟨j, rfl⟩ := Nat.exists_eq_add_of_le hmn
    obtain ⟨f, hf⟩ := hd.upTo m ⟨bs, 0⟩ hi (by rw [h]; simp) j
    rw [h] at hf
    exact absurd ((Props.C128_decodable _ (hw _)).mp ⟨_, _, _, hf⟩) hn
  · obtain ⟨j, rfl⟩ := Nat.exists_eq_add_of_le hmn
    refine (Props.C128_reachable _ (hw n) .infallible).mp ⟨⟨bs, 0⟩, ?_⟩
    refine Classical.byContradiction fun hc => hn ?_
    obtain ⟨f, hf⟩ := hd.upTo n ⟨bs, 0⟩ hi hc j
    rw [h] at hf
    generalize hq : (T n).decode ⟨bs, 0⟩ = q at hf
    obtain ⟨r, i'⟩ := q
    cases r with
    | ok w => exact (Props.C128_decodable _ (hw n)).mp ⟨_, _, _, hq⟩
    | err e => cases hf
    | panic p => cases hf
    | ub u => cases hf

/-- Decoding gets to the mark just if it does so from some input. -/
theorem hits_iff {t : Ty} (hw : t.WF) :
    Reaches .infallible t ↔ ∃ i : Input, i.WF ∧ (t.decode i).1.Marked := by
  constructor
  · intro h
    obtain ⟨bs, hS⟩ := (reaches_iff .infallible t hw).mp h
    refine ⟨⟨bs, 0⟩, Nat.zero_le _, ?_⟩
    have h := (Props.C128_stops t hw ⟨bs, 0⟩ ⟨bs, 0 + bs.length⟩ .infallible).mpr
      ⟨bs, [], by simp, hS, rfl⟩
    rw [h]
    rfl
  · rintro ⟨i, _, h⟩
    exact (Props.C128_reachable t hw .infallible).mp ⟨i, h⟩

/-- What does not get to the mark does not so at greater depths. -/
theorem unhit {T : Nat → Ty} (hd : Deepens fun n => (T n).decode) (hw : ∀ n, (T n).WF) {n : Nat}
    (h : ¬ Reaches .infallible (T n)) : ¬ Reaches .infallible (T (n + 1)) := by
  intro h'
  obtain ⟨i, hi, hm⟩ := (hits_iff (hw _)).mp h'
  exact hd.unmarked hi (fun hm' => h ((hits_iff (hw n)).mpr ⟨i, hi, hm'⟩)) hm

theorem Ty.unhit (t : Ty) (hw : t.WF) (h : Everywhere (· ≠ .infallible) t) :
    ¬ Reaches .infallible t := fun hr => by
  obtain ⟨i, _, hm⟩ := (hits_iff hw).mp hr
  exact t.unmarked h i hm

theorem RVariants.explicit_close (σ τ : Nat → Ty) : (vs : RVariants) →
    explicitDiscs (vs.close σ) = explicitDiscs (vs.close τ)
  | .nil => rfl
  | .cons d fs vs => congrArg (d :: ·) (vs.explicit_close σ τ)

mutual

/-- Decoding a field gets to the mark only through a declared type that it gets to. -/
theorem RTy.gets_of {D : Decls} {n : Nat} : (r : RTy) → (r.close blank).WF →
    Everywhere (· ≠ .infallible) (r.close blank) → Reaches .infallible (r.close (unroll D n)) →
      ∃ j, GetsTo D j r ∧ Reaches .infallible (unroll D n j)
  | .plain t, hw, he, h => absurd h (t.unhit hw he)
  | .named k, _, _, h => ⟨k, rfl, h⟩
  | .wrap _ t, hw, he, h => t.gets_of hw he.2 h
  | .array t _, hw, he, h => by
    obtain ⟨j, h1, h2⟩ := t.gets_of hw he.2 h.2
    exact ⟨j, ⟨h.1, h1⟩, h2⟩
  | .seq _ t, hw, he, h => t.gets_of hw he.2 h
  | .hashMap k t, hw, he, h => by
    rcases h with h | ⟨hk, h⟩
    · exact absurd h (k.unhit hw.1 he.2.1)
    · obtain ⟨j, h1, h2⟩ := t.gets_of hw.2 he.2.2 h
      exact ⟨j, ⟨hk, h1⟩, h2⟩
  | .option t, hw, he, h => t.gets_of hw he.2 h
  | .result t e, hw, he, h => by
    rcases h with h | h
    · obtain ⟨j, h1, h2⟩ := t.gets_of hw.1 he.2.1 h
      exact ⟨j, .inl h1, h2⟩
    · obtain ⟨j, h1, h2⟩ := e.gets_of hw.2 he.2.2 h
      exact ⟨j, .inr h1, h2⟩
  | .bound t, hw, he, h => t.gets_of hw he.2 h
  | .range t, hw, he, h => t.gets_of hw he.2 h
  | .rangeInclusive t, hw, he, h => t.gets_of hw he.2 h
  | .lock _ t, hw, he, h => t.gets_of hw he.2 h
  | .refCell t, hw, he, h => t.gets_of hw he.2 h
  | .sizedSlice t _, hw, he, h => by
    obtain ⟨j, h1, h2⟩ := t.gets_of hw he.2 h.2
    exact ⟨j, ⟨h.1, h1⟩, h2⟩
  | .tuple fs, hw, he, h => fs.gets_of hw he.2 h

theorem RFields.gets_of {D : Decls} {n : Nat} : (fs : RFields) → (fs.close blank).WF →
    EverywhereFields (· ≠ .infallible) (fs.close blank) →
    ReachesFields .infallible (fs.close (unroll D n)) →
      ∃ j, GetsToFields D j fs ∧ Reaches .infallible (unroll D n j)
  | .nil, _, _, h => h.elim
  | .cons t fs, hw, he, h => by
    rcases h with h | ⟨hk, h⟩
    · obtain ⟨j, h1, h2⟩ := t.gets_of hw.1 he.1 h
      exact ⟨j, .inl h1, h2⟩
    · obtain ⟨j, h1, h2⟩ := fs.gets_of hw.2 he.2 h
      exact ⟨j, .inr ⟨⟨n, hk⟩, h1⟩, h2⟩

end

theorem RVariants.gets_of {D : Decls} {n : Nat} {r : Repr} {ex : List (Option Nat)} :
    (vs : RVariants) → (i : Nat) → (vs.close blank).WF →
    EverywhereVariants (· ≠ .infallible) (vs.close blank) →
    ReachesVariants .infallible r ex (vs.close (unroll D n)) i →
      ∃ j, GetsToVariants D j r ex vs i ∧ Reaches .infallible (unroll D n j)
  | .nil, _, _, _, h => h.elim
  | .cons _ fs vs, i, hw, he, h => by
    rcases h with ⟨hr, h⟩ | h
    · obtain ⟨j, h1, h2⟩ := fs.gets_of hw.1 he.1 h
      exact ⟨j, .inl ⟨hr, h1⟩, h2⟩
    · obtain ⟨j, h1, h2⟩ := vs.gets_of (i + 1) hw.2 he.2 h
      exact ⟨j, .inr h1, h2⟩

theorem Decl.gets_of {D : Decls} {n : Nat} (d : Decl) (hw : (d.close blank).WF)
    (he : Everywhere (· ≠ .infallible) (d.close blank))
    (h : Reaches .infallible (d.close (unroll D n))) :
    ∃ j, GetsToDecl D j d ∧ Reaches .infallible (unroll D n j) := by
  cases d with
  | struct fs => exact fs.gets_of hw he.2 h
  | enum r vs =>
    obtain ⟨j, h1, h2⟩ := vs.gets_of (r := r) 0 hw.2.2 he.2 h
    refine ⟨j, ?_, h2⟩
    show GetsToVariants D j r _ vs 0
    rw [vs.explicit_close blank (unroll D n)]
    exact h1

section
variable {D : Decls} (hD : WellDeclared D)
include hD

mutual

/-- Decoding a field gets to the mark if a declared type does that it gets to. -/
theorem RTy.hits {n j : Nat} (hj : Reaches .infallible (unroll D n j)) : (r : RTy) →
    (r.close blank).WF → GetsTo D j r → Reaches .infallible (r.close (unroll D n))
  | .named k, _, h => (show k = j from h) ▸ hj
  | .wrap _ t, hw, h => t.hits hj hw h
  | .array t _, hw, h => ⟨h.1, t.hits hj hw h.2⟩
  | .seq _ t, hw, h => t.hits hj hw h
  | .hashMap k t, hw, h => .inr ⟨h.1, t.hits hj hw.2 h.2⟩
  | .option t, hw, h => t.hits hj hw h
  | .result t e, hw, h => h.imp (t.hits hj hw.1) (e.hits hj hw.2)
  | .bound t, hw, h => t.hits hj hw h
  | .range t, hw, h => t.hits hj hw h
  | .rangeInclusive t, hw, h => t.hits hj hw h
  | .lock _ t, hw, h => t.hits hj hw h
  | .refCell t, hw, h => t.hits hj hw h
  | .sizedSlice t _, hw, h => ⟨h.1, t.hits hj hw h.2⟩
  | .tuple fs, hw, h => fs.hits hj hw h

theorem RFields.hits {n j : Nat} (hj : Reaches .infallible (unroll D n j)) : (fs : RFields) →
    (fs.close blank).WF → GetsToFields D j fs → ReachesFields .infallible (fs.close (unroll D n))
  | .nil, _, h => h.elim
  | .cons t fs, hw, h => by
    rcases h with h | ⟨⟨m, hm⟩, h⟩
    · exact .inl (t.hits hj hw.1 h)
    · by_cases hn : Decodable (t.close (unroll D n))
      · exact .inr ⟨hn, fs.hits hj hw.2 h⟩
      · exact .inl (hits_of_made (t.deepens D) (fun n => t.wf_close _ (unroll_wf hD n) hw.1) hm hn)

end

theorem RVariants.hits {n j : Nat} {r : Repr} {ex : List (Option Nat)}
    (hj : Reaches .infallible (unroll D n j)) : (vs : RVariants) → (i : Nat) →
    (vs.close blank).WF → GetsToVariants D j r ex vs i →
      ReachesVariants .infallible r ex (vs.close (unroll D n)) i
  | .nil, _, _, h => h.elim
  | .cons _ fs vs, i, hw, h =>
    h.imp (fun h => ⟨h.1, fs.hits hD hj hw.1 h.2⟩) (RVariants.hits hj vs (i + 1) hw.2)

theorem Decl.hits {n j : Nat} (hj : Reaches .infallible (unroll D n j)) (d : Decl)
    (hw : (d.close blank).WF) (h : GetsToDecl D j d) : Reaches .infallible (d.close (unroll D n)) := by
  cases d with
  | struct fs => exact fs.hits hD hj hw h
  | enum r vs =>
    have h : GetsToVariants D j r (explicitDiscs (vs.close blank)) vs 0 := h
    rw [vs.explicit_close blank (unroll D n)] at h
    exact vs.hits hD hj 0 hw.2.2 h

end

section
variable {D : Decls} {P : Nat → Nat → Prop} (hP : ∀ n j, P n j → P (n + 1) j)
include hP

theorem bound_upward {n m j : Nat} (h : P n j) (hnm : n ≤ m) : P m j := by
  obtain ⟨k, rfl⟩ := Nat.exists_eq_add_of_le hnm
  induction k with
  | zero => exact h
  | succ k ih => exact hP _ _ (ih (Nat.le_add_right _ _))

theorem both_bounds {Q R : Nat → Prop} (h1 : ∃ n, ∀ j, Q j → P n j) (h2 : ∃ n, ∀ j, R j → P n j) :
    ∃ n, ∀ j, Q j ∨ R j → P n j := by
  obtain ⟨n, h1⟩ := h1
  obtain ⟨m, h2⟩ := h2
  refine ⟨max n m, fun j h => ?_⟩
  rcases h with h | h
  · exact bound_upward hP (h1 j h) (Nat.le_max_left _ _)
  · exact bound_upward hP (h2 j h) (Nat.le_max_right _ _)

theorem bound_behind {c : Prop} {Q : Nat → Prop} (h : (∀ j, Q j → ∃ n, P n j) → ∃ n, ∀ j, Q j → P n j)
    (hj : ∀ j, c ∧ Q j → ∃ n, P n j) : ∃ n, ∀ j, c ∧ Q j → P n j := by
  by_cases hc : c
  · obtain ⟨n, hn⟩ := h fun j hq => hj j ⟨hc, hq⟩
    exact ⟨n, fun j hq => hn j hq.2⟩
  · exact ⟨0, fun j hq => absurd hq.1 hc⟩

mutual

/-- A field refers to finitely many declared types. -/
theorem RTy.one_bound : (r : RTy) → (∀ j, GetsTo D j r → ∃ n, P n j) → ∃ n, ∀ j, GetsTo D j r → P n j
  | .plain _, _ => ⟨0, fun _ h => h.elim⟩
  | .named k, h => by
    obtain ⟨n, hn⟩ := h k rfl
    exact ⟨n, fun j hj => (show k = j from hj) ▸ hn⟩
  | .wrap _ t, h => t.one_bound h
  | .array t _, h => bound_behind hP t.one_bound h
  | .seq _ t, h => t.one_bound h
  | .hashMap _ t, h => bound_behind hP t.one_bound h
  | .option t, h => t.one_bound h
  | .result t e, h =>
    both_bounds hP (t.one_bound fun j hj => h j (.inl hj)) (e.one_bound fun j hj => h j (.inr hj))
  | .bound t, h => t.one_bound h
  | .range t, h => t.one_bound h
  | .rangeInclusive t, h => t.one_bound h
  | .lock _ t, h => t.one_bound h
  | .refCell t, h => t.one_bound h
  | .sizedSlice t _, h => bound_behind hP t.one_bound h
  | .tuple fs, h => fs.one_bound h

theorem RFields.one_bound : (fs : RFields) → (∀ j, GetsToFields D j fs → ∃ n, P n j) →
    ∃ n, ∀ j, GetsToFields D j fs → P n j
  | .nil, _ => ⟨0, fun _ h => h.elim⟩
  | .cons t fs, h =>
    both_bounds hP (t.one_bound fun j hj => h j (.inl hj))
      (bound_behind hP fs.one_bound fun j hj => h j (.inr hj))

end

theorem RVariants.one_bound {r : Repr} {ex : List (Option Nat)} : (vs : RVariants) → (i : Nat) →
    (∀ j, GetsToVariants D j r ex vs i → ∃ n, P n j) → ∃ n, ∀ j, GetsToVariants D j r ex vs i → P n j
  | .nil, _, _ => ⟨0, fun _ h => h.elim⟩
  | .cons _ fs vs, i, h =>
    both_bounds hP (bound_behind hP (fs.one_bound hP) fun j hj => h j (.inl hj))
      (RVariants.one_bound vs (i + 1) fun j hj => h j (.inr hj))

theorem Decl.one_bound (d : Decl) (h : ∀ j, GetsToDecl D j d → ∃ n, P n j) :
    ∃ n, ∀ j, GetsToDecl D j d → P n j := by
  cases d with
  | struct fs => exact fs.one_bound hP h
  | enum r vs => exact vs.one_bound hP 0 h

end

/-- What is not the start of an endless chain leads to what is not one only. -/
theorem acc_of_not_endless {D : Decls} {k : Nat} (h : ¬ Endless D k) :
    Acc (fun j k => GetsToDecl D j (D k)) k := by
  refine Classical.byContradiction fun hk => h ?_
  have step : ∀ k : {k // ¬ Acc (fun j k => GetsToDecl D j (D k)) k},
      ∃ j : {k // ¬ Acc (fun j k => GetsToDecl D j (D k)) k}, GetsToDecl D j.val (D k.val) := by
    rintro ⟨k, hk⟩
    refine Classical.byContradiction fun hc => hk ⟨k, fun j hj => ?_⟩
    exact Classical.byContradiction fun hj' => hc ⟨⟨j, hj'⟩, hj⟩
  obtain ⟨f, hf⟩ := Classical.axiomOfChoice step
  let chain : Nat → {k // ¬ Acc (fun j k => GetsToDecl D j (D k)) k} :=
    fun n => Nat.rec ⟨k, hk⟩ (fun _ x => f x) n
  exact ⟨fun n => (chain n).val, rfl, fun n => hf (chain n)⟩

theorem not_endless_of_acc {D : Decls} {k : Nat} (h : Acc (fun j k => GetsToDecl D j (D k)) k) :
    ¬ Endless D k := by
  induction h with
  | intro k _ ih =>
    rintro ⟨next, h0, hn⟩
    refine ih (next 1) ?_ ⟨fun n => next (n + 1), rfl, fun n => hn (n + 1)⟩
    have := hn 0
    rw [h0] at this
    exact this

/-- At some depth decoding does not get to the mark, just if it cannot go on without end. -/
theorem unhit_iff {D : Decls} (hD : WellDeclared D) (hI : NoInfallible D) (k : Nat) :
    (∃ n, ¬ Reaches .infallible (unroll D n k)) ↔ ¬ Endless D k := by
  constructor
  · rintro ⟨n, h⟩
    refine not_endless_of_acc ?_
    induction n generalizing k with
    | zero =>
      refine absurd ?_ h
      show Reaches .infallible (D k).bottom
      cases D k with
      | struct fs => exact .inl rfl
      | enum r vs => exact rfl
    | succ n ih =>
      refine ⟨k, fun j hj => ih j fun hr => h ?_⟩
      exact (D k).hits hD hr (hD k) hj
  · intro h
    replace h := acc_of_not_endless h
    induction h with
    | intro k _ ih =>
      obtain ⟨n, hn⟩ := (D k).one_bound (P := fun n j => ¬ Reaches .infallible (unroll D n j))
        (fun n j => unhit (unroll_deepens D j) fun n => unroll_wf hD n j) ih
      refine ⟨n + 1, fun hr => ?_⟩
      obtain ⟨j, h1, h2⟩ := (D k).gets_of (hD k) (hI k) hr
      exact hn j h1 h2

end Oct
