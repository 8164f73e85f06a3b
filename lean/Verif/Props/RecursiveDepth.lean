import Verif.Proofs.RecursiveDepth
import Verif.Props.RecursiveExact
/-
C94: exactly which recursive types have a bound on the depth of nested calls.
-/
namespace Oct.Props
open Oct Spec

/-- `enum Never {}`, `struct Blocked { never: Never, next: Option<Box<Blocked>> }` and
`struct Slots { next: [Box<Slots>; 0], blocked: Blocked }`: declarations that contain themselves, but
decoding does not get there. -/
def blockedDecls : Decls
  | 0 => .enum (.int .u8) .nil
  | 1 => .struct (.cons (.named 0) (.cons (.option (.wrap .box (.named 1))) .nil))
  | 2 => .struct (.cons (.array (.wrap .box (.named 2)) 0) (.cons (.named 1) .nil))
  | _ => .struct .nil

/-- C94. Exactly: there is a depth of nested calls that is enough for every input, if and only if decoding
cannot go from one declared type to the next without end. -/
theorem C94_exactly (D : Decls) (hD : WellDeclared D) (hI : NoInfallible D) (k : Nat) :
    (∃ n, ∀ i : Input, i.position ≤ i.capacity → DepthSuffices D n k i) ↔ ¬ Endless D k := by
  rw [← unhit_iff hD hI k]
  refine exists_congr fun n => ?_
  rw [hits_iff (unroll_wf hD n k)]
  constructor
  · rintro h ⟨i, hi, hm⟩
    exact (suffices_iff hI n k i hi).mp (h i hi) hm
  · intro h i hi
    exact (suffices_iff hI n k i hi).mpr fun hm => h ⟨i, hi, hm⟩

/-- C94. Otherwise each depth is exceeded on some input: the innermost call is made. -/
theorem C94_exceeded (D : Decls) (hD : WellDeclared D) (k : Nat) (h : Endless D k) (n : Nat) :
    ∃ bs, ((unroll D n k).decode (Input.new bs)).1 = .panic .infallible := by
  have hr : Reaches .infallible (unroll D n k) := by
    induction n generalizing k with
    | zero =>
      show Reaches .infallible (D k).bottom
      cases D k with
      | struct fs => exact .inl rfl
      | enum r vs => exact rfl
    | succ n ih =>
      obtain ⟨next, h0, hn⟩ := h
      have hj : Endless D (next 1) := ⟨fun n => next (n + 1), rfl, fun n => hn (n + 1)⟩
      have h1 := hn 0
      rw [h0] at h1
      exact (D k).hits hD (ih (next 1) hj) (hD k) h1
  obtain ⟨bs, hS⟩ := (reaches_iff .infallible _ (unroll_wf hD n k)).mp hr
  refine ⟨bs, ?_⟩
  have h := (C128_stops _ (unroll_wf hD n k) (Input.new bs) ⟨bs, 0 + bs.length⟩ .infallible).mpr
    ⟨bs, [], by simp [Input.new], hS, rfl⟩
  rw [h]
  rfl

/-- Each octet may take one call more in `struct Chain { next: Option<Box<Chain>> }`. -/
example : Endless chainDecls 0 := ⟨fun _ => 0, rfl, fun _ => .inl rfl⟩

/-- One depth is enough for `Slots`, though it contains itself. -/
example : WellDeclared blockedDecls ∧ NoInfallible blockedDecls ∧ ¬ Endless blockedDecls 2 ∧
    ¬ ∃ rank, Hierarchical blockedDecls rank := by
  have never : ∀ n, ¬ Decodable (unroll blockedDecls n 0) := by
    intro n
    cases n with
    | zero => exact id
    | succ n => exact id
  have no0 : ∀ j, ¬ GetsToDecl blockedDecls j (blockedDecls 0) := fun j h => h
  have no1 : ∀ j, GetsToDecl blockedDecls j (blockedDecls 1) → j = 0 := by
    rintro j (h | ⟨⟨n, h⟩, _⟩)
    · exact h.symm
    · exact absurd h (never n)
  have no2 : ∀ j, GetsToDecl blockedDecls j (blockedDecls 2) → j = 1 := by
    rintro j (⟨h, _⟩ | ⟨_, h | ⟨_, h⟩⟩)
    · exact absurd rfl h
    · exact h.symm
    · exact h.elim
  refine ⟨fun k => ?_, fun k => ?_, ?_, ?_⟩
  · match k with
    | 0 => exact ⟨by decide, by decide, trivial⟩
    | 1 => exact ⟨trivial, trivial, trivial⟩
    | 2 => exact ⟨trivial, trivial, trivial⟩
    | k + 3 => exact trivial
  · match k with
    | 0 => exact ⟨by simp, trivial⟩
    | 1 => exact ⟨by simp, by simp [Everywhere, RTy.close], by simp [Everywhere, RTy.close], trivial⟩
    | 2 => exact ⟨by simp, by simp [Everywhere, RTy.close], by simp [Everywhere, RTy.close], trivial⟩
    | k + 3 => exact ⟨by simp, trivial⟩
  · rintro ⟨next, h0, hn⟩
    have h1 : next 1 = 1 := no2 _ (h0 ▸ hn 0)
    have h2 : next 2 = 0 := no1 _ (h1 ▸ hn 1)
    exact no0 _ (h2 ▸ hn 2)
  · rintro ⟨rank, h⟩
    exact absurd (h 2).1 (Nat.lt_irrefl _)

/-- C94. Types that do not contain themselves are among those with a bound. -/
theorem C94_hierarchical (D : Decls) (hD : WellDeclared D) (hI : NoInfallible D) (rank : Nat → Nat)
    (h : Hierarchical D rank) (k : Nat) : ¬ Endless D k :=
  (C94_exactly D hD hI k).mp ⟨rank k + 1, fun i hi => suffices_hierarchical h _ k i hi (Nat.le_refl _)⟩

/-- `struct Inner(u8)` and `struct Outer(Vec<Inner>)`. -/
example : ∃ D rank, WellDeclared D ∧ NoInfallible D ∧ Hierarchical D rank ∧ rank 1 = 1 := by
  refine ⟨fun k => match k with
    | 0 => .struct (.cons (.plain (.num (.int .u8))) .nil)
    | _ => .struct (.cons (.seq .vec (.named 0)) .nil), fun k => min k 1, fun k => ?_, fun k => ?_,
    fun k => ?_, rfl⟩
  · match k with
    | 0 => exact ⟨trivial, trivial⟩
    | k + 1 => exact ⟨trivial, trivial⟩
  · match k with
    | 0 => exact ⟨by simp, fun h => (nomatch h), trivial⟩
    | k + 1 => exact ⟨by simp, by simp [Everywhere, RTy.close], trivial⟩
  · match k with
    | 0 => exact ⟨trivial, trivial⟩
    | k + 1 => exact ⟨show min 0 1 < min (k + 1) 1 by omega, trivial⟩

end Oct.Props
