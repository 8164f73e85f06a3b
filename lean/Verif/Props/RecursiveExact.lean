import Verif.Proofs.RecursiveExact
import Verif.Props.Recursive
/-
C93: exactly which recursive types end on all inputs.
-/
namespace Oct.Props
open Oct Spec

/-- `struct Octet(u8)` and `struct List { head: Octet, tail: Box<List> }`. -/
def listDecls : Decls
  | 0 => .struct (.cons (.plain (.num (.int .u8))) .nil)
  | 1 => .struct (.cons (.named 0) (.cons (.wrap .box (.named 1)) .nil))
  | _ => .struct .nil

/-- `struct Empty {}`, `struct Odd(Empty, Box<Even>)` and `struct Even([Odd; 1])`. -/
def oddDecls : Decls
  | 0 => .struct (.cons (.named 2) (.cons (.wrap .box (.named 1)) .nil))
  | 1 => .struct (.cons (.array (.named 0) 1) .nil)
  | _ => .struct .nil

/-- C93. Exactly: decoding ends on every input, for all of finitely many declared types, if and only
if none of them leads back to itself without reading something on the way. -/
theorem C93_exactly (D : Decls) (N : Nat) (hN : Finitely D N) (hD : NoInfallible D) :
    (∃ (reads : Nat → Prop) (rank : Nat → Nat) (ranks : Nat), Guarded D reads rank ranks) ↔
      ∀ (k : Nat) (i : Input), i.position ≤ i.capacity → ∃ n, DepthSuffices D n k i := by
  constructor
  · rintro ⟨reads, rank, ranks, h⟩ k i hi
    exact ⟨_, suffices_guarded h _ k i hi (Nat.le_refl _)⟩
  · intro h
    refine guarded_of hN fun k => ?_
    obtain ⟨n, hn⟩ := h k none' none'_wf
    exact ⟨n, (suffices_iff hD n k none' none'_wf).mp hn⟩

example : Finitely listDecls 2 ∧ NoInfallible listDecls ∧
    Guarded listDecls (fun k => k = 0 ∨ k = 1) (fun k => if k = 1 then 1 else 0) 2 := by
  refine ⟨fun k hk => ?_, fun k => ?_, fun k => ?_⟩
  · match k, hk with
    | k + 2, _ => rfl
  · match k with
    | 0 => exact ⟨by simp, fun h => (nomatch h), trivial⟩
    | 1 => exact ⟨by simp, by simp [Everywhere, RTy.close], by simp [Everywhere, RTy.close], trivial⟩
    | k + 2 => exact ⟨by simp, trivial⟩
  · match k with
    | 0 => exact ⟨fun _ => .inl trivial, by decide, trivial, .inl trivial⟩
    | 1 => exact ⟨fun _ => .inl (.inl rfl), by decide, (show 0 < 1 by decide), .inl (.inl rfl)⟩
    | k + 2 => exact ⟨fun h => by omega, by simp, trivial⟩

/-- C93. Otherwise there is a declared type whose decoding ends on no input at all: at each depth, it
calls itself once more, having read nothing. -/
theorem C93_never (D : Decls) (N : Nat) (hN : Finitely D N) (hD : NoInfallible D)
    (h : ¬ ∃ (reads : Nat → Prop) (rank : Nat → Nat) (ranks : Nat), Guarded D reads rank ranks) :
    ∃ k, ∀ (i : Input), i.position ≤ i.capacity → ∀ n : Nat,
      (unroll D n k).decode i = (.panic .infallible, i) ∧ ¬ DepthSuffices D n k i := by
  refine Classical.byContradiction fun hc => h (guarded_of hN fun k => ?_)
  refine Classical.byContradiction fun hn => hc ⟨k, fun i hi n => ?_⟩
  have hm : ((unroll D n k).decode none').1.Marked :=
    Classical.byContradiction fun hm => hn ⟨n, hm⟩
  have hi' := marked_of_at (unroll D n k).decode_local hm i hi
  refine ⟨hi', fun hs => (suffices_iff hD n k i hi).mp hs ?_⟩
  rw [hi']

example : Finitely oddDecls 2 ∧ NoInfallible oddDecls ∧
    ¬ ∃ (reads : Nat → Prop) (rank : Nat → Nat) (ranks : Nat), Guarded oddDecls reads rank ranks := by
  refine ⟨fun k hk => ?_, fun k => ?_, ?_⟩
  · match k, hk with
    | k + 2, _ => rfl
  · match k with
    | 0 => exact ⟨by simp, by simp [Everywhere, RTy.close], by simp [Everywhere, RTy.close], trivial⟩
    | 1 => exact ⟨by simp, by simp [Everywhere, RTy.close], trivial⟩
    | k + 2 => exact ⟨by simp, trivial⟩
  · rintro ⟨reads, rank, ranks, h⟩
    have h2 : ¬ reads 2 := fun hr => (h 2).1 hr
    obtain ⟨_, _, hodd⟩ := h 0
    obtain ⟨_, _, heven⟩ := h 1
    have h0 : rank 1 < rank 0 := by
      rcases hodd.2 with hr | hr
      · exact absurd hr h2
      · exact hr.1
    have h1 : rank 0 < rank 1 := by
      rcases heven.1 with hr | hr
      · cases hr
      · exact hr
    omega

end Oct.Props
