import Verif.Proofs.SizedSlice
import Verif.Spec.Deque
/- Iterators of sized slices refine the list of remaining items. -/
namespace Oct
open Spec
variable {α : Type}

namespace SizedIter

/-- One operation on an iterator, panics being caught. -/
def step (it : SizedIter α) : DequeOp α → Res Empty (DequeOut α × SizedIter α)
  | .front => it.next.map fun (a, it') => (.item a, it')
  | .back => it.nextBack.map fun (a, it') => (.item a, it')
  | .set i a =>
    match it.setIndex i a with
    | .ok it' => .ok (.unit, it')
    | .panic _ => .ok (.panicked, it)
    | .ub u => .ub u
  | .clone => it.clone.map fun it' => (.unit, it')

/-- A history of operations on an iterator. -/
def run (it : SizedIter α) : List (DequeOp α) → Res Empty (List (DequeOut α) × SizedIter α)
  | [] => .ok ([], it)
  | op :: ops =>
    match it.step op with
    | .ok (out, it') => (it'.run ops).map fun (outs, it'') => (out :: outs, it'')
    | .panic p => .panic p
    | .ub u => .ub u

theorem step_spec {it : SizedIter α} {l : List α} (h : it.Represents l) (op : DequeOp α) :
    ∃ it', it.step op = .ok ((dequeStep l op).1, it') ∧ it'.Represents (dequeStep l op).2 := by
  cases op with
  | front =>
    cases l with
    | nil => exact ⟨it, by rw [step, h.next_nil]; rfl, h⟩
    | cons a l =>
      obtain ⟨h1, h2⟩ := h.next_cons
      exact ⟨_, by rw [step, h1]; rfl, h2⟩
  | back =>
    rcases List.eq_nil_or_concat l with rfl | ⟨l', a, rfl⟩
    · exact ⟨it, by rw [step, h.nextBack_nil]; rfl, h⟩
    · rw [List.concat_eq_append] at h ⊢
      obtain ⟨h1, h2⟩ := h.nextBack_concat
      refine ⟨_, ?_, by rw [dequeStep, List.dropLast_concat]; exact h2⟩
      · rw [step, h1, dequeStep, List.getLast?_concat]; rfl
  | set i a =>
    by_cases hi : i < l.length
    · obtain ⟨h1, h2⟩ := (h.setIndex i a).1 hi
      refine ⟨_, ?_, by rw [dequeStep, if_pos hi]; exact h2⟩
      · rw [step, h1, dequeStep, if_pos hi]
    · have h1 := (h.setIndex i a).2 (Nat.not_lt.mp hi)
      refine ⟨it, ?_, ?_⟩
      · rw [step, h1, dequeStep, if_neg hi]
      · rw [dequeStep, if_neg hi]; exact h
  | clone =>
    obtain ⟨it', h1, h2, _⟩ := h.clone
    exact ⟨it', by rw [step, h1]; rfl, h2⟩

theorem run_spec : ∀ (ops : List (DequeOp α)) {it : SizedIter α} {l : List α}, it.Represents l →
    ∃ it', it.run ops = .ok ((dequeRun l ops).1, it') ∧ it'.Represents (dequeRun l ops).2
  | [], it, _, h => ⟨it, rfl, h⟩
  | op :: ops, _, l, h => by
    obtain ⟨it1, h1, h2⟩ := step_spec h op
    obtain ⟨it2, h3, h4⟩ := run_spec ops h2
    exact ⟨it2, by rw [run, h1]; simp only; rw [h3]; rfl, h4⟩

/-- `next` `k + 1` times, keeping the last item. -/
def nextN : Nat → SizedIter α → Res Empty (Option α × SizedIter α)
  | 0, it => it.next
  | k + 1, it =>
    match it.next with
    | .ok (_, it') => nextN k it'
    | .panic p => .panic p
    | .ub u => .ub u

theorem nextN_spec : ∀ (k : Nat) {it : SizedIter α} {l : List α}, it.Represents l →
    ∃ it', nextN k it = .ok (l[k]?, it') ∧ it'.Represents (l.drop (k + 1))
  | 0, it, [], h => ⟨it, h.next_nil, h⟩
  | 0, _, _ :: _, h => ⟨_, h.next_cons.1, h.next_cons.2⟩
  | k + 1, it, [], h => by
    obtain ⟨it', h1, h2⟩ := nextN_spec k h
    refine ⟨it', ?_, ?_⟩
    · rw [nextN, h.next_nil]; simp only; rw [h1]; rfl
    · simpa using h2
  | k + 1, _, a :: l, h => by
    obtain ⟨it', h1, h2⟩ := nextN_spec k h.next_cons.2
    refine ⟨it', ?_, ?_⟩
    · rw [nextN, h.next_cons.1]; simp only; rw [h1]; rfl
    · simpa using h2

end SizedIter

namespace Spec

theorem dequeRun_parts : ∀ (ops : List (DequeOp α)) (l : List α),
    (∀ op ∈ ops, op = .front ∨ op = .back) →
    fronts ops (dequeRun l ops).1 ++ (dequeRun l ops).2 ++ (backs ops (dequeRun l ops).1).reverse = l
  | [], l, _ => by simp [dequeRun, fronts, backs]
  | op :: ops, l, h => by
    have ih := fun m => dequeRun_parts ops m (fun o ho => h o (List.mem_cons_of_mem _ ho))
    rcases h op (List.mem_cons_self ..) with rfl | rfl
    · cases l with
      | nil => simpa [dequeRun, dequeStep, fronts, backs] using ih []
      | cons a l =>
        have := ih l
        simp only [dequeRun, dequeStep, List.head?_cons, List.tail_cons, fronts, backs,
          List.cons_append]
        rw [this]
    · rcases List.eq_nil_or_concat l with rfl | ⟨l', a, rfl⟩
      · simpa [dequeRun, dequeStep, fronts, backs] using ih []
      · have := ih l'
        rw [List.concat_eq_append]
        simp only [dequeRun, dequeStep, List.getLast?_concat, List.dropLast_concat, fronts, backs,
          List.reverse_cons]
        rw [← List.append_assoc, this]

end Spec
end Oct
