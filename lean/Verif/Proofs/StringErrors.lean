import Verif.Model.StringErrors
import Verif.Proofs.ErrorMessages
/-
Messages of the errors of sized strings.
-/
namespace Oct

theorem utf16Message_inj {v v' : BitVec 16} {i i' : Nat} (h : utf16Message v i = utf16Message v' i') :
    v = v' ∧ i = i' := by
  simp only [utf16Message, showHexAlt, List.append_assoc, List.cons_append] at h
  have h := List.append_cancel_left (as := ['0', 'x']) (List.append_cancel_left h)
  obtain ⟨h1, h⟩ := hexText_cancel (by unfold text; decide +kernel) h
  exact ⟨BitVec.eq_of_toNat_eq h1, natText_cancel_end (by unfold text; decide +kernel) h⟩

/-- Texts that begin differently are different. -/
theorem append_ne (a b l l' : List Char) (h : a.zip b ≠ (a.zip b).map fun p => (p.1, p.1)) :
    a ++ l ≠ b ++ l' := by
  intro e
  refine h ?_
  clear h
  induction a generalizing b with
  | nil => rfl
  | cons x a ih =>
    cases b with
    | nil => rfl
    | cons y b =>
      injection e with e1 e2
      subst e1
      simp only [List.zip_cons_cons, List.map_cons]
      rw [← ih b e2]

end Oct
