import Verif.Spec.Borrows
import Verif.Model.SlotBorrows
/-
What the borrow checker allows programs that own a slot. It does not follow pointers; what is asked of them here is
what it asks of references: one that `as_ptr` returns counts as a `&`, one that `as_mut_ptr` returns as a `&mut`.
-/
namespace Oct.Spec
open Alias

/-- Octets elsewhere are behind the slot, however many (only that they are not in it matters). -/
def Behind (s : Place) (d : Nat) : Prop := s.at_ + s.cap < d

/-- The call compiles and does not panic. -/
def SlotPermits (cap : Nat) (loans : List Loan) : SlotCall → Prop
  | .copyFromSlice n => n ≤ cap
  | .setLen n => n ≤ cap
  | .get h i => ∃ x, loans[h]? = some x ∧ x.alive = true ∧ i < x.size
  | .set h i => ∃ x, loans[h]? = some x ∧ x.alive = true ∧ x.excl = true ∧ i < x.size
  | _ => True

/-- The length of the slot after a call. -/
def slotLenAfter (cap len : Nat) : SlotCall → Nat
  | .copyFromSlice n => n
  | .setLen n => n
  | .write ns ok => if ok then position cap 0 ns else len
  | _ => len

/-- The references after a call. -/
def slotLoansAfter (cap len : Nat) (loans : List Loan) : SlotCall → List Loan
  | .len => loans.map Loan.beside
  | .capacity => loans.map Loan.beside
  | .asSlice => loans.map Loan.beside ++ [⟨len, false, true, true⟩]
  | .asMutSlice => loans.map Loan.ended ++ [⟨cap, true, true, true⟩]
  | .asPtr => loans.map Loan.beside ++ [⟨cap, false, true, true⟩]
  | .asMutPtr => loans.map Loan.ended ++ [⟨cap, true, true, true⟩]
  | .setLen _ => loans.map Loan.ended
  | .copyFromSlice _ => loans.map Loan.ended
  | .write _ _ => loans.map Loan.ended
  | .read _ => loans.map Loan.beside
  | .get _ _ => loans
  | .set _ _ => loans

/-- All calls compile, one after the other. -/
def SlotChecked (cap : Nat) : Nat → List Loan → List SlotCall → Prop
  | _, _, [] => True
  | len, loans, c :: cs =>
    SlotPermits cap loans c ∧ SlotChecked cap (slotLenAfter cap len c) (slotLoansAfter cap len loans c) cs

/-- What a call other than `set` must write: the new contents, and the length if there is a new one. -/
def CallWrites (s : Place) (c : SlotCall) (l : Nat) : Prop :=
  match c with
  | .copyFromSlice n => (s.items n).has l = true ∨ s.head.has l = true
  | .setLen _ => s.head.has l = true
  | .write ns ok => (s.items (position s.cap 0 ns)).has l = true ∨ (ok = true ∧ s.head.has l = true)
  | _ => False

end Oct.Spec
