import Verif.Spec.Borrows
import Verif.Model.IterBorrows
/-
What the borrow checker allows programs that own an iterator, and what of it is read and written.
-/
namespace Oct.Spec
open Alias

/-- The call compiles; and `nth` neither panics nor leaves the buffer (what it does then is in C25). -/
def IterPermits (cap len : Nat) (loans : List Loan) : IterCall → Prop
  | .nth i => 0 < i ∧ (i ≤ len → i < cap)
  | .get h i => ∃ x, loans[h]? = some x ∧ x.alive = true ∧ i < x.size
  | .set h i => ∃ x, loans[h]? = some x ∧ x.alive = true ∧ x.excl = true ∧ i < x.size
  | _ => True

/-- How many items are left after a call. -/
def iterLenAfter (len : Nat) : IterCall → Nat
  | .next => len - 1
  | .nextBack => len - 1
  | .nth i => if i ≤ len then len - i else len
  | _ => len

/-- The references after a call. -/
def iterLoansAfter (len : Nat) (loans : List Loan) : IterCall → List Loan
  | .asSlice => loans.map Loan.beside ++ [⟨len, false, true, true⟩]
  | .asMutSlice => loans.map Loan.ended ++ [⟨len, true, true, true⟩]
  | .next => loans.map Loan.ended
  | .nextBack => loans.map Loan.ended
  | .nth _ => loans.map Loan.ended
  | .clone => loans.map Loan.beside
  | .sizeHint => loans.map Loan.beside
  | .get _ _ => loans
  | .set _ _ => loans

/-- All calls compile, one after the other. -/
def IterChecked (cap : Nat) : Nat → List Loan → List IterCall → Prop
  | _, _, [] => True
  | len, loans, c :: cs =>
    IterPermits cap len loans c ∧ IterChecked cap (iterLenAfter len c) (iterLoansAfter len loans c) cs

/-- What a call other than `get` must read, if items are left from `pos` to `pos + len`: the items that are copied or
returned, and position and length. -/
def IterReads (s : Place) (pos len : Nat) (c : IterCall) (l : Nat) : Prop :=
  s.head.has l = true ∨
  match c with
  | .next => 0 < len ∧ l = s.at_ + pos
  | .nextBack => 0 < len ∧ l + 1 = s.at_ + pos + len
  | .nth i => i ≤ len ∧ l = s.at_ + i
  | .clone => s.at_ + pos ≤ l ∧ l < s.at_ + pos + len
  | _ => False

/-- What a call other than `set` must write: what is destroyed, and position and length if something is returned. -/
def IterWrites (s : Place) (pos len : Nat) (c : IterCall) (l : Nat) : Prop :=
  match c with
  | .next => 0 < len ∧ s.head.has l = true
  | .nextBack => 0 < len ∧ s.head.has l = true
  | .nth i => i ≤ len ∧ (s.head.has l = true ∨ (s.at_ + pos ≤ l ∧ l + 1 < s.at_ + pos + i))
  | _ => False

/-- The call is by `&mut self`. -/
def IterByMut : IterCall → Prop
  | .asMutSlice => True
  | .next => True
  | .nextBack => True
  | .nth _ => True
  | _ => False

end Oct.Spec
