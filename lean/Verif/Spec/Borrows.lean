import Verif.Model.Borrows
/-
What the borrow checker allows, and when the behaviour of a program is defined.
-/
namespace Oct.Spec
open Alias

/-- What the borrow checker knows of a reference that was returned: how many items it is to, whether it is a `&mut`,
whether it may still be used, and whether it is the last of those that its call returned. -/
structure Loan where
  size : Nat
  excl : Bool
  alive : Bool
  last : Bool

/-- A call by `&mut self` ends all references before. -/
def Loan.ended (x : Loan) : Loan := { x with alive := false }

/-- A call by `&self` ends only those that are `&mut`. -/
def Loan.beside (x : Loan) : Loan := { x with alive := x.alive && !x.excl }

/-- One reference for each of `n` items. -/
def loansOf (excl : Bool) : Nat → List Loan
  | 0 => []
  | n + 1 => ⟨1, excl, true, decide (n = 0)⟩ :: loansOf excl n

/-- The call compiles: a reference that is used may still be used, and is a `&mut` if something is put behind it; and
the slice has the item and there is room for the items. What is used satisfies `rule`. -/
def Permits (rule : Loan → Prop) (cap : Nat) (loans : List Loan) : Call → Prop
  | .copyFromSlice n => n ≤ cap
  | .get h i => ∃ x, loans[h]? = some x ∧ x.alive = true ∧ i < x.size ∧ rule x
  | .set h i => ∃ x, loans[h]? = some x ∧ x.alive = true ∧ x.excl = true ∧ i < x.size ∧ rule x
  | _ => True

/-- The length of the sized slice after a call. -/
def lenAfter (len : Nat) : Call → Nat
  | .copyFromSlice n => n
  | _ => len

/-- The references after a call. -/
def loansAfter (len : Nat) (loans : List Loan) : Call → List Loan
  | .len => loans.map Loan.beside
  | .asSlice => loans.map Loan.beside ++ [⟨len, false, true, true⟩]
  | .asMutSlice => loans.map Loan.ended ++ [⟨len, true, true, true⟩]
  | .copyFromSlice _ => loans.map Loan.ended
  | .eachRef => loans.map Loan.beside ++ loansOf false len
  | .eachMut => loans.map Loan.ended ++ loansOf true len
  | .get _ _ => loans
  | .set _ _ => loans

/-- All calls compile, one after the other. -/
def Checked (rule : Loan → Prop) (cap : Nat) : Nat → List Loan → List Call → Prop
  | _, _, [] => True
  | len, loans, c :: cs =>
    Permits rule cap loans c ∧ Checked rule cap (lenAfter len c) (loansAfter len loans c) cs

/-- Any reference may be used. -/
def anyLoan (_ : Loan) : Prop := True

/-- Of the references that `each_mut` returns, only the last. -/
def lastLoan (x : Loan) : Prop := x.excl = true → x.last = true

/-- Nothing undefined happens at any location, in a program that owns the sized slice `s`, and has a reference to all
that is elsewhere. -/
def Defined {σ : Type} (R : Rules σ) (s : Place) (es : List Event) : Prop :=
  ∀ l, ∃ σ', runAt R l es (R.start (if s.whole.has l then ownerTag else dataTag)) = some σ'

/-- Items elsewhere are not in the sized slice. -/
def Apart (s : Place) (d : Nat) : Prop := s.at_ + s.cap + 1 ≤ d ∨ d + s.cap ≤ s.at_

/-- The events are uses of the pointer `t`, of single ones of the first `n` items. -/
def Uses (s : Place) (t n : Nat) (es : List Event) : Prop :=
  ∀ e ∈ es, ∃ i, i < n ∧ (e = .read t ⟨s.at_ + i, 1⟩ ∨ e = .write t ⟨s.at_ + i, 1⟩)

/-- Something is written at `l`. -/
def WrittenAt (es : List Event) (l : Nat) : Prop := ∃ t r, Event.write t r ∈ es ∧ r.has l = true

/-- Something is read at `l`, other than by making a reference. -/
def ReadAt (es : List Event) (l : Nat) : Prop := ∃ t r, Event.read t r ∈ es ∧ r.has l = true

end Oct.Spec
