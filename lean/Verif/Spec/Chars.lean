import Verif.Spec.Text
/-
What an iterator from both ends gives, where chars are in a text, and how texts are ordered.
-/
namespace Oct.Spec

/-- What is taken from a list by calls at its front (`true`) and at its back (`false`), and what is left. -/
def taken {α : Type} (l : List α) : List Bool → List (Option α) × List α
  | [] => ([], l)
  | true :: ops => let (outs, l') := taken l.tail ops; (l.head? :: outs, l')
  | false :: ops => let (outs, l') := taken l.dropLast ops; (l.getLast? :: outs, l')

/-- The chars of a text with the positions of their first octets, the text beginning at `i`. -/
def placed (i : Nat) : List Char → List (Nat × Char)
  | [] => []
  | c :: cs => (i, c) :: placed (i + c.utf8Size) cs

end Oct.Spec
