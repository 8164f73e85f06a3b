import Verif.Model.Consumer
/- What iterators should do for a program that uses them. -/
namespace Oct.Spec
open Oct
variable {α β : Type}

/-- Using an iterator over the items `l`, as the documentation of `Iterator`, `DoubleEndedIterator` and
`ExactSizeIterator` says. -/
def Ideal : Uses α β → List α → β
  | .done b, _ => b
  | .front k, l => Ideal (k l.head?) l.tail
  | .back k, l => Ideal (k l.getLast?) l.dropLast
  | .nth n k, l => Ideal (k l[n]?) (l.drop (n + 1))
  | .hint k, l => Ideal (k l.length) l

/-- In the course of its use of an iterator over `l`, the program never calls `nth`, and asks for the number
of items only as long as it has taken none from the front (`taken`). -/
def Prudent : Uses α β → List α → (taken : Bool) → Prop
  | .done _, _, _ => True
  | .front k, [], taken => Prudent (k none) [] taken
  | .front k, a :: l, _ => Prudent (k (some a)) l true
  | .back k, l, taken => Prudent (k l.getLast?) l.dropLast taken
  | .nth _ _, _, _ => False
  | .hint k, l, taken => taken = false ∧ Prudent (k l.length) l taken

/-- The program never takes items from the back, whatever it is given. -/
def FrontOnly : Uses α β → Prop
  | .done _ => True
  | .front k => ∀ x, FrontOnly (k x)
  | .back _ => False
  | .nth _ k => ∀ x, FrontOnly (k x)
  | .hint k => ∀ n, FrontOnly (k n)

/-- In the course of its use of an iterator over `l`, the program asks for the number of items only as long as
it has taken none from the back (`taken`). -/
def Forward : Uses α β → List α → (taken : Bool) → Prop
  | .done _, _, _ => True
  | .front k, l, taken => Forward (k l.head?) l.tail taken
  | .back k, [], taken => Forward (k none) [] taken
  | .back k, a :: l, _ => Forward (k (a :: l).getLast?) (a :: l).dropLast true
  | .nth n k, l, taken => Forward (k l[n]?) (l.drop (n + 1)) taken
  | .hint k, l, taken => taken = false ∧ Forward (k l.length) l taken

/-- Every item after `step` others, beginning with the first. -/
def everyNth (step : Nat) (l : List α) : List α :=
  (List.range l.length).filterMap fun i => if i % (step + 1) = 0 then l[i]? else none

end Oct.Spec
