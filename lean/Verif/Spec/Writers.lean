import Verif.Model.Writers
/-
What it means to write a text to a writer that may refuse.
-/
namespace Oct.Spec
open Oct

variable {σ : Type}

/-- The writer is given these one after the other, until it refuses one. -/
def offer (w : Writer σ) : List (List Char) → σ → Bool × σ
  | [], s => (true, s)
  | p :: ps, s => if (w p s).1 then offer w ps (w p s).2 else w p s

/-- With these options, the text is written in some pieces, until one is refused, which is reported. -/
def Utters (f : Shower σ) (o : FmtOptions) (t : List Char) : Prop :=
  ∃ ps : List (List Char), ps.flatten = t ∧ ∀ w s, f w o s = offer w ps s

/-- What is known of the impls of the standard library. -/
structure StdLawful (std : StdFmt σ) : Prop where
  int : ∀ i, Utters (std.int i) .plain (showInt i)
  upperHex : ∀ n o, Utters (std.upperHex n) o (padIntegral o ['0', 'x'] (numeral 16 n))
  borrow : Utters std.borrow .plain borrowMessage

/-- A writer into room for so many characters, which takes what fits and then fails. -/
def roomy (n : Nat) : Writer (List Char) := fun p s => (decide (s.length + p.length ≤ n), (s ++ p).take n)

/-- A writer that notes what each call came to. -/
def noted (w : Writer σ) : Writer (σ × List Bool) := fun p s => ((w p s.1).1, (w p s.1).2, s.2 ++ [(w p s.1).1])

end Oct.Spec
