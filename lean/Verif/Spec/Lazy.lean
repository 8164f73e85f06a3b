import Verif.Model.Lazy
/- What initialisers make, what is encoded of it, and when they are in order. -/
namespace Oct.Spec
open Oct

/-- What comes of an initialiser if each value that it forces is made when it does so: the value, or
`none` if it panics. -/
inductive Makes (init : Nat → Maker) : Maker → Option (List Part) → Prop
  | gives {v : List Part} : Makes init (.gives v) (some v)
  | panics : Makes init .panics none
  | forces {k : Nat} {next : List Part → Maker} {v : List Part} {r : Option (List Part)} :
    Makes init (init k) (some v) → Makes init (next v) r → Makes init (.forces k next) r
  | forcesNone {k : Nat} {next : List Part → Maker} :
    Makes init (init k) none → Makes init (.forces k next) none

/-- Errors are turned with `g`. -/
def Ending.mapErr (g : EncErr → EncErr) : Ending → Ending
  | .encoded r => .encoded (r.mapErr g)
  | .notMade => .notMade

/-- Encoding the parts one after the other, and what a lazy value is made to be in its place, takes an
output to an ending and an output. -/
inductive EncodesMade (init : Nat → Maker) : List Part → Output → Ending → Output → Prop
  | nil {o : Output} : EncodesMade init [] o (.encoded (.ok ())) o
  | plain {m : Enc Unit} {c : List Part} {o o1 o2 : Output} {e : Ending} :
    m o = (.ok (), o1) → EncodesMade init c o1 e o2 → EncodesMade init (.plain m :: c) o e o2
  | plainFails {m : Enc Unit} {c : List Part} {o o1 : Output} {r : Res EncErr Unit} :
    m o = (r, o1) → r ≠ .ok () → EncodesMade init (.plain m :: c) o (.encoded r) o1
  | lazy {k : Nat} {g : EncErr → EncErr} {v c : List Part} {o o1 o2 : Output} {e : Ending} :
    Makes init (init k) (some v) → EncodesMade init v o (.encoded (.ok ())) o1 →
      EncodesMade init c o1 e o2 → EncodesMade init (.lazy k g :: c) o e o2
  | lazyFails {k : Nat} {g : EncErr → EncErr} {v c : List Part} {o o1 : Output} {e : Ending} :
    Makes init (init k) (some v) → EncodesMade init v o e o1 → e ≠ .encoded (.ok ()) →
      EncodesMade init (.lazy k g :: c) o (Ending.mapErr g e) o1
  | lazyNone {k : Nat} {g : EncErr → EncErr} {c : List Part} {o : Output} :
    Makes init (init k) none → EncodesMade init (.lazy k g :: c) o .notMade o

/-- All lazy values among the parts have numbers below `n`. -/
def PartsBelow (n : Nat) (c : List Part) : Prop := ∀ k g, Part.lazy k g ∈ c → k < n

/-- The initialiser only forces values with numbers below `n`, and what it makes only contains such. -/
inductive MakerBelow (n : Nat) : Maker → Prop
  | gives {v : List Part} : PartsBelow n v → MakerBelow n (.gives v)
  | panics : MakerBelow n .panics
  | forces {k : Nat} {next : List Part → Maker} :
    k < n → (∀ v, PartsBelow k v → MakerBelow n (next v)) → MakerBelow n (.forces k next)

/-- The values can be numbered such that each one only needs those before it. -/
def InOrder (init : Nat → Maker) : Prop := ∀ k, MakerBelow k (init k)

/-- One of the first `n` threads has something to do, but none of them can make a step. -/
def Stuck (n : Nat) (s : Lazies) : Prop :=
  (∃ i, i < n ∧ (s.thread i).ending = none) ∧ ∀ i, i < n → s.step i = none

/-- The parts amount to an encoder. -/
def SpellsMade (init : Nat → Maker) (c : List Part) (m : Enc Unit) : Prop :=
  ∀ o e o', EncodesMade init c o e o' → e = .encoded (m o).1 ∧ o' = (m o).2

end Oct.Spec
