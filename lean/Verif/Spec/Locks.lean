import Verif.Model.Locks
/- What it means for threads to be over, for locks to be in order, and what locks stand for. -/
namespace Oct.Spec
open Oct

/-- The thread has nothing left to do. -/
def Over : Thread → Prop
  | .ended _ => True
  | .updating _ us => us = []
  | _ => False

/-- Somebody has something to do, but nobody can make a step. -/
def Deadlock (joins : Locks → Nat → Bool) (s : Locks) : Prop :=
  (∃ k, ¬Over (s.thread k)) ∧ ∀ k, s.step joins k = none

/-- Threads that have not begun. -/
def Fresh : Thread → Prop
  | .encoding _ held => held = []
  | .updating guarded _ => guarded = false
  | _ => False

/-- All locks that the pieces encode are of a rank below `n`. -/
def Below (rank : Nat → Nat) (n : Nat) (c : List Piece) : Prop :=
  ∀ r g, Piece.lock r g ∈ c → rank r < n

/-- Locks only contain locks of a lower rank (so that no lock contains itself, directly or not),
now and after each update that a thread is going to make. -/
def Layered (rank : Nat → Nat) (content : Nat → List Piece) (thread : Nat → Thread) : Prop :=
  (∀ r, Below rank (rank r) (content r)) ∧
  ∀ k guarded us, thread k = .updating guarded us → ∀ r c, (r, c) ∈ us → Below rank (rank r) c

/-- No lock contains more than `b` pieces, now or after an update that a thread is going to make. (Of
finitely many locks and threads there always is such a number.) -/
def Bounded (b : Nat) (content : Nat → List Piece) (thread : Nat → Thread) : Prop :=
  (∀ r, (content r).length ≤ b) ∧
  ∀ k guarded us, thread k = .updating guarded us → ∀ r c, (r, c) ∈ us → c.length ≤ b

/-- Encoding the pieces one after the other, and what is in a lock in its place, takes an output to a
result and an output. -/
inductive Passes (content : Nat → List Piece) :
    List Piece → Output → Res EncErr Unit → Output → Prop
  | nil {o : Output} : Passes content [] o (.ok ()) o
  | plain {m : Enc Unit} {c : List Piece} {o o1 o2 : Output} {r : Res EncErr Unit} :
    m o = (.ok (), o1) → Passes content c o1 r o2 → Passes content (.plain m :: c) o r o2
  | plainFails {m : Enc Unit} {c : List Piece} {o o1 : Output} {r : Res EncErr Unit} :
    m o = (r, o1) → r ≠ .ok () → Passes content (.plain m :: c) o r o1
  | lock {l : Nat} {g : EncErr → EncErr} {c : List Piece} {o o1 o2 : Output} {r : Res EncErr Unit} :
    Passes content (content l) o (.ok ()) o1 → Passes content c o1 r o2 →
      Passes content (.lock l g :: c) o r o2
  | lockFails {l : Nat} {g : EncErr → EncErr} {c : List Piece} {o o1 : Output} {r : Res EncErr Unit} :
    Passes content (content l) o r o1 → r ≠ .ok () →
      Passes content (.lock l g :: c) o (r.mapErr g) o1

/-- As `Passes`, where the contents `C t` change with the time `t`: each lock is passed through as it
was at one moment, and these moments come one after the other, from the first time to the second one. -/
inductive Moments (C : Nat → Nat → List Piece) :
    Nat → List Piece → Output → Res EncErr Unit → Output → Nat → Prop
  | nil {t t' : Nat} {o : Output} : t ≤ t' → Moments C t [] o (.ok ()) o t'
  | plain {t t' : Nat} {m : Enc Unit} {c : List Piece} {o o1 o2 : Output} {r : Res EncErr Unit} :
    m o = (.ok (), o1) → Moments C t c o1 r o2 t' → Moments C t (.plain m :: c) o r o2 t'
  | plainFails {t t' : Nat} {m : Enc Unit} {c : List Piece} {o o1 : Output} {r : Res EncErr Unit} :
    t ≤ t' → m o = (r, o1) → r ≠ .ok () → Moments C t (.plain m :: c) o r o1 t'
  | lock {t t1 t2 t' l : Nat} {g : EncErr → EncErr} {c : List Piece} {o o1 o2 : Output}
      {r : Res EncErr Unit} :
    t ≤ t1 → Moments C t1 (C t1 l) o (.ok ()) o1 t2 → Moments C t2 c o1 r o2 t' →
      Moments C t (.lock l g :: c) o r o2 t'
  | lockFails {t t1 t' l : Nat} {g : EncErr → EncErr} {c : List Piece} {o o1 : Output}
      {r : Res EncErr Unit} :
    t ≤ t1 → Moments C t1 (C t1 l) o r o1 t' → r ≠ .ok () →
      Moments C t (.lock l g :: c) o (r.mapErr g) o1 t'

/-- The thread is encoding what is in the lock `r`, or has failed to and still holds its guard. -/
def Inside (r : Nat) : Thread → Prop
  | .encoding _ held => ∃ f ∈ held, f.lock = r
  | .failing _ held => ∃ f ∈ held, f.lock = r
  | _ => False

/-- The thread is writing to the lock `r`. -/
def Writing (r : Nat) : Thread → Prop
  | .updating true ((r', _) :: _) => r' = r
  | _ => False

/-- The pieces amount to an encoder. -/
def Spells (content : Nat → List Piece) (c : List Piece) (m : Enc Unit) : Prop :=
  ∀ o r o', Passes content c o r o' → m o = (r, o')

end Oct.Spec
